import Verif.Visilib.MergeBlocks
import Verif.Visilib.PaddingProps

/-!
C200: what becomes of zones and the pieces around them when they are merged (`Polygon::offset_polygons`,
`src/cpp/VisilibityLib/visilibity.cpp` 1801-2008, and `Polygon::boost_union`, 4126-4207).
-/

namespace Verif.Visilib.PaddingMerge

open Complex Verif Verif.Visilib.Merge Verif.Visilib.Padding

variable {P R : Type}

/-! ### Pieces that meet -/

/-- The inside of the rectangle around an edge. -/
theorem rect_interior {eps d : ℝ} {b c y : ℂ} (hd : d ≠ 0) (hbc : c - b ≠ 0)
    (h0 : -(fuzz eps * ‖c - b‖) < ((y - b) * (starRingEnd ℂ) (c - b)).re)
    (h1 : ((y - b) * (starRingEnd ℂ) (c - b)).re < ‖c - b‖ * (‖c - b‖ + fuzz eps))
    (h2 : |((y - b) * (starRingEnd ℂ) (c - b)).im| < |d| * ‖c - b‖) : y ∈ interior (area (rect eps d b c)) := by
  have hl := norm_pos_iff.2 hbc
  rw [mem_interior]
  refine ⟨{y | -(fuzz eps * ‖c - b‖) < ((y - b) * (starRingEnd ℂ) (c - b)).re ∧
    ((y - b) * (starRingEnd ℂ) (c - b)).re < ‖c - b‖ * (‖c - b‖ + fuzz eps) ∧
    |((y - b) * (starRingEnd ℂ) (c - b)).im| < |d| * ‖c - b‖}, ?_, ?_, h0, h1, h2⟩
  · rintro y ⟨h0, h1, h2⟩
    obtain ⟨x, hx⟩ : ∃ x, x = (y - b) * (starRingEnd ℂ) (c - b) := ⟨_, rfl⟩
    rw [← hx] at h0 h1 h2
    have hn : (c - b) * (starRingEnd ℂ) (c - b) = ((‖c - b‖ ^ 2 : ℝ) : ℂ) := by
      rw [Complex.mul_conj, Complex.normSq_eq_norm_sq]
    have hn' : ((‖c - b‖ ^ 2 : ℝ) : ℂ) ≠ 0 := by
      have : ‖c - b‖ ^ 2 ≠ 0 := by positivity
      exact_mod_cast this
    have hcc : (starRingEnd ℂ) (c - b) ≠ 0 := by rwa [Ne, map_eq_zero]
    have hy : y = b + ((x.re / ‖c - b‖ ^ 2 : ℝ) : ℂ) * (c - b) + ((x.im / ‖c - b‖ ^ 2 : ℝ) : ℂ) * I * (c - b) := by
      have e : (y - b) * ((‖c - b‖ ^ 2 : ℝ) : ℂ) = x * (c - b) := by rw [hx, ← hn]; ring
      have e2 : x = (x.re : ℂ) + (x.im : ℂ) * I := (Complex.re_add_im x).symm
      have e3 : y - b = (x / ((‖c - b‖ ^ 2 : ℝ) : ℂ)) * (c - b) := by
        rw [div_mul_eq_mul_div, ← e, mul_div_assoc, div_self hn', mul_one]
      rw [Complex.ofReal_div, Complex.ofReal_div]
      have e4 : y = b + (x / ((‖c - b‖ ^ 2 : ℝ) : ℂ)) * (c - b) := by rw [← e3]; ring
      rw [e4]
      nth_rw 1 [e2]
      ring
    rw [hy]
    apply rect_wide hd hbc
    · rw [pow_two, ← div_div, div_mul_cancel₀ _ hl.ne']
      have : -fuzz eps < x.re / ‖c - b‖ := by rw [lt_div_iff₀ hl]; linarith
      linarith
    · rw [pow_two, ← div_div, div_mul_cancel₀ _ hl.ne', div_le_iff₀ hl]
      linarith
    · rw [norm_mul, norm_mul, norm_I, mul_one, Complex.norm_real, Real.norm_eq_abs, abs_div, abs_of_pos (show 0 < ‖c - b‖ ^ 2 by positivity),
        pow_two, ← div_div, div_mul_cancel₀ _ hl.ne', div_le_iff₀ hl]
      exact h2.le
    · rw [mul_assoc, mul_assoc, hn, Complex.re_ofReal_mul, mul_comm I, Complex.re_ofReal_mul]
      simp
  · have c1 : Continuous fun y : ℂ => ((y - b) * (starRingEnd ℂ) (c - b)).re := by fun_prop
    have c2 : Continuous fun y : ℂ => |((y - b) * (starRingEnd ℂ) (c - b)).im| := by fun_prop
    exact (isOpen_lt continuous_const c1).inter ((isOpen_lt c1 continuous_const).inter (isOpen_lt c2 continuous_const))

theorem rect_start {eps d : ℝ} {b c : ℂ} (hd : d ≠ 0) (hbc : c - b ≠ 0) : b ∈ interior (area (rect eps d b c)) := by
  have hl := norm_pos_iff.2 hbc
  have hf := fuzz_pos eps
  have hd' := abs_pos.2 hd
  refine rect_interior hd hbc ?_ ?_ ?_ <;> rw [sub_self, zero_mul]
  · rw [Complex.zero_re, neg_lt_zero]; positivity
  · rw [Complex.zero_re]; positivity
  · rw [Complex.zero_im, abs_zero]; positivity

theorem rect_end {eps d : ℝ} {b c : ℂ} (hd : d ≠ 0) (hbc : c - b ≠ 0) : c ∈ interior (area (rect eps d b c)) := by
  have hl := norm_pos_iff.2 hbc
  have hf := fuzz_pos eps
  have hd' := abs_pos.2 hd
  refine rect_interior hd hbc ?_ ?_ ?_ <;> rw [Complex.mul_conj, Complex.normSq_eq_norm_sq]
  · rw [Complex.ofReal_re]
    have : 0 < fuzz eps * ‖c - b‖ := by positivity
    nlinarith [sq_nonneg ‖c - b‖]
  · rw [Complex.ofReal_re]
    have : 0 < fuzz eps * ‖c - b‖ := by positivity
    nlinarith
  · rw [Complex.ofReal_im, abs_zero]; positivity

/-- A convex place with an inside is the closure of its inside, or part of it. -/
theorem thick {s : Set ℂ} (hs : Convex ℝ s) (h : (interior s).Nonempty) : s ⊆ closure (interior s) := by
  rw [hs.closure_interior_eq_closure_of_nonempty_interior h]
  exact subset_closure

/-- Not in the code: the edges at a corner are not too short, nor parallel up to the tolerance. -/
structure Turning (eps : ℝ) (a b c : ℂ) : Prop where
  edge : eps < ‖b - a‖ ∧ eps < ‖c - b‖
  turn : max 1e-12 |eps| ≤ |((starRingEnd ℂ) (b - a) * (c - b)).im|

theorem Turning.sound {eps : ℝ} {a b c : ℂ} (h : Turning eps a b c) : Sound eps a b c := ⟨h.edge, .inl h.turn⟩

/-- The piece at a corner has an inside, and the corner is at its rim. -/
theorem corner_thick {eps d : ℝ} {a b c : ℂ} (heps : 0 ≤ eps) (hd : d ≠ 0) (ht : Turning eps a b c) :
    b ∈ closure (interior (area (corner eps d a b c))) := by
  have hd' := abs_pos.2 hd
  have hb : b ∈ area (corner eps d a b c) := by
    have := corner_cover (w := 0) heps hd ht.edge.1 ht.edge.2 ht.turn (by rw [norm_zero]; exact abs_nonneg _) (by simp) (by simp)
    simpa using this
  refine thick (convex_convexHull ℝ _) ?_ hb
  obtain ⟨u, hu⟩ : ∃ u, u = b - a := ⟨_, rfl⟩
  obtain ⟨e, he⟩ : ∃ e, e = c - b := ⟨_, rfl⟩
  obtain ⟨x, hx⟩ : ∃ x, x = ((starRingEnd ℂ) u * e).im := ⟨_, rfl⟩
  have hx0 : x ≠ 0 := by
    intro h
    have := ht.turn
    rw [← hu, ← he, ← hx, h, abs_zero] at this
    have := le_trans (le_max_left _ _) this
    norm_num at this
  have h1 : ∀ s : ℝ, (((-(x * s) : ℝ) : ℂ) * (I * (u + e)) * (starRingEnd ℂ) u).re = x ^ 2 * s := by
    intro s
    rw [mul_assoc, Complex.re_ofReal_mul, hx]
    simp only [Complex.mul_re, Complex.mul_im, Complex.add_re, Complex.add_im, Complex.I_re, Complex.I_im, Complex.conj_re, Complex.conj_im]
    ring
  have h2 : ∀ s : ℝ, (((-(x * s) : ℝ) : ℂ) * (I * (u + e)) * (starRingEnd ℂ) e).re = -(x ^ 2 * s) := by
    intro s
    rw [mul_assoc, Complex.re_ofReal_mul, hx]
    simp only [Complex.mul_re, Complex.mul_im, Complex.add_re, Complex.add_im, Complex.I_re, Complex.I_im, Complex.conj_re, Complex.conj_im]
    ring
  obtain ⟨m, hm⟩ : ∃ m, m = |x| * ‖u + e‖ + 1 := ⟨_, rfl⟩
  have hm0 : 0 < m := by rw [hm]; positivity
  obtain ⟨s, hs⟩ : ∃ s, s = |d| / (2 * m) := ⟨_, rfl⟩
  have hs0 : 0 < s := by rw [hs]; positivity
  refine ⟨b + ((-(x * s) : ℝ) : ℂ) * (I * (u + e)), ?_⟩
  rw [mem_interior]
  refine ⟨{y | ‖y - b‖ < |d| ∧ 0 < ((y - b) * (starRingEnd ℂ) u).re ∧ ((y - b) * (starRingEnd ℂ) e).re < 0}, ?_, ?_, ?_⟩
  · rintro y ⟨y1, y2, y3⟩
    rw [hu] at y2
    rw [he] at y3
    have := corner_cover heps hd ht.edge.1 ht.edge.2 ht.turn y1.le y2.le y3.le
    rwa [add_sub_cancel] at this
  · have c1 : Continuous fun y : ℂ => ‖y - b‖ := by fun_prop
    have c2 : Continuous fun y : ℂ => ((y - b) * (starRingEnd ℂ) u).re := by fun_prop
    have c3 : Continuous fun y : ℂ => ((y - b) * (starRingEnd ℂ) e).re := by fun_prop
    exact (isOpen_lt c1 continuous_const).inter ((isOpen_lt continuous_const c2).inter (isOpen_lt c3 continuous_const))
  · have hp : 0 < x ^ 2 * s := by positivity
    refine ⟨?_, ?_, ?_⟩
    · rw [add_sub_cancel_left, norm_mul, norm_mul, norm_I, one_mul, Complex.norm_real, Real.norm_eq_abs, abs_neg, abs_mul, abs_of_pos hs0]
      have e1 : |x| * s * ‖u + e‖ ≤ m * s := by rw [hm]; nlinarith
      have e2 : m * s = |d| / 2 := by rw [hs]; field_simp
      linarith
    · simp only [add_sub_cancel_left]; rw [h1]; exact hp
    · simp only [add_sub_cancel_left]; rw [h2]; linarith

/-- Two places meet inside, if a place of one is inside the other. -/
theorem meet_inside {s t : Set ℂ} {x : ℂ} (h1 : x ∈ closure (interior s)) (h2 : x ∈ interior t) : (interior s ∩ interior t).Nonempty := by
  obtain ⟨y, hy, hy'⟩ := mem_closure_iff.1 h1 _ isOpen_interior h2
  exact ⟨y, hy', hy⟩

/-! ### Lists of polygons each of which meets one shortly before it -/

/-- Not in the code, what is required of Boost (used at visilibity.cpp 4108-4113 and 4163-4166): two polygons have a distance of zero exactly if they have a place in common, and the union of two
polygons that meet inside is one polygon. -/
structure Plane (g : Geo P R) (pl : Places g ℂ) : Prop where
  meet : ∀ p q, g.apart p q = false ↔ ∃ x, x ∈ pl.at_ p ∧ x ∈ pl.at_ q
  one : ∀ p q, (interior (pl.at_ p) ∩ interior (pl.at_ q)).Nonempty → ∃ r, g.union p q = [r]

/-- Not in the code: each polygon but the first meets one of the two before it. -/
def Chain {g : Geo P R} (pl : Places g ℂ) (b : List P) : Prop :=
  ∀ j, 1 ≤ j → j < b.length → ∃ i p q, i < j ∧ j ≤ i + 2 ∧ b[i]? = some p ∧ b[j]? = some q ∧
    (interior (pl.at_ p) ∩ interior (pl.at_ q)).Nonempty

theorem sure_of_meet {g : Geo P R} {pl : Places g ℂ} (hpl : Plane g pl) {ps : List P} (hv : ∀ p ∈ ps, g.valid p = true) {i j : Nat}
    {p q : P} (hij : i < j) (hp : ps[i]? = some p) (hq : ps[j]? = some q)
    (hm : (interior (pl.at_ p) ∩ interior (pl.at_ q)).Nonempty) : Sure g pl ps i j := by
  refine ⟨mem_overlaps.2 ⟨hij, p, q, hp, hq, hv _ (List.mem_of_getElem? hp), hv _ (List.mem_of_getElem? hq), ?_⟩, ?_⟩
  · rw [hpl.meet]
    obtain ⟨x, h1, h2⟩ := hm
    exact ⟨x, interior_subset h1, interior_subset h2⟩
  · intro p' q' hp' hq' r s hr hs
    rw [hp] at hp'
    rw [hq] at hq'
    obtain rfl := Option.some.inj hp'
    obtain rfl := Option.some.inj hq'
    obtain ⟨x, h1, h2⟩ := hm
    exact hpl.one _ _ ⟨x, interior_mono hr h1, interior_mono hs h2⟩

/-- Not in the code: the number of the list an element of joined lists is from. -/
def blockOf : List (List P) → Nat → Nat
  | [], _ => 0
  | b :: bs, i => if i < b.length then 0 else blockOf bs (i - b.length) + 1

theorem blockOf_spec : ∀ (bs : List (List P)) (i : Nat) (p : P), bs.flatten[i]? = some p →
    ∃ b, bs[blockOf bs i]? = some b ∧ p ∈ b := by
  intro bs
  induction bs with
  | nil => intro i p h; simp at h
  | cons b bs ih =>
    intro i p h
    unfold blockOf
    rw [List.flatten_cons, List.getElem?_append] at h
    split
    · next hi =>
      rw [if_pos hi] at h
      exact ⟨b, by simp, List.mem_of_getElem? h⟩
    · next hi =>
      rw [if_neg hi] at h
      obtain ⟨b', h1, h2⟩ := ih _ _ h
      exact ⟨b', by simpa using h1, h2⟩

theorem chain_flatten {g : Geo P R} {pl : Places g ℂ} : ∀ (bs : List (List P)), (∀ b ∈ bs, Chain pl b) → ∀ j, j < bs.flatten.length →
    (∀ i, i < j → blockOf bs i ≠ blockOf bs j) ∨ ∃ i p q, i < j ∧ j ≤ i + 2 ∧ bs.flatten[i]? = some p ∧ bs.flatten[j]? = some q ∧
      (interior (pl.at_ p) ∩ interior (pl.at_ q)).Nonempty := by
  intro bs
  induction bs with
  | nil => intro _ j h; simp at h
  | cons b bs ih =>
    intro hb j hj
    rw [List.flatten_cons, List.length_append] at hj
    by_cases hjb : j < b.length
    · by_cases h0 : j = 0
      · exact .inl fun i hi => by omega
      · obtain ⟨i, p, q, h1, h2, h3, h4, h5⟩ := hb b (by simp) j (by omega) hjb
        refine .inr ⟨i, p, q, h1, h2, ?_, ?_, h5⟩
        · rw [List.flatten_cons, List.getElem?_append, if_pos (by omega)]; exact h3
        · rw [List.flatten_cons, List.getElem?_append, if_pos hjb]; exact h4
    · rcases ih (fun b' h => hb b' (by simp [h])) (j - b.length) (by omega) with h | ⟨i, p, q, h1, h2, h3, h4, h5⟩
      · left
        intro i hi
        unfold blockOf
        rw [if_neg hjb]
        split
        · omega
        · next hib =>
          have := h (i - b.length) (by omega)
          omega
      · refine .inr ⟨i + b.length, p, q, by omega, by omega, ?_, ?_, h5⟩
        · rw [List.flatten_cons, List.getElem?_append, if_neg (by omega), Nat.add_sub_cancel]; exact h3
        · rw [List.flatten_cons, List.getElem?_append, if_neg hjb]; exact h4

/-- Lists of polygons that are apart from each other are merged to one polygon each. -/
theorem merge_chains {g : Geo P R} {pl : Places g ℂ} (hpl : Plane g pl) (bs : List (List P)) (hv : ∀ p ∈ bs.flatten, g.valid p = true)
    (hchain : ∀ b ∈ bs, Chain pl b)
    (hapart : ∀ (k l : Nat) (a b : List P), k ≠ l → bs[k]? = some a → bs[l]? = some b → Disjoint (pl.all a) (pl.all b)) (fuel : Nat) :
    ∃ out, loop g (fuel + 1) bs.flatten (overlaps g bs.flatten) [] = .ok (some out) ∧
      (∀ b ∈ bs, (pl.all b).Nonempty → ∃ m ∈ out, pl.at_ m = pl.all b) ∧
      (∀ m ∈ out, ∃ b ∈ bs, pl.at_ m ⊆ pl.all b) ∧ out.Pairwise (fun m m' => Disjoint (pl.at_ m) (pl.at_ m')) := by
  obtain ⟨B, hB⟩ : ∃ B : Nat → Set ℂ, B = fun k => pl.all (bs.getD k []) := ⟨_, rfl⟩
  have hBsome : ∀ k b, bs[k]? = some b → B k = pl.all b := by
    intro k b h
    rw [hB]
    simp [List.getD, h]
  have hBnone : ∀ k, bs[k]? = none → B k = ∅ := by
    intro k h
    rw [hB]
    simp [List.getD, h, Places.all]
  have hdisj : ∀ a b, a ≠ b → Disjoint (B a) (B b) := by
    intro a b hab
    rcases ha : bs[a]? with _ | x
    · rw [hBnone a ha]; exact Set.empty_disjoint _
    · rcases hb : bs[b]? with _ | y
      · rw [hBnone b hb]; exact Set.disjoint_empty _
      · rw [hBsome a x ha, hBsome b y hb]
        exact hapart a b x y hab ha hb
  have hin : ∀ i p, bs.flatten[i]? = some p → pl.at_ p ⊆ B (blockOf bs i) := by
    intro i p h
    obtain ⟨b, h1, h2⟩ := blockOf_spec bs i p h
    rw [hBsome _ _ h1]
    exact fun x hx => ⟨p, h2, hx⟩
  have hgroup : ∀ i j, (i, j) ∈ overlaps g bs.flatten → blockOf bs i = blockOf bs j := by
    intro i j h
    obtain ⟨-, p, q, hp, hq, -, -, ha⟩ := mem_overlaps.1 h
    obtain ⟨x, x1, x2⟩ := (hpl.meet p q).1 ha
    by_contra hne
    exact Set.disjoint_left.1 (hdisj _ _ hne) (hin i p hp x1) (hin j q hq x2)
  have hnear : ∀ i j, i < j → j < bs.flatten.length → blockOf bs i = blockOf bs j → ∃ i', j ≤ i' + 2 ∧ Sure g pl bs.flatten i' j := by
    intro i j hij hj hc
    rcases chain_flatten bs hchain j hj with h | ⟨i', p, q, h1, h2, h3, h4, h5⟩
    · exact absurd hc (h i hij)
    · exact ⟨i', h2, sure_of_meet hpl hv h1 h3 h4 h5⟩
  obtain ⟨out, o1, o2, f, f1, f2, f3⟩ := merge_groups pl (ps := bs.flatten) (c := blockOf bs) (B := B)
    (fun i j h => by
      obtain ⟨hij, p, q, hp, hq, -⟩ := mem_overlaps.1 h
      exact hnear i j hij (List.getElem?_eq_some_iff.1 hq).1 (hgroup i j h))
    hgroup hin hdisj
    (fun i j hij hj hc => by
      obtain ⟨i', -, h⟩ := hnear i j hij hj hc
      exact ⟨i', h.1⟩)
    (fun p q h => (hpl.meet p q).1 h) fuel
  have hall : ∀ b ∈ bs, pl.all b ⊆ pl.all out := by
    intro b hb x hx
    obtain ⟨p, hp, hx⟩ := hx
    rw [o2]
    exact ⟨p, List.mem_flatten.2 ⟨b, hb, hp⟩, hx⟩
  refine ⟨out, o1, ?_, ?_, ?_⟩
  · rintro b hb ⟨x, hx⟩
    obtain ⟨k, hk⟩ := List.getElem?_of_mem hb
    obtain ⟨m, hm, hxm⟩ := hall b hb hx
    obtain ⟨a, ha⟩ := List.getElem?_of_mem hm
    have hk' : ∀ a m y, out[a]? = some m → y ∈ pl.all b → y ∈ pl.at_ m → blockOf bs (f a) = k := by
      intro a m y ha hy hym
      by_contra hne
      exact Set.disjoint_left.1 (hdisj _ _ hne) ((f3 a m ha).2 hym) (by rw [hBsome k b hk]; exact hy)
    have hka := hk' a m x ha hx hxm
    refine ⟨m, hm, Set.Subset.antisymm ?_ ?_⟩
    · have := (f3 a m ha).2
      rwa [hka, hBsome k b hk] at this
    · intro y hy
      obtain ⟨m', hm', hym⟩ := hall b hb hy
      obtain ⟨a', ha'⟩ := List.getElem?_of_mem hm'
      have hka' := hk' a' m' y ha' hy hym
      have hlt := (List.getElem?_eq_some_iff.1 ha).1
      have hlt' := (List.getElem?_eq_some_iff.1 ha').1
      have : a = a' := by
        rcases lt_trichotomy a a' with h | h | h
        · exact absurd (hka.trans hka'.symm) (f2 a a' h hlt')
        · exact h
        · exact absurd (hka'.trans hka.symm) (f2 a' a h hlt)
      subst this
      rw [ha] at ha'
      obtain rfl := Option.some.inj ha'
      exact hym
  · intro m hm
    obtain ⟨a, ha⟩ := List.getElem?_of_mem hm
    obtain ⟨h1, h2⟩ := f3 a m ha
    obtain ⟨b, h3, -⟩ := blockOf_spec bs (f a) _ (List.getElem?_eq_getElem h1)
    exact ⟨b, List.mem_of_getElem? h3, by rwa [hBsome _ _ h3] at h2⟩
  · rw [List.pairwise_iff_getElem]
    intro a a' ha ha' h
    refine (hdisj _ _ (f2 a a' h ha')).mono ?_ ?_
    · exact (f3 a _ (List.getElem?_eq_getElem ha)).2
    · exact (f3 a' _ (List.getElem?_eq_getElem ha')).2

/-! ### The pieces around a zone -/

theorem pieces_length (eps d : ℝ) (z : List ℂ) : (pieces eps d z).length = 2 * z.length := by
  unfold pieces
  simp [List.length_flatMap, mul_comm]

theorem pairs_get {α : Type} (f h : ℕ → α) : ∀ (N n : ℕ), n < N →
    ((List.range N).flatMap fun k => [f k, h k])[2 * n]? = some (f n) ∧
    ((List.range N).flatMap fun k => [f k, h k])[2 * n + 1]? = some (h n) := by
  intro N
  induction N with
  | zero => intro n hn; omega
  | succ N ih =>
    intro n hn
    have hl : ((List.range N).flatMap fun k => [f k, h k]).length = 2 * N := by simp [List.length_flatMap, mul_comm]
    rw [List.range_succ, List.flatMap_append, List.getElem?_append, List.getElem?_append, hl]
    by_cases h1 : n < N
    · rw [if_pos (by omega), if_pos (by omega)]
      exact ih n h1
    · obtain rfl : n = N := by omega
      rw [if_neg (by omega), if_neg (by omega)]
      simp

/-- The rectangles are at the even and the corners at the odd places. -/
theorem pieces_get (eps d : ℝ) (z : List ℂ) (n : ℕ) (hn : n < z.length) :
    (pieces eps d z)[2 * n]? = some (rect eps d (vertex z (n + 1)) (vertex z (n + 2))) ∧
    (pieces eps d z)[2 * n + 1]? = some (corner eps d (vertex z n) (vertex z (n + 1)) (vertex z (n + 2))) :=
  pairs_get (fun n => rect eps d (vertex z (n + 1)) (vertex z (n + 2)))
    (fun n => corner eps d (vertex z n) (vertex z (n + 1)) (vertex z (n + 2))) z.length n hn

/-- What is merged for one zone (visilibity.cpp 1857-1954). -/
noncomputable def block (eps : ℝ) (z : List ℂ × ℝ) : List (List ℂ) := z.1 :: if |z.2| < eps then [] else pieces eps z.2 z.1

/-- Not in the code, what is required of Boost (visilibity.cpp 4130-4147) for one zone: the zone and the pieces around it are valid polygons, a piece has its place, and the zone
has its corners and no place that is not at the rim of its inside. -/
structure Drawn {g : Geo P R} (pl : Places g ℂ) (poly : List ℂ → P) (eps : ℝ) (z : List ℂ × ℝ) : Prop where
  valid : ∀ p ∈ block eps z, g.valid (poly p) = true
  piece : eps ≤ |z.2| → ∀ p ∈ pieces eps z.2 z.1, pl.at_ (poly p) = area p
  corners : ∀ k, vertex z.1 k ∈ pl.at_ (poly z.1)
  thick : pl.at_ (poly z.1) ⊆ closure (interior (pl.at_ (poly z.1)))

theorem block_chain {g : Geo P R} {pl : Places g ℂ} {poly : List ℂ → P} {eps : ℝ} {z : List ℂ × ℝ} (heps : 0 < eps)
    (hz : Drawn pl poly eps z) (ht : ∀ k, Turning eps (vertex z.1 k) (vertex z.1 (k + 1)) (vertex z.1 (k + 2))) :
    Chain pl ((block eps z).map poly) := by
  intro j h1 hj
  rw [List.length_map] at hj
  unfold block at hj ⊢
  by_cases hd : |z.2| < eps
  · rw [if_pos hd] at hj
    simp at hj
    omega
  rw [if_neg hd] at hj ⊢
  push Not at hd
  have hd0 : z.2 ≠ 0 := by intro h; rw [h, abs_zero] at hd; linarith
  rw [List.length_cons, pieces_length] at hj
  have hne : ∀ k, vertex z.1 (k + 2) - vertex z.1 (k + 1) ≠ 0 := fun k =>
    norm_pos_iff.1 (lt_trans heps (ht k).edge.2)
  have get : ∀ n p, (pieces eps z.2 z.1)[n]? = some p → ((z.1 :: pieces eps z.2 z.1).map poly)[n + 1]? = some (poly p) := by
    intro n p h
    rw [List.map_cons, List.getElem?_cons_succ, List.getElem?_map, h]
    rfl
  have hat : ∀ n p, (pieces eps z.2 z.1)[n]? = some p → pl.at_ (poly p) = area p := fun n p h =>
    hz.piece hd p (List.mem_of_getElem? h)
  obtain ⟨n, hn⟩ : ∃ n, j = 2 * n + 1 ∨ j = 2 * n + 2 := ⟨(j - 1) / 2, by omega⟩
  have hnl : n < z.1.length := by omega
  obtain ⟨g1, g2⟩ := pieces_get eps z.2 z.1 n hnl
  rcases hn with rfl | rfl
  · rcases Nat.eq_zero_or_pos n with rfl | hpos
    · refine ⟨0, poly z.1, _, by omega, by omega, by simp, get _ _ g1, ?_⟩
      rw [hat _ _ g1]
      exact meet_inside (hz.thick (hz.corners _)) (rect_start hd0 (hne _))
    · obtain ⟨m, rfl⟩ : ∃ m, n = m + 1 := ⟨n - 1, by omega⟩
      obtain ⟨g3, -⟩ := pieces_get eps z.2 z.1 m (by omega)
      refine ⟨2 * m + 1, _, _, by omega, by omega, get _ _ g3, get _ _ g1, ?_⟩
      rw [hat _ _ g1, hat _ _ g3]
      exact ⟨_, rect_end hd0 (hne m), rect_start hd0 (hne (m + 1))⟩
  · refine ⟨2 * n + 1, _, _, by omega, by omega, get _ _ g1, get _ _ g2, ?_⟩
    rw [hat _ _ g1, hat _ _ g2]
    exact (Set.inter_comm _ _ ▸ meet_inside (corner_thick heps.le hd0 (ht n)) (rect_start hd0 (hne n)) : _)

theorem toMerge_blocks (eps : ℝ) (zs : List (List ℂ × ℝ)) (poly : List ℂ → P) :
    (toMerge eps zs).map poly = (zs.map fun z => (block eps z).map poly).flatten := by
  unfold toMerge
  rw [List.map_flatMap, List.flatMap_def]
  rfl

/-- **C200, in part.**  Zones whose padded places are apart from each other, in particular a single zone of any shape and padding,
come out of the merge as one polygon each: the merge ends without touching memory outside the list, some polygon of the result is the
zone with all of the pieces around it, covers the zone and everything that is nearer to its boundary than the padding, and no two
polygons of the result have a place in common.  Missing: zones nearer to each other (`C200_near_violated`). -/
theorem C200_apart_partial {g : Geo P R} {pl : Places g ℂ} (hpl : Plane g pl) (poly : List ℂ → P) (eps : ℝ) (heps : 0 < eps)
    (hsnap : ∀ ps, g.snap ps = ps) (zs : List (List ℂ × ℝ)) (hz : ∀ z ∈ zs, Drawn pl poly eps z)
    (ht : ∀ z ∈ zs, ∀ k, Turning eps (vertex z.1 k) (vertex z.1 (k + 1)) (vertex z.1 (k + 2)))
    (hapart : ∀ (k l : Nat) (a b : List ℂ × ℝ), k ≠ l → zs[k]? = some a → zs[l]? = some b →
      ∀ p ∈ block eps a, ∀ q ∈ block eps b, Disjoint (pl.at_ (poly p)) (pl.at_ (poly q))) (fuel : Nat) :
    ∃ out : List P, boostUnion g (fuel + 1) ((toMerge eps zs).map poly) =
        .ok (some (!(out.flatMap g.rings).isEmpty, out.flatMap g.rings)) ∧
      (∀ z ∈ zs, ∃ m ∈ out, pl.at_ (poly z.1) ⊆ pl.at_ m ∧ (∀ x, x ∈ pl.at_ m ↔ ∃ p ∈ block eps z, x ∈ pl.at_ (poly p)) ∧
        (eps ≤ |z.2| → ∀ x : ℂ, (∃ (k : ℕ) (t : ℝ), 0 ≤ t ∧ t ≤ 1 ∧
          ‖x - (vertex z.1 k + t * (vertex z.1 (k + 1) - vertex z.1 k))‖ ≤ |z.2|) → x ∈ pl.at_ m)) ∧
      (∀ m ∈ out, ∃ z ∈ zs, ∀ x ∈ pl.at_ m, ∃ p ∈ block eps z, x ∈ pl.at_ (poly p)) ∧
      out.Pairwise (fun m m' => Disjoint (pl.at_ m) (pl.at_ m')) := by
  obtain ⟨bs, hbs⟩ : ∃ bs, bs = zs.map fun z => (block eps z).map poly := ⟨_, rfl⟩
  have hv : ∀ p ∈ bs.flatten, g.valid p = true := by
    intro p hp
    rw [hbs] at hp
    simp only [List.mem_flatten, List.mem_map] at hp
    obtain ⟨_, ⟨z, h1, rfl⟩, h2⟩ := hp
    obtain ⟨q, h3, rfl⟩ := List.mem_map.1 h2
    exact (hz z h1).valid q h3
  have hmem : ∀ z x, x ∈ pl.all ((block eps z).map poly) ↔ ∃ p ∈ block eps z, x ∈ pl.at_ (poly p) := by
    intro z x
    simp [Places.all]
  obtain ⟨out, o1, o2, o3, o4⟩ := merge_chains hpl bs hv
    (fun b hb => by
      rw [hbs] at hb
      obtain ⟨z, h1, rfl⟩ := List.mem_map.1 hb
      exact block_chain heps (hz z h1) (ht z h1))
    (fun k l a b hkl ha hb => by
      rw [hbs, List.getElem?_map] at ha hb
      obtain ⟨za, ha1, rfl⟩ := Option.map_eq_some_iff.1 ha
      obtain ⟨zb, hb1, rfl⟩ := Option.map_eq_some_iff.1 hb
      rw [Set.disjoint_left]
      intro x xa xb
      obtain ⟨p, p1, p2⟩ := (hmem za x).1 xa
      obtain ⟨q, q1, q2⟩ := (hmem zb x).1 xb
      exact Set.disjoint_left.1 (hapart k l za zb hkl ha1 hb1 p p1 q q1) p2 q2) fuel
  rw [toMerge_blocks, ← hbs]
  unfold boostUnion
  rw [List.filter_eq_self.2 hv, hsnap]
  simp only [o1, Outcome.bind_ok, Option.map_some, List.all_eq_true.2 hv, Bool.true_and]
  refine ⟨out, rfl, ?_, ?_, o4⟩
  · intro z hzs
    have hself : z.1 ∈ block eps z := List.mem_cons_self
    obtain ⟨m, hm, e⟩ := o2 ((block eps z).map poly) (by rw [hbs]; exact List.mem_map.2 ⟨z, hzs, rfl⟩)
      ⟨vertex z.1 0, (hmem z _).2 ⟨z.1, hself, (hz z hzs).corners 0⟩⟩
    have hx : ∀ x, x ∈ pl.at_ m ↔ ∃ p ∈ block eps z, x ∈ pl.at_ (poly p) := by intro x; rw [e]; exact hmem z x
    refine ⟨m, hm, fun x h => (hx x).2 ⟨_, hself, h⟩, hx, ?_⟩
    intro hd x hnear
    have hd0 : z.2 ≠ 0 := by intro h; rw [h, abs_zero] at hd; linarith
    have hne : z.1 ≠ [] := by
      intro h
      have := (ht z hzs 0).edge.1
      rw [h] at this
      simp [vertex] at this
      linarith
    obtain ⟨p, p1, p2⟩ := C197_covered eps z.2 z.1 heps.le hd0 (fun k => (ht z hzs k).sound) hne x hnear
    refine (hx x).2 ⟨p, ?_, by rw [(hz z hzs).piece hd p p1]; exact p2⟩
    unfold block
    rw [if_neg (by push Not; exact hd)]
    exact List.mem_cons_of_mem _ p1
  · intro m hm
    obtain ⟨b, b1, b2⟩ := o3 m hm
    rw [hbs] at b1
    obtain ⟨z, z1, rfl⟩ := List.mem_map.1 b1
    exact ⟨z, z1, fun x hx => (hmem z x).1 (b2 hx)⟩

/-- **C200 is false.**  Of two zones, let the first be padded, and let the second reach into the padding of the first, but neither
into the rectangle around the first edge of the first nor into the piece at its first corner.  Then the merge removes a polygon behind
the end of the list, for every tolerance, padding, shape and place of the two. -/
theorem C200_near_violated {g : Geo P R} {pl : Places g ℂ} (hpl : Plane g pl) (poly : List ℂ → P) (eps : ℝ) (heps : 0 < eps)
    (hsnap : ∀ ps, g.snap ps = ps) (a b : List ℂ × ℝ) (ha : Drawn pl poly eps a) (hb : Drawn pl poly eps b)
    (hta : ∀ k, Turning eps (vertex a.1 k) (vertex a.1 (k + 1)) (vertex a.1 (k + 2)))
    (htb : ∀ k, Turning eps (vertex b.1 k) (vertex b.1 (k + 1)) (vertex b.1 (k + 2)))
    (hpad : eps ≤ |a.2|)
    (hreach : ∃ p ∈ block eps a, ∃ x ∈ pl.at_ (poly b.1), x ∈ interior (pl.at_ (poly p)))
    (hrect : Disjoint (area (rect eps a.2 (vertex a.1 0) (vertex a.1 1))) (pl.at_ (poly b.1)))
    (hcorner : Disjoint (area (corner eps a.2 (vertex a.1 (a.1.length - 1)) (vertex a.1 0) (vertex a.1 1))) (pl.at_ (poly b.1)))
    (fuel : Nat) : boostUnion g (fuel + 1) ((toMerge eps [a, b]).map poly) = .ub := by
  have hne : a.1 ≠ [] := by
    intro h
    have := (hta 0).edge.1
    rw [h] at this
    simp [vertex] at this
    linarith
  have hN := List.length_pos_iff.2 hne
  have hlist : (toMerge eps [a, b]).map poly = (block eps a).map poly ++ (block eps b).map poly := by
    rw [toMerge_blocks]; simp
  obtain ⟨ps, hps⟩ : ∃ ps, ps = (block eps a).map poly ++ (block eps b).map poly := ⟨_, rfl⟩
  have hba : block eps a = a.1 :: pieces eps a.2 a.1 := by
    unfold block
    rw [if_neg (by push Not; exact hpad)]
  have hla : ((block eps a).map poly).length = 2 * a.1.length + 1 := by
    rw [List.length_map, hba, List.length_cons, pieces_length]
  have hv : ∀ p ∈ ps, g.valid p = true := by
    intro p hp
    rw [hps, List.mem_append, List.mem_map, List.mem_map] at hp
    rcases hp with ⟨q, h, rfl⟩ | ⟨q, h, rfl⟩
    · exact ha.valid q h
    · exact hb.valid q h
  have hfst : ∀ i, i < 2 * a.1.length + 1 → ps[i]? = ((block eps a).map poly)[i]? := by
    intro i hi
    rw [hps, List.getElem?_append, if_pos (by omega)]
  have hsnd : ∀ i, ps[2 * a.1.length + 1 + i]? = ((block eps b).map poly)[i]? := by
    intro i
    rw [hps, List.getElem?_append, if_neg (by omega), hla, Nat.add_sub_cancel_left]
  have hB : ps[2 * a.1.length + 1]? = some (poly b.1) := by
    have := hsnd 0
    rw [Nat.add_zero] at this
    rw [this]
    simp [block]
  have hpiece : ∀ n p, (pieces eps a.2 a.1)[n]? = some p → ps[n + 1]? = some (poly p) := by
    intro n p h
    have hn := (List.getElem?_eq_some_iff.1 h).1
    rw [pieces_length] at hn
    rw [hfst _ (by omega), hba, List.map_cons, List.getElem?_cons_succ, List.getElem?_map, h]
    rfl
  obtain ⟨g1, g2⟩ := pieces_get eps a.2 a.1 (a.1.length - 1) (by omega)
  have hv0 : vertex a.1 (a.1.length - 1 + 1) = vertex a.1 0 := vertex_congr _ (by
    rw [show a.1.length - 1 + 1 = a.1.length by omega]; simp)
  have hv1 : vertex a.1 (a.1.length - 1 + 2) = vertex a.1 1 := vertex_congr _ (by
    rw [show a.1.length - 1 + 2 = 1 + a.1.length by omega, Nat.add_mod_right])
  have q1 := hpiece _ _ g1
  have q2 := hpiece _ _ g2
  rw [show 2 * (a.1.length - 1) + 1 = 2 * a.1.length - 1 by omega] at q1
  rw [show 2 * (a.1.length - 1) + 1 + 1 = 2 * a.1.length by omega] at q2
  have hd0 : a.2 ≠ 0 := by intro h; rw [h, abs_zero] at hpad; linarith
  have at1 := ha.piece hpad _ (List.mem_of_getElem? g1)
  have at2 := ha.piece hpad _ (List.mem_of_getElem? g2)
  have hlenb : (block eps b).length ≠ 0 := by simp [block]
  have hlen : ps.length = 2 * a.1.length + 1 + (block eps b).length := by rw [hps, List.length_append, hla, List.length_map]
  rw [hlist]
  unfold boostUnion
  rw [← hps, List.filter_eq_self.2 hv, hsnap]
  dsimp only
  rw [merge_outside pl (m := 2 * a.1.length - 1) (n := 2 * a.1.length)]
  · rfl
  · intro j h1 hj
    rcases Nat.lt_trichotomy j (2 * a.1.length + 1) with hlt | rfl | hgt
    · obtain ⟨i, p, q, i1, -, i3, i4, i5⟩ := block_chain heps ha hta j h1 (by omega)
      exact ⟨i, sure_of_meet hpl hv i1 (by rw [hfst i (by omega)]; exact i3) (by rw [hfst j hlt]; exact i4) i5⟩
    · obtain ⟨p, hp, x, x1, x2⟩ := hreach
      obtain ⟨i, hi⟩ := List.getElem?_of_mem (List.mem_map.2 ⟨p, hp, rfl⟩ : poly p ∈ (block eps a).map poly)
      have hil := (List.getElem?_eq_some_iff.1 hi).1
      rw [hla] at hil
      refine ⟨i, sure_of_meet hpl hv hil (by rw [hfst i hil]; exact hi) hB ?_⟩
      rw [Set.inter_comm]
      exact meet_inside (hb.thick x1) x2
    · obtain ⟨k, rfl⟩ : ∃ k, j = 2 * a.1.length + 1 + k := ⟨j - (2 * a.1.length + 1), by omega⟩
      obtain ⟨i, p, q, i1, -, i3, i4, i5⟩ := block_chain heps hb htb k (by omega) (by rw [List.length_map]; omega)
      exact ⟨2 * a.1.length + 1 + i, sure_of_meet hpl hv (by omega) (by rw [hsnd]; exact i3) (by rw [hsnd]; exact i4) i5⟩
  · omega
  · refine ⟨2 * a.1.length - 1, le_refl _, sure_of_meet hpl hv (by omega) q1 q2 ?_⟩
    rw [at1, at2, Set.inter_comm]
    exact meet_inside (corner_thick heps.le hd0 (hta _)) (rect_start hd0 (norm_pos_iff.1 (lt_trans heps (hta _).edge.2)))
  · intro i hi
    obtain ⟨hi1, p, q, hp, hq, -, -, hap⟩ := mem_overlaps.1 hi
    by_contra hge
    rw [hB] at hq
    obtain rfl := Option.some.inj hq
    obtain ⟨x, x1, x2⟩ := (hpl.meet _ _).1 hap
    rcases (show i = 2 * a.1.length - 1 ∨ i = 2 * a.1.length by omega) with rfl | rfl
    · rw [q1] at hp
      obtain rfl := Option.some.inj hp
      rw [at1, hv0, hv1] at x1
      exact Set.disjoint_left.1 hrect x1 x2
    · rw [q2] at hp
      obtain rfl := Option.some.inj hp
      rw [at2, hv0, hv1] at x1
      exact Set.disjoint_left.1 hcorner x1 x2

/-! ### Squares of ten metres, with polygons as sets of places -/

open Classical in
/-- Not in the code, for the examples: polygons as sets of places; the union is one polygon exactly if both meet inside. -/
noncomputable def sets : Geo (Set ℂ) (Set ℂ) where
  valid _ := true
  apart p q := decide ¬(p ∩ q).Nonempty
  union p q := if (interior p ∩ interior q).Nonempty then [p ∪ q] else [p, q]
  snap ps := ps
  rings p := [p]

/-- Not in the code, for the examples: the places of a set. -/
def setPlaces : Places sets ℂ where
  at_ p := p
  union p q r h := by
    simp only [sets] at h
    split at h
    · exact (List.singleton_injective h).symm
    · simp at h

theorem sets_plane : Plane sets setPlaces where
  meet p q := by
    simp only [sets, setPlaces, decide_eq_false_iff_not, not_not]
    rfl
  one p q h := ⟨p ∪ q, by simp only [sets]; exact if_pos h⟩

/-- Not in the code, for the examples: a square of ten metres whose lower left corner is `o`, counted counterclockwise. -/
def squareAt (o : ℂ) : List ℂ := [o, o + 10, o + 10 + 10 * I, o + 10 * I]

theorem squareAt_turning (o : ℂ) (k : ℕ) :
    Turning 1e-8 (vertex (squareAt o) k) (vertex (squareAt o) (k + 1)) (vertex (squareAt o) (k + 2)) := by
  have key : ∀ w : ℂ, normSq w = 100 → (1e-8 : ℝ) < ‖w‖ := by
    intro w hw
    rw [Complex.normSq_eq_norm_sq] at hw
    nlinarith [norm_nonneg w]
  have corner : ∀ a b c : ℂ, normSq (b - a) = 100 → normSq (c - b) = 100 → ((starRingEnd ℂ) (b - a) * (c - b)).im = 100 →
      Turning 1e-8 a b c := fun a b c h1 h2 h3 => ⟨⟨key _ h1, key _ h2⟩, by rw [h3]; norm_num⟩
  have h : k % 4 = 0 ∨ k % 4 = 1 ∨ k % 4 = 2 ∨ k % 4 = 3 := by omega
  have hl : (squareAt o).length = 4 := rfl
  unfold vertex
  rw [hl]
  rcases h with h | h | h | h
  · rw [show (k + 1) % 4 = 1 by omega, show (k + 2) % 4 = 2 by omega, h]
    apply corner <;> norm_num [squareAt, normSq_apply]
  · rw [show (k + 1) % 4 = 2 by omega, show (k + 2) % 4 = 3 by omega, h]
    apply corner <;> norm_num [squareAt, normSq_apply]
  · rw [show (k + 1) % 4 = 3 by omega, show (k + 2) % 4 = 0 by omega, h]
    apply corner <;> norm_num [squareAt, normSq_apply]
  · rw [show (k + 1) % 4 = 0 by omega, show (k + 2) % 4 = 1 by omega, h]
    apply corner <;> norm_num [squareAt, normSq_apply]

theorem squareAt_inside (o : ℂ) (s t : ℝ) (hs : s ∈ Set.Icc (0 : ℝ) 1) (ht : t ∈ Set.Icc (0 : ℝ) 1) :
    o + 10 * s + 10 * t * I ∈ area (squareAt o) := by
  have hc : Convex ℝ (area (squareAt o)) := convex_convexHull ℝ _
  have hm : ∀ y, y ∈ squareAt o → y ∈ area (squareAt o) := fun y hy => subset_convexHull ℝ _ hy
  have low := hc.add_smul_sub_mem (hm o (by simp [squareAt])) (hm (o + 10) (by simp [squareAt])) hs
  have high := hc.add_smul_sub_mem (hm (o + 10 * I) (by simp [squareAt])) (hm (o + 10 + 10 * I) (by simp [squareAt])) hs
  have := hc.add_smul_sub_mem low high ht
  convert this using 1
  simp only [Complex.real_smul]
  ring

theorem squareAt_drawn (o : ℂ) (d : ℝ) : Drawn setPlaces area 1e-8 (squareAt o, d) where
  valid _ _ := rfl
  piece _ _ _ := rfl
  corners k := by
    refine subset_convexHull ℝ _ ?_
    have hl : k % (squareAt o).length < (squareAt o).length := Nat.mod_lt _ (by simp [squareAt])
    show vertex (squareAt o) k ∈ squareAt o
    unfold vertex
    rw [List.getD, List.getElem?_eq_getElem hl]
    exact List.getElem_mem hl
  thick := by
    refine thick (convex_convexHull ℝ _) ⟨o + 5 + 5 * I, ?_⟩
    rw [mem_interior]
    refine ⟨{y | 0 < (y - o).re ∧ (y - o).re < 10 ∧ 0 < (y - o).im ∧ (y - o).im < 10}, ?_, ?_, ?_⟩
    · rintro y ⟨h1, h2, h3, h4⟩
      have := squareAt_inside o ((y - o).re / 10) ((y - o).im / 10) ⟨by linarith, by linarith⟩ ⟨by linarith, by linarith⟩
      have e : o + 10 * ((y - o).re / 10 : ℝ) + 10 * ((y - o).im / 10 : ℝ) * I = y := by
        apply Complex.ext <;> simp <;> ring
      rwa [e] at this
    · have c1 : Continuous fun y : ℂ => (y - o).re := by fun_prop
      have c2 : Continuous fun y : ℂ => (y - o).im := by fun_prop
      exact (isOpen_lt continuous_const c1).inter ((isOpen_lt c1 continuous_const).inter
        ((isOpen_lt continuous_const c2).inter (isOpen_lt c2 continuous_const)))
    · norm_num

/-- A square of ten metres with five metres of padding comes out as one polygon, which covers the place five metres below its first
edge. -/
example (fuel : Nat) : ∃ out : List (Set ℂ), boostUnion sets (fuel + 1) ((toMerge 1e-8 [(squareAt 0, 5)]).map area) =
    .ok (some (!(out.flatMap sets.rings).isEmpty, out.flatMap sets.rings)) ∧ ∃ m ∈ out, (5 - 5 * I : ℂ) ∈ m := by
  obtain ⟨out, h1, h2, -⟩ := C200_apart_partial sets_plane area 1e-8 (by norm_num) (fun _ => rfl) [(squareAt 0, 5)]
    (by intro z hz; rw [List.mem_singleton.1 hz]; exact squareAt_drawn 0 5)
    (by intro z hz; rw [List.mem_singleton.1 hz]; exact squareAt_turning 0)
    (by
      intro k l a b hkl ha hb
      have := (List.getElem?_eq_some_iff.1 ha).1
      have := (List.getElem?_eq_some_iff.1 hb).1
      simp at *
      omega) fuel
  refine ⟨out, h1, ?_⟩
  obtain ⟨m, hm, -, -, h⟩ := h2 (squareAt 0, 5) (by simp)
  refine ⟨m, hm, h (by norm_num) _ ⟨0, 1 / 2, by norm_num, by norm_num, ?_⟩⟩
  rw [show vertex (squareAt 0) 0 = 0 from rfl, show vertex (squareAt 0) (0 + 1) = 0 + 10 from rfl]
  refine (sq_le_sq₀ (norm_nonneg _) (abs_nonneg _)).1 ?_
  rw [← Complex.normSq_eq_norm_sq, normSq_apply]
  norm_num

theorem squareAt_vertex (o : ℂ) (k : ℕ) : o.re ≤ (vertex (squareAt o) k).re ∧ (vertex (squareAt o) k).re ≤ o.re + 10 := by
  have h : k % 4 = 0 ∨ k % 4 = 1 ∨ k % 4 = 2 ∨ k % 4 = 3 := by omega
  have hl : (squareAt o).length = 4 := rfl
  unfold vertex
  rw [hl]
  rcases h with h | h | h | h <;> rw [h] <;> norm_num [squareAt]

theorem squareAt_block (o : ℂ) (p : List ℂ) (hp : p ∈ block 1e-8 (squareAt o, 5)) (x : ℂ) (hx : x ∈ area p) :
    o.re - 10 ≤ x.re ∧ x.re ≤ o.re + 20 := by
  have hr : Real.sqrt 2 ≤ 2 := by rw [Real.sqrt_le_left (by norm_num)]; norm_num
  have hf : fuzz 1e-8 ≤ 1 := by unfold fuzz; split <;> norm_num [abs_of_pos]
  unfold block at hp
  rw [if_neg (by norm_num)] at hp
  rcases List.mem_cons.1 hp with rfl | hp
  · have hc : Convex ℝ {x : ℂ | o.re ≤ x.re ∧ x.re ≤ o.re + 10} := (convex_Icc o.re (o.re + 10)).linear_preimage Complex.reLm
    have := area_subset hc (fun y hy => by
      simp only [squareAt, List.mem_cons, List.not_mem_nil, or_false] at hy
      rcases hy with rfl | rfl | rfl | rfl <;> norm_num) hx
    exact ⟨by linarith [this.1], by linarith [this.2]⟩
  · obtain ⟨k, t, t0, t1, h⟩ := C197_not_far 1e-8 5 (squareAt o) (by norm_num) (by norm_num) p hp x hx
    have h10 : max (Real.sqrt 2 * |(5 : ℝ)|) (|5| + fuzz 1e-8) ≤ 10 := by
      rw [abs_of_pos (by norm_num)]
      exact max_le (by linarith) (by linarith)
    have e := abs_le.1 ((Complex.abs_re_le_norm _).trans (h.trans h10))
    obtain ⟨v1, v2⟩ := squareAt_vertex o k
    obtain ⟨w1, w2⟩ := squareAt_vertex o (k + 1)
    rw [Complex.sub_re, Complex.add_re, Complex.re_ofReal_mul, Complex.sub_re] at e
    generalize (vertex (squareAt o) k).re = v at *
    generalize (vertex (squareAt o) (k + 1)).re = w at *
    constructor <;> nlinarith

/-- Two padded squares a hundred metres from each other come out as two polygons. -/
example (fuel : Nat) : ∃ out : List (Set ℂ),
    boostUnion sets (fuel + 1) ((toMerge 1e-8 [(squareAt 0, 5), (squareAt 100, 5)]).map area) =
    .ok (some (!(out.flatMap sets.rings).isEmpty, out.flatMap sets.rings)) ∧
      (∃ m ∈ out, area (squareAt 0) ⊆ m) ∧ (∃ m ∈ out, area (squareAt 100) ⊆ m) ∧ out.Pairwise Disjoint := by
  have hcase : ∀ z ∈ [(squareAt 0, (5 : ℝ)), (squareAt 100, 5)], ∃ o, z = (squareAt o, 5) := by
    intro z hz
    simp only [List.mem_cons, List.not_mem_nil, or_false] at hz
    rcases hz with rfl | rfl
    · exact ⟨0, rfl⟩
    · exact ⟨100, rfl⟩
  have hdis : ∀ p ∈ block 1e-8 (squareAt 0, 5), ∀ q ∈ block 1e-8 (squareAt 100, 5), Disjoint (area p) (area q) := by
    intro p hp q hq
    rw [Set.disjoint_left]
    intro x xp xq
    have h1 := (squareAt_block 0 p hp x xp).2
    have h2 := (squareAt_block 100 q hq x xq).1
    norm_num at h1 h2
    linarith
  obtain ⟨out, h1, h2, -, h3⟩ := C200_apart_partial sets_plane area 1e-8 (by norm_num) (fun _ => rfl)
    [(squareAt 0, 5), (squareAt 100, 5)]
    (by intro z hz; obtain ⟨o, rfl⟩ := hcase z hz; exact squareAt_drawn o 5)
    (by intro z hz; obtain ⟨o, rfl⟩ := hcase z hz; exact squareAt_turning o)
    (by
      intro k l a b hkl ha hb
      have hk : k < 2 := (List.getElem?_eq_some_iff.1 ha).1
      have hl : l < 2 := (List.getElem?_eq_some_iff.1 hb).1
      rcases (show k = 0 ∧ l = 1 ∨ k = 1 ∧ l = 0 by omega) with ⟨rfl, rfl⟩ | ⟨rfl, rfl⟩
      · obtain rfl := Option.some.inj ha
        obtain rfl := Option.some.inj hb
        exact hdis
      · obtain rfl := Option.some.inj ha
        obtain rfl := Option.some.inj hb
        exact fun p hp q hq => (hdis q hq p hp).symm) fuel
  obtain ⟨m, m1, m2, -⟩ := h2 (squareAt 0, 5) (by simp)
  obtain ⟨n, n1, n2, -⟩ := h2 (squareAt 100, 5) (by simp)
  exact ⟨out, h1, ⟨m, m1, m2⟩, ⟨n, n1, n2⟩, h3⟩

/-- **C200 is false.**  Of two squares of ten metres, two metres from each other, the lower padded with five metres: the merge
removes a polygon behind the end of the list. -/
theorem C200_squares_violated (d : ℝ) (fuel : Nat) :
    boostUnion sets (fuel + 1) ((toMerge 1e-8 [(squareAt 0, 5), (squareAt (12 * I), d)]).map area) = .ub := by
  have high : ∀ x ∈ area (squareAt (12 * I)), 12 ≤ x.im := by
    have hc : Convex ℝ {x : ℂ | 12 ≤ x.im} := (convex_Ici (12 : ℝ)).linear_preimage Complex.imLm
    intro x hx
    refine area_subset hc ?_ hx
    intro y hy
    simp only [squareAt, List.mem_cons, List.not_mem_nil, or_false] at hy
    rcases hy with rfl | rfl | rfl | rfl <;> norm_num
  have hf : fuzz 1e-8 ≤ 1 := by unfold fuzz; split <;> norm_num [abs_of_pos]
  refine C200_near_violated sets_plane area 1e-8 (by norm_num) (fun _ => rfl) _ _ (squareAt_drawn 0 5) (squareAt_drawn (12 * I) d)
    (squareAt_turning 0) (squareAt_turning (12 * I)) (by norm_num) ?_ ?_ ?_ fuel
  · refine ⟨rect 1e-8 5 (vertex (squareAt 0) (1 + 1)) (vertex (squareAt 0) (1 + 2)), ?_, 12 * I, ?_, ?_⟩
    · unfold block
      rw [if_neg (by norm_num)]
      exact List.mem_cons_of_mem _ (List.mem_of_getElem? (pieces_get 1e-8 5 (squareAt 0) 1 (by simp [squareAt])).1)
    · exact subset_convexHull ℝ _ (by simp [squareAt])
    · have e1 : vertex (squareAt 0) (1 + 1) = 0 + 10 + 10 * I := rfl
      have e2 : vertex (squareAt 0) (1 + 2) = 0 + 10 * I := rfl
      have e3 : (0 + 10 * I - (0 + 10 + 10 * I) : ℂ) = ((-10 : ℝ) : ℂ) := by push_cast; ring
      have hn : ‖((-10 : ℝ) : ℂ)‖ = 10 := by rw [Complex.norm_real]; norm_num
      rw [e1, e2]
      have hf0 := fuzz_pos 1e-8
      refine rect_interior (by norm_num) (by rw [e3]; norm_num) ?_ ?_ ?_ <;> rw [e3, Complex.conj_ofReal, hn]
      · norm_num; linarith
      · norm_num; linarith
      · norm_num
  · rw [Set.disjoint_left]
    intro x h1 h2
    obtain ⟨t, t0, t1, h⟩ := rect_near x h1
    have := high x h2
    have e := (Complex.abs_im_le_norm _).trans h
    have := (abs_le.1 e).2
    rw [show vertex (squareAt 0) 0 = 0 from rfl, show vertex (squareAt 0) 1 = 0 + 10 from rfl] at this
    norm_num at this
    linarith
  · rw [Set.disjoint_left]
    intro x h1 h2
    have h := corner_near (by norm_num) (by norm_num) x h1
    have := high x h2
    have e := (Complex.abs_im_le_norm _).trans h
    have := (abs_le.1 e).2
    rw [show vertex (squareAt 0) 0 = 0 from rfl] at this
    have hr : Real.sqrt 2 ≤ 2 := by rw [Real.sqrt_le_left (by norm_num)]; norm_num
    norm_num at this
    linarith

end Verif.Visilib.PaddingMerge
