/-
The point of a map that is taken for a position.
-/
import Verif.Roads.Maps

namespace Verif.Roads

/-! ### Cells -/

theorem trunc_neg (x : ℝ) : trunc (-x) = -trunc x := by
  unfold trunc
  rcases lt_trichotomy x 0 with h | rfl | h
  · rw [if_pos (by linarith), if_neg (by linarith), Int.floor_neg]
  · simp
  · rw [if_neg (by linarith), if_pos (by linarith), Int.ceil_neg]

theorem tdiv_trunc (x : ℝ) : (trunc x).tdiv 100 = trunc (x / 100) := by
  have pos : ∀ x : ℝ, 0 ≤ x → (trunc x).tdiv 100 = trunc (x / 100) := by
    intro x hx
    unfold trunc
    rw [if_pos hx, if_pos (by positivity), Int.tdiv_eq_ediv_of_nonneg (Int.floor_nonneg.mpr hx)]
    symm
    rw [Int.floor_eq_iff]
    have h₁ := Int.floor_le x
    have h₂ := Int.lt_floor_add_one x
    have e := Int.mul_ediv_add_emod ⌊x⌋ 100
    have m₁ := Int.emod_nonneg ⌊x⌋ (by decide : (100 : ℤ) ≠ 0)
    have m₂ := Int.emod_lt_of_pos ⌊x⌋ (by decide : (0 : ℤ) < 100)
    have a : 100 * (⌊x⌋ / 100) ≤ ⌊x⌋ := by omega
    have b : ⌊x⌋ + 1 ≤ 100 * (⌊x⌋ / 100) + 100 := by omega
    have a' : (100 : ℝ) * ((⌊x⌋ / 100 : ℤ) : ℝ) ≤ (⌊x⌋ : ℝ) := by exact_mod_cast a
    have b' : (⌊x⌋ : ℝ) + 1 ≤ 100 * ((⌊x⌋ / 100 : ℤ) : ℝ) + 100 := by exact_mod_cast b
    constructor <;> linarith
  rcases le_total 0 x with h | h
  · exact pos x h
  · have := pos (-x) (by linarith)
    rw [trunc_neg, Int.neg_tdiv, neg_div, trunc_neg] at this
    exact neg_injective this

theorem cellAt_eq (p : Pt) : cellAt p = cellOf p := by
  unfold cellAt cellOf
  rw [tdiv_trunc, tdiv_trunc]

/-- How many cells apart, along the axis on which they are more apart. -/
def apart (k c : Int × Int) : Nat := max (k.1 - c.1).natAbs (k.2 - c.2).natAbs

theorem trunc_far {a b : ℝ} {d : Nat} (h : d < (trunc a - trunc b).natAbs) : (d : ℝ) < |a - b| := by
  have key : ∀ a b : ℝ, (d : ℤ) < trunc a - trunc b → (d : ℝ) < a - b := by
    intro a b h
    have h' : (d : ℤ) + 1 ≤ trunc a - trunc b := h
    have h'' : (d : ℝ) + 1 ≤ (trunc a : ℝ) - (trunc b : ℝ) := by exact_mod_cast h'
    unfold trunc at h''
    split at h'' <;> split at h''
    · have := Int.floor_le a; have := Int.lt_floor_add_one b; linarith
    · have := Int.floor_le a; have := Int.le_ceil b; linarith
    · rename_i h₁ h₂
      have : ⌈a⌉ ≤ 0 := Int.ceil_le.mpr (by push_cast; linarith)
      have : 0 ≤ ⌊b⌋ := Int.floor_nonneg.mpr h₂
      have h₃ : (⌈a⌉ : ℝ) ≤ 0 := by exact_mod_cast ‹⌈a⌉ ≤ 0›
      have h₄ : (0 : ℝ) ≤ (⌊b⌋ : ℝ) := by exact_mod_cast this
      have : (0 : ℝ) ≤ d := Nat.cast_nonneg d
      linarith
    · have := Int.ceil_lt_add_one a; have := Int.le_ceil b; linarith
  rcases le_total (trunc b) (trunc a) with h' | h'
  · exact lt_of_lt_of_le (key a b (by omega)) (le_abs_self _)
  · rw [abs_sub_comm]
    exact lt_of_lt_of_le (key b a (by omega)) (le_abs_self _)

theorem trunc_near {a b : ℝ} {d : Nat} (h : (trunc a - trunc b).natAbs ≤ d) :
    |a - b| < (d : ℝ) + 2 := by
  have tr : ∀ x : ℝ, (trunc x : ℝ) - 1 < x ∧ x < (trunc x : ℝ) + 1 := by
    intro x
    unfold trunc
    split
    · have := Int.floor_le x; have := Int.lt_floor_add_one x; constructor <;> linarith
    · have := Int.ceil_lt_add_one x; have := Int.le_ceil x; constructor <;> linarith
  obtain ⟨a₁, a₂⟩ := tr a
  obtain ⟨b₁, b₂⟩ := tr b
  have h₁ : trunc a - trunc b ≤ d := by omega
  have h₂ : -(d : ℤ) ≤ trunc a - trunc b := by omega
  have h₁' : (trunc a : ℝ) - (trunc b : ℝ) ≤ (d : ℝ) := by exact_mod_cast h₁
  have h₂' : -(d : ℝ) ≤ (trunc a : ℝ) - (trunc b : ℝ) := by exact_mod_cast h₂
  rw [abs_lt]
  constructor <;> linarith

/-- Points whose cells are more than `d` apart are more than `100 d` apart. -/
theorem apart_far {p q : Pt} {d : Nat} (h : d < apart (cellOf q) (cellOf p)) :
    100 * (d : ℝ) < |q.n - p.n| ∨ 100 * (d : ℝ) < |q.e - p.e| := by
  have hs : ∀ a b : ℝ, |a / 100 - b / 100| * 100 = |a - b| := by
    intro a b
    rw [← sub_div, abs_div]
    norm_num
  unfold apart cellOf at h
  rcases lt_max_iff.mp h with h | h
  · left; have := trunc_far h; rw [← hs]; linarith
  · right; have := trunc_far h; rw [← hs]; linarith

theorem apart_near {p q : Pt} {d : Nat} (h : apart (cellOf q) (cellOf p) ≤ d) :
    |q.n - p.n| < 100 * (d + 2 : ℝ) ∧ |q.e - p.e| < 100 * (d + 2 : ℝ) := by
  have hs : ∀ a b : ℝ, |a / 100 - b / 100| * 100 = |a - b| := by
    intro a b
    rw [← sub_div, abs_div]
    norm_num
  unfold apart cellOf at h
  obtain ⟨h₁, h₂⟩ := max_le_iff.mp h
  have := trunc_near h₁
  have := trunc_near h₂
  rw [← hs, ← hs q.e]
  constructor <;> linarith

theorem axis_le_dist (p q : Pt) : |q.n - p.n| ≤ dist p q ∧ |q.e - p.e| ≤ dist p q := by
  unfold dist
  constructor
  · refine Real.abs_le_sqrt ?_
    nlinarith [mul_self_nonneg (p.e - q.e)]
  · refine Real.abs_le_sqrt ?_
    nlinarith [mul_self_nonneg (p.n - q.n)]

/-! ### Squares of cells -/

theorem mem_upFrom {a x : Int} {k : Nat} : x ∈ upFrom a k ↔ a ≤ x ∧ x < a + k := by
  unfold upFrom
  rw [List.mem_map]
  constructor
  · rintro ⟨i, hi, rfl⟩
    have := List.mem_range.mp hi
    omega
  · rintro ⟨h₁, h₂⟩
    exact ⟨(x - a).toNat, List.mem_range.mpr (by omega), by omega⟩

theorem mem_square {c k : Int × Int} {r : Nat} : k ∈ square c r ↔ apart k c = r := by
  obtain ⟨x, y⟩ := k
  obtain ⟨a, b⟩ := c
  unfold square apart
  simp only [List.mem_append, List.mem_flatMap, mem_upFrom, List.mem_cons, Prod.mk.injEq,
    List.not_mem_nil, or_false]
  constructor
  · rintro (⟨n, hn, ⟨rfl, rfl⟩ | ⟨rfl, rfl⟩⟩ | ⟨e, he, ⟨rfl, rfl⟩ | ⟨rfl, rfl⟩⟩) <;> omega
  · intro h
    by_cases h₁ : y = b - r
    · exact .inl ⟨x, by omega, .inl ⟨rfl, h₁⟩⟩
    · by_cases h₂ : y = b + r
      · exact .inl ⟨x, by omega, .inr ⟨rfl, h₂⟩⟩
      · by_cases h₃ : x = a - r
        · exact .inr ⟨y, by omega, .inl ⟨h₃, rfl⟩⟩
        · exact .inr ⟨y, by omega, .inr ⟨by omega, rfl⟩⟩

/-! ### The nearest of what was examined -/

/-- `b` is the nearest of the points of `S`, with its distance; none if there are none. -/
def Best (p : Pt) (S : Id × Pt → Prop) : Option (Id × ℝ) → Prop
  | none => ∀ x, ¬ S x
  | some b => (∃ q, S (b.1, q) ∧ b.2 = dist p q) ∧ ∀ x, S x → b.2 ≤ dist p x.2

theorem best_congr {p : Pt} {S T : Id × Pt → Prop} {b : Option (Id × ℝ)} (h : Best p S b)
    (e : ∀ x, S x ↔ T x) : Best p T b := by
  have : S = T := funext fun x => propext (e x)
  rwa [← this]

theorem best_nearer {p : Pt} : ∀ (l : List (Id × Pt)) (S : Id × Pt → Prop) (b : Option (Id × ℝ)),
    Best p S b → Best p (fun x => S x ∨ x ∈ l) (nearer p b l) := by
  intro l
  induction l with
  | nil => intro S b h; exact best_congr h fun x => by simp
  | cons y l ih =>
    obtain ⟨i, q⟩ := y
    intro S b h
    rw [nearer.eq_def]
    dsimp only
    refine best_congr (ih (fun x => S x ∨ x = (i, q)) _ ?_) fun x => by
      rw [List.mem_cons, or_assoc]
    cases b with
    | none =>
      exact ⟨⟨q, .inr rfl, rfl⟩, fun x hx => by
        rcases hx with hx | rfl
        · exact absurd hx (h x)
        · exact le_refl _⟩
    | some b =>
      dsimp only
      obtain ⟨⟨q', hq', e⟩, hmin⟩ := h
      by_cases hlt : dist p q < b.2
      · rw [if_pos hlt]
        exact ⟨⟨q, .inr rfl, rfl⟩, fun x hx => by
          rcases hx with hx | rfl
          · exact le_trans hlt.le (hmin x hx)
          · exact le_refl _⟩
      · rw [if_neg hlt]
        exact ⟨⟨q', .inl hq', e⟩, fun x hx => by
          rcases hx with hx | rfl
          · exact hmin x hx
          · exact not_lt.mp hlt⟩

theorem best_cells {p : Pt} {pts : List (Id × Pt)} : ∀ (ks : List (Int × Int))
    (S : Id × Pt → Prop) (b : Option (Id × ℝ)), Best p S b →
    Best p (fun x => S x ∨ (x ∈ pts ∧ cellOf x.2 ∈ ks))
      (ks.foldl (fun b k => nearer p b (inCell pts k)) b) := by
  intro ks
  induction ks with
  | nil => intro S b h; exact best_congr h fun x => by simp
  | cons k ks ih =>
    intro S b h
    rw [List.foldl_cons]
    refine best_congr (ih _ _ (best_nearer (inCell pts k) S b h)) fun x => ?_
    unfold inCell
    rw [List.mem_filter, decide_eq_true_iff, List.mem_cons]
    tauto

theorem rings_spec {p : Pt} {pts : List (Id × Pt)} {c : Int × Int} : ∀ (left r : Nat)
    (b : Option (Id × ℝ)), Best p (fun x => x ∈ pts ∧ apart (cellOf x.2) c < r) b → 0 < left →
    (1 < r → (∀ x ∈ pts, 0 < x.1) → b = none) →
    2 ≤ r + left →
    ∃ R, R < r + left ∧ 0 < R ∧ Best p (fun x => x ∈ pts ∧ apart (cellOf x.2) c ≤ R)
        (rings pts p c left r b) ∧
      ((∀ x ∈ pts, 0 < x.1) → ∀ x ∈ pts, apart (cellOf x.2) c < R → R = 1) ∧
      (rings pts p c left r b = none → R + 1 = r + left) := by
  intro left
  induction left with
  | zero => intro r b _ h; cases h
  | succ left ih =>
    intro r b hb _ hnone hrl
    have hb' : Best p (fun x => x ∈ pts ∧ apart (cellOf x.2) c ≤ r)
        ((square c r).foldl (fun b k => nearer p b (inCell pts k)) b) := by
      refine best_congr (best_cells (square c r) _ b hb) fun x => ?_
      rw [mem_square]
      constructor
      · rintro (⟨h₁, h₂⟩ | ⟨h₁, h₂⟩)
        · exact ⟨h₁, h₂.le⟩
        · exact ⟨h₁, h₂.le⟩
      · rintro ⟨h₁, h₂⟩
        rcases h₂.lt_or_eq with h₂ | h₂
        · exact .inl ⟨h₁, h₂⟩
        · exact .inr ⟨h₁, h₂⟩
    rw [rings]
    generalize (square c r).foldl (fun b k => nearer p b (inCell pts k)) b = b' at hb'
    have hfirst : 0 < r → (∀ x ∈ pts, 0 < x.1) → ∀ x ∈ pts, apart (cellOf x.2) c < r → r = 1 := by
      intro hr hpos x hx hlt
      by_contra hne
      have := hnone (by omega) hpos
      rw [this] at hb
      exact hb x ⟨hx, hlt⟩
    by_cases hstop : (hasId b' && decide (0 < r)) = true
    · rw [if_pos hstop]
      rw [Bool.and_eq_true, decide_eq_true_iff] at hstop
      refine ⟨r, by omega, hstop.2, hb', hfirst hstop.2, fun e => ?_⟩
      rw [e] at hstop
      cases hstop.1
    · rw [if_neg hstop]
      cases left with
      | zero =>
        rw [rings]
        exact ⟨r, by omega, by omega, hb', hfirst (by omega), fun _ => by omega⟩
      | succ left =>
        obtain ⟨R, h₁, h₂, h₃, h₄, h₅⟩ := ih (r + 1) b'
          (best_congr hb' fun x => by rw [Nat.lt_succ_iff]) (by omega)
          (by
            intro hr hpos
            cases hb₀ : b' with
            | none => rfl
            | some b =>
              exfalso
              rw [hb₀] at hb' hstop
              obtain ⟨⟨q, ⟨hq, -⟩, -⟩, -⟩ := hb'
              have h0 : 0 < b.1 := hpos _ hq
              exact hstop (by simp only [hasId, Bool.and_eq_true, decide_eq_true_iff]; exact ⟨h0, by omega⟩))
          (by omega)
        exact ⟨R, by omega, h₂, h₃, h₄, fun e => by have := h₅ e; omega⟩

theorem closest_spec (pts : List (Id × Pt)) (p : Pt) :
    ∃ R, R ≤ 10 ∧ 0 < R ∧ Best p (fun x => x ∈ pts ∧ apart (cellOf x.2) (cellOf p) ≤ R) (closest pts p) ∧
      ((∀ x ∈ pts, 0 < x.1) → ∀ x ∈ pts, apart (cellOf x.2) (cellOf p) < R → R = 1) ∧
      (closest pts p = none → R = 10) := by
  obtain ⟨R, h₁, h₂, h₃, h₄, h₅⟩ := rings_spec (p := p) (pts := pts) (c := cellAt p) 11 0 none
    (fun x hx => by omega) (by decide) (fun h => by omega) (by decide)
  rw [cellAt_eq] at h₃ h₄
  refine ⟨R, by omega, h₂, ?_, h₄, fun e => by have := h₅ e; omega⟩
  unfold closest
  rw [cellAt_eq]
  exact h₃

/-- **C156.**  When no point is found, all points are more than a kilometre away in
north or in east. -/
theorem C156_none {pts : List (Id × Pt)} {p : Pt} (h : closest pts p = none) :
    ∀ x ∈ pts, 1000 < |x.2.n - p.n| ∨ 1000 < |x.2.e - p.e| := by
  obtain ⟨R, -, hR, hb, -, hten⟩ := closest_spec pts p
  have hten := hten h
  rw [h] at hb
  intro x hx
  have : 10 < apart (cellOf x.2) (cellOf p) := by
    by_contra hn
    exact hb x ⟨hx, by omega⟩
  have := apart_far this
  norm_num at this
  exact this

/-- **C156.**  What is found is one of the points, with its distance; only points more
than 100 m away can be nearer. -/
theorem C156_found {pts : List (Id × Pt)} {p : Pt} {i : Id} {d : ℝ} (h : closest pts p = some (i, d)) :
    (∃ q, (i, q) ∈ pts ∧ d = dist p q) ∧
      ∀ x ∈ pts, dist p x.2 < d → 100 < dist p x.2 := by
  obtain ⟨R, -, hR, hb, -, -⟩ := closest_spec pts p
  rw [h] at hb
  obtain ⟨⟨q, hq, e⟩, hmin⟩ := hb
  refine ⟨⟨q, hq.1, e⟩, fun x hx hlt => ?_⟩
  have : R < apart (cellOf x.2) (cellOf p) := by
    by_contra hn
    exact absurd (hmin x ⟨hx, by omega⟩) (not_le.mpr hlt)
  have h1 : (1 : ℝ) ≤ R := by exact_mod_cast hR
  rcases apart_far this with h | h
  · exact lt_of_lt_of_le (by linarith) (axis_le_dist p x.2).1
  · exact lt_of_lt_of_le (by linarith) (axis_le_dist p x.2).2

/-- **C156, in part.**  The point found is at most 3√2 times as far as any point of the
map. -/
theorem C156_near_partial {pts : List (Id × Pt)} {p : Pt} {i : Id} {d : ℝ}
    (h : closest pts p = some (i, d)) : ∀ x ∈ pts, d ≤ 3 * Real.sqrt 2 * dist p x.2 := by
  obtain ⟨R, -, hR, hb, -, -⟩ := closest_spec pts p
  rw [h] at hb
  obtain ⟨⟨q, hq, e⟩, hmin⟩ := hb
  intro x hx
  have hs : 1 ≤ Real.sqrt 2 := Real.one_le_sqrt.mpr (by norm_num)
  by_cases hle : apart (cellOf x.2) (cellOf p) ≤ R
  · have := hmin x ⟨hx, hle⟩
    have h0 := dist_nonneg p x.2
    dsimp only at this
    nlinarith
  · have h1 : (1 : ℝ) ≤ R := by exact_mod_cast hR
    have hx' : 100 * (R : ℝ) < dist p x.2 := by
      rcases apart_far (not_le.mp hle) with h | h
      · exact lt_of_lt_of_le h (axis_le_dist p x.2).1
      · exact lt_of_lt_of_le h (axis_le_dist p x.2).2
    obtain ⟨h₁, h₂⟩ := apart_near hq.2
    have hd : dist p q ≤ Real.sqrt 2 * (100 * (R + 2)) := by
      have hnn : (0 : ℝ) ≤ 100 * (R + 2) := by positivity
      have hsq : ∀ u : ℝ, |u| < 100 * (R + 2) → u * u ≤ (100 * (R + 2)) * (100 * (R + 2)) := by
        intro u hu
        obtain ⟨hu₁, hu₂⟩ := abs_lt.mp hu
        nlinarith
      have a := hsq _ h₁
      have b := hsq _ h₂
      have : Real.sqrt 2 * (100 * (R + 2 : ℝ)) =
          Real.sqrt (2 * ((100 * (R + 2 : ℝ)) * (100 * (R + 2)))) := by
        rw [Real.sqrt_mul (by norm_num), Real.sqrt_mul_self hnn]
      rw [this]
      unfold dist
      refine Real.sqrt_le_sqrt ?_
      nlinarith
    have e' : d = dist p q := e
    rw [e']
    refine le_trans hd ?_
    have : Real.sqrt 2 * (100 * (R + 2 : ℝ)) ≤ Real.sqrt 2 * (3 * dist p x.2) :=
      mul_le_mul_of_nonneg_left (by linarith) (by linarith)
    linarith

end Verif.Roads
