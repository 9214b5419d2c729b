import Verif.Grid.Correct

/-!
# The answer for a cell
-/

namespace Verif.Grid

theorem OnEdge.swap {p a b : Pt} : OnEdge p.swap a.swap b.swap ↔ OnEdge p a b :=
  ⟨fun ⟨s, h0, h1, h2, h3⟩ => ⟨s, h0, h1, h3, h2⟩, fun ⟨s, h0, h1, h2, h3⟩ => ⟨s, h0, h1, h3, h2⟩⟩

theorem along_along (a b : Pt) (s s' l : ℚ) : along (along a b s) (along a b s') l = along a b (s + l * (s' - s)) := by
  simp only [along, Pt.mk.injEq]; constructor <;> ring

/-- A part of an edge is on it. -/
theorem OnEdge.part {p a b : Pt} {s s' : ℚ} (h0 : 0 ≤ s) (h : s ≤ s') (h1 : s' ≤ 1) (hp : OnEdge p (along a b s) (along a b s')) : OnEdge p a b := by
  obtain ⟨l, l0, l1, rfl⟩ := (onEdge_iff _ _ _).1 hp
  rw [along_along]
  exact (onEdge_iff _ _ _).2 ⟨_, by nlinarith, by nlinarith, rfl⟩

/-- Everything at or right of the point: nothing is crossed. -/
theorem crossL_right {p a b : Pt} (ha : p.x ≤ a.x) (hb : p.x ≤ b.x) : crossL p a b = false := by
  have hsh := area_shift a b p
  unfold crossL
  by_cases h1 : p.y < a.y <;> by_cases h2 : p.y < b.y <;> simp only [h1, h2, decide_true, decide_false, bne_self_eq_false, Bool.false_and]
  · have h5 : ¬ a.y < b.y := by linarith
    have h6 : ¬ 0 < area a b p := by nlinarith
    simp [h5, h6]
  · have h5 : a.y < b.y := by linarith
    have h6 : ¬ area a b p < 0 := by nlinarith
    simp [h5, h6]

/-- Everything at or left of the point, which is not on the edge: it is crossed if the heights are on both sides. -/
theorem crossL_left {p a b : Pt} (ha : a.x ≤ p.x) (hb : b.x ≤ p.x) (hp : ¬ OnEdge p a b) :
    crossL p a b = xor (decide (p.y < a.y)) (decide (p.y < b.y)) := by
  have hsh := area_shift a b p
  have hne : (p.y < a.y) ≠ (p.y < b.y) → area a b p ≠ 0 := fun h h0 => hp (onEdge_of_y h0 h)
  unfold crossL
  by_cases h1 : p.y < a.y <;> by_cases h2 : p.y < b.y <;> simp only [h1, h2, decide_true, decide_false, bne_self_eq_false, Bool.false_and]
  · have h3 := hne (by simp [h1, h2])
    have h4 : 0 ≤ area a b p := by nlinarith
    have h5 : ¬ a.y < b.y := by linarith
    simp [h5, lt_of_le_of_ne h4 (Ne.symm h3)]
  · have h3 := hne (by simp [h1, h2])
    have h4 : area a b p ≤ 0 := by nlinarith
    have h5 : a.y < b.y := by linarith
    simp [h5, lt_of_le_of_ne h4 h3]

/-- Two points of one height do not see an edge differently that is not between them. -/
theorem out_level {p p' a b : Pt} (hy : p'.y = p.y) (hp : ¬ OnEdge p a b) (hp' : ¬ OnEdge p' a b)
    (h : (a.y ≤ p.y ∧ b.y ≤ p.y) ∨ (p.y < a.y ∧ p.y < b.y) ∨ (a.x ≤ p.x ∧ b.x ≤ p.x ∧ a.x ≤ p'.x ∧ b.x ≤ p'.x) ∨ (p.x ≤ a.x ∧ p.x ≤ b.x ∧ p'.x ≤ a.x ∧ p'.x ≤ b.x)) :
    xor (crossL p' a b) (crossL p a b) = false := by
  rcases h with ⟨h1, h2⟩ | ⟨h1, h2⟩ | ⟨h1, h2, h3, h4⟩ | ⟨h1, h2, h3, h4⟩
  · unfold crossL; rw [hy]; simp [not_lt.2 h1, not_lt.2 h2]
  · unfold crossL; rw [hy]; simp [h1, h2]
  · rw [crossL_left h1 h2 hp, crossL_left h3 h4 hp', hy]; simp
  · rw [crossL_right h1 h2, crossL_right h3 h4]; rfl

theorem out_upright {p p' a b : Pt} (hx : p'.x = p.x) (hp : ¬ OnEdge p a b) (hp' : ¬ OnEdge p' a b)
    (h : (a.x ≤ p.x ∧ b.x ≤ p.x) ∨ (p.x < a.x ∧ p.x < b.x) ∨ (a.y ≤ p.y ∧ b.y ≤ p.y ∧ a.y ≤ p'.y ∧ b.y ≤ p'.y) ∨ (p.y ≤ a.y ∧ p.y ≤ b.y ∧ p'.y ≤ a.y ∧ p'.y ≤ b.y)) :
    xor (crossB p' a b) (crossB p a b) = false := by
  rw [crossB_swap, crossB_swap]
  exact out_level (p := p.swap) (p' := p'.swap) hx (fun h => hp (OnEdge.swap.1 h)) (fun h => hp' (OnEdge.swap.1 h)) h

/-- Moving along a line that the edge does not touch. -/
theorem below_same {x y1 y2 : ℚ} {a b : Pt} (h : ∀ y, min y1 y2 ≤ y → y ≤ max y1 y2 → ¬ OnEdge ⟨x, y⟩ a b) : crossB ⟨x, y1⟩ a b = crossB ⟨x, y2⟩ a b := by
  unfold crossB
  simp only
  by_cases hs : (x < a.x) = (x < b.x)
  · simp [hs]
  have hne : ∀ y, min y1 y2 ≤ y → y ≤ max y1 y2 → area a b ⟨x, y⟩ ≠ 0 := fun y h1 h2 h0 => h y h1 h2 (onEdge_of_x h0 hs)
  have hd : b.x - a.x ≠ 0 := by intro h0; apply hs; rw [show a.x = b.x by linarith]
  have hlin : ∀ y, area a b ⟨x, y⟩ = area a b ⟨x, y1⟩ + (b.x - a.x) * (y - y1) := by intro y; simp only [area]; ring
  -- no change of sign
  have hsgn : (0 < area a b ⟨x, y1⟩ ↔ 0 < area a b ⟨x, y2⟩) := by
    have key : ∀ u v : ℚ, min y1 y2 ≤ u → u ≤ max y1 y2 → min y1 y2 ≤ v → v ≤ max y1 y2 → 0 < area a b ⟨x, u⟩ → area a b ⟨x, v⟩ < 0 → False := by
      intro u v u1 u2 v1 v2 hu hv
      have e : area a b ⟨x, u⟩ - area a b ⟨x, v⟩ = (b.x - a.x) * (u - v) := by simp only [area]; ring
      have hdd : area a b ⟨x, u⟩ - area a b ⟨x, v⟩ ≠ 0 := by linarith
      -- the zero in between
      obtain ⟨l, hl⟩ : ∃ l, l = area a b ⟨x, u⟩ / (area a b ⟨x, u⟩ - area a b ⟨x, v⟩) := ⟨_, rfl⟩
      have l0 : 0 ≤ l := by rw [hl]; exact div_nonneg hu.le (by linarith)
      have l1 : l ≤ 1 := by rw [hl]; exact (div_le_one (by linarith)).2 (by linarith)
      have hl' : l * (area a b ⟨x, u⟩ - area a b ⟨x, v⟩) = area a b ⟨x, u⟩ := by rw [hl]; field_simp
      refine hne (u + l * (v - u)) (by nlinarith) (by nlinarith) ?_
      have e2 : area a b ⟨x, u + l * (v - u)⟩ = area a b ⟨x, u⟩ - l * (area a b ⟨x, u⟩ - area a b ⟨x, v⟩) := by simp only [area]; ring
      rw [e2, hl']; ring
    have n1 := hne y1 (min_le_left _ _) (le_max_left _ _)
    have n2 := hne y2 (min_le_right _ _) (le_max_right _ _)
    constructor
    · intro h1
      by_contra h2
      exact key y1 y2 (min_le_left _ _) (le_max_left _ _) (min_le_right _ _) (le_max_right _ _) h1 (lt_of_le_of_ne (not_lt.1 h2) n2)
    · intro h1
      by_contra h2
      exact key y2 y1 (min_le_right _ _) (le_max_right _ _) (min_le_left _ _) (le_max_left _ _) h1 (lt_of_le_of_ne (not_lt.1 h2) n1)
  have hsgn' : (area a b ⟨x, y1⟩ < 0 ↔ area a b ⟨x, y2⟩ < 0) := by
    have n1 := hne y1 (min_le_left _ _) (le_max_left _ _)
    have n2 := hne y2 (min_le_right _ _) (le_max_right _ _)
    constructor
    · intro h1; refine lt_of_le_of_ne (not_lt.1 fun h2 => ?_) n2
      exact lt_asymm h1 (hsgn.2 h2)
    · intro h1; refine lt_of_le_of_ne (not_lt.1 fun h2 => ?_) n1
      exact lt_asymm h1 (hsgn.1 h2)
  simp only [hsgn, hsgn']

theorem left_same {y x1 x2 : ℚ} {a b : Pt} (h : ∀ x, min x1 x2 ≤ x → x ≤ max x1 x2 → ¬ OnEdge ⟨x, y⟩ a b) : crossL ⟨x1, y⟩ a b = crossL ⟨x2, y⟩ a b := by
  have := @below_same y x1 x2 a.swap b.swap (fun x h1 h2 h3 => h x h1 h2 (OnEdge.swap.1 h3))
  rw [crossB_swap, crossB_swap] at this
  exact this

/-- The situation of a query. -/
structure Query (b : Box) (vs : List Pt) (evs : List Ev) (i j : ℤ) (p : Pt) : Prop where
  made : Made b (edges vs) evs
  hi : 0 ≤ i ∧ i ≤ 4
  hj : 0 ≤ j ∧ j ≤ 4
  lx : b.gx i ≤ p.x
  hx : p.x < b.gx (i + 1)
  ly : b.gy j ≤ p.y
  hy : p.y < b.gy (j + 1)
  far : ∀ q ∈ piecesAt evs (j * 5 + i), ¬ Close p q.va q.vb

section
variable {b : Box} {vs : List Pt} {evs : List Ev} {i j : ℤ} {p : Pt}

theorem onEdge_close {p a b : Pt} (h : OnEdge p a b) : Close p a b := ⟨p, h, by simp [tol], by simp [tol]⟩

/-- The point is on no edge. -/
theorem Query.off (Q : Query b vs evs i j p) : ∀ e ∈ edges vs, e.1 ≠ e.2 → ¬ OnEdge p e.1 e.2 := by
  intro e he hne hp
  have key : ∃ q ∈ piecesAt evs (j * 5 + i), OnEdge p q.va q.vb := by
    rcases Q.lx.lt_or_eq with h1 | h1
    · rcases Q.ly.lt_or_eq with h2 | h2
      · exact made_inner Q.made h1 Q.hx h2 Q.hy he hne hp
      · obtain ⟨_, _, h⟩ := made_horiz Q.made h2.symm Q.lx Q.hx.le he hp
        exact h
    · obtain ⟨_, _, _, _, h⟩ := made_vert Q.made h1.symm Q.ly Q.hy.le he hp
      exact h
  obtain ⟨q, hq, hon⟩ := key
  exact Q.far q hq (onEdge_close hon)

theorem mem_off {va vb z : Pt} (h : ∀ e ∈ edges vs, e.1 ≠ e.2 → ¬ OnEdge z e.1 e.2) (g : Good b va vb) (hm : (va, vb) ∈ edges vs ∨ (vb, va) ∈ edges vs) : ¬ OnEdge z va vb := by
  have hne : va ≠ vb := by
    rintro rfl; rcases g.ne with h | h <;> exact h rfl
  rcases hm with hm | hm
  · exact h _ hm hne
  · exact fun h' => h _ hm hne.symm h'.comm

/-- The flag of the lower left corner. -/
theorem Query.bl (Q : Query b vs evs i j p) : blIn evs i j = inside vs ⟨b.gx i, b.gy j⟩ := by
  unfold blIn
  split_ifs with h
  · subst h
    symm
    apply parity_false
    intro e he
    obtain ⟨h1, h2⟩ := Q.made.good e he
    unfold crossL
    simp [h1.ly, h2.ly]
  · rw [made_corner Q.made (j - 1) i.toNat (by have := Q.hi; omega)]
    have e1 : ((i.toNat : ℕ) : ℤ) = i := by have := Q.hi; omega
    rw [e1, sub_add_cancel]
    rfl

/-- The flag of the upper right corner. -/
theorem Query.tr (Q : Query b vs evs i j p) : trIn evs i j = inside vs ⟨b.gx (i + 1), b.gy (j + 1)⟩ := by
  unfold trIn
  split_ifs with h
  · subst h
    symm
    apply parity_false
    intro e he
    obtain ⟨h1, h2⟩ := Q.made.good e he
    unfold crossL
    have a1 := h1.hy
    have a2 := h2.hy
    simp only
    rw [show (4 : ℤ) + 1 = 5 by norm_num]
    simp [not_lt.2 a1.le, not_lt.2 a2.le]
  · rw [made_corner Q.made j (i.toNat + 1) (by have := Q.hi; omega)]
    have e1 : ((i.toNat + 1 : ℕ) : ℤ) = i + 1 := by have := Q.hi; omega
    rw [e1]
    rfl

/-- A cell of the grid other than that of the point. -/
theorem Query.out_level (Q : Query b vs evs i j p) {X : ℚ} (hX : b.gx i ≤ X ∧ X ≤ b.gx (i + 1)) {i' j' : ℤ} (hne : ¬ (i' = i ∧ j' = j)) {u v : Pt}
    (hu : InCell b i' j' u) (hv : InCell b i' j' v) (h1 : ¬ OnEdge p u v) (h2 : ¬ OnEdge ⟨X, p.y⟩ u v) :
    xor (crossL ⟨X, p.y⟩ u v) (crossL p u v) = false := by
  have dx := Q.made.dx
  have dy := Q.made.dy
  have a1 := Q.lx; have a2 := Q.hx; have a3 := Q.ly; have a4 := Q.hy
  refine Grid.out_level (p := p) (p' := ⟨X, p.y⟩) rfl h1 h2 ?_
  have u1 := hu.lx; have u2 := hu.hx; have u3 := hu.ly; have u4 := hu.hy
  have v1 := hv.lx; have v2 := hv.hx; have v3 := hv.ly; have v4 := hv.hy
  rcases lt_trichotomy j' j with hj | hj | hj
  · left
    have := (gy_le dy).2 (show j' + 1 ≤ j by omega)
    constructor <;> linarith
  · rcases lt_trichotomy i' i with hi | hi | hi
    · right; right; left
      have := (gx_le dx).2 (show i' + 1 ≤ i by omega)
      simp only
      refine ⟨?_, ?_, ?_, ?_⟩ <;> linarith [hX.1]
    · exact absurd ⟨hi, hj⟩ hne
    · right; right; right
      have := (gx_le dx).2 (show i + 1 ≤ i' by omega)
      simp only
      refine ⟨?_, ?_, ?_, ?_⟩ <;> linarith [hX.2]
  · right; left
    have := (gy_le dy).2 (show j + 1 ≤ j' by omega)
    constructor <;> linarith

theorem Query.out_upright (Q : Query b vs evs i j p) {Y : ℚ} (hY : b.gy j ≤ Y ∧ Y ≤ b.gy (j + 1)) {i' j' : ℤ} (hne : ¬ (i' = i ∧ j' = j)) {u v : Pt}
    (hu : InCell b i' j' u) (hv : InCell b i' j' v) (h1 : ¬ OnEdge p u v) (h2 : ¬ OnEdge ⟨p.x, Y⟩ u v) :
    xor (crossB ⟨p.x, Y⟩ u v) (crossB p u v) = false := by
  have dx := Q.made.dx
  have dy := Q.made.dy
  have a1 := Q.lx; have a2 := Q.hx; have a3 := Q.ly; have a4 := Q.hy
  refine Grid.out_upright (p := p) (p' := ⟨p.x, Y⟩) rfl h1 h2 ?_
  have u1 := hu.lx; have u2 := hu.hx; have u3 := hu.ly; have u4 := hu.hy
  have v1 := hv.lx; have v2 := hv.hx; have v3 := hv.ly; have v4 := hv.hy
  rcases lt_trichotomy i' i with hj | hj | hj
  · left
    have := (gx_le dx).2 (show i' + 1 ≤ i by omega)
    constructor <;> linarith
  · rcases lt_trichotomy j' j with hi | hi | hi
    · right; right; left
      have := (gy_le dy).2 (show j' + 1 ≤ j by omega)
      simp only
      refine ⟨?_, ?_, ?_, ?_⟩ <;> linarith [hY.1]
    · exact absurd ⟨hj, hi⟩ hne
    · right; right; right
      have := (gy_le dy).2 (show j + 1 ≤ j' by omega)
      simp only
      refine ⟨?_, ?_, ?_, ?_⟩ <;> linarith [hY.2]
  · right; left
    have := (gx_le dx).2 (show i + 1 ≤ i' by omega)
    constructor <;> linarith

theorem part_sub {va vb : Pt} {s s' : ℚ} (h0 : 0 ≤ s) (h : s < s') (h1 : s' ≤ 1) :
    ∀ l, 0 ≤ l → l ≤ 1 → OnEdge (along (along va vb s) (along va vb s') l) va vb := by
  intro l l0 l1
  rw [along_along]
  exact (onEdge_iff _ _ _).2 ⟨_, by nlinarith, by nlinarith, rfl⟩

/-- The left side is clear. -/
theorem Query.caseL (Q : Query b vs evs i j p) (hl : Ev.hit (j * 5 + i) .l ∉ evs) :
    toggled (toggleL p) (blIn evs i j) (piecesAt evs (j * 5 + i)) = inside vs p := by
  have hside : ∀ y, b.gy j ≤ y → y ≤ b.gy (j + 1) → ∀ e ∈ edges vs, e.1 ≠ e.2 → ¬ OnEdge ⟨b.gx i, y⟩ e.1 e.2 :=
    fun y h1 h2 e he _ hon => hl (made_vert Q.made rfl h1 h2 he hon).1
  have dy := Q.made.dy
  have hyj : b.gy j ≤ b.gy (j + 1) := by rw [gy_succ]; linarith
  have hp0 := hside p.y Q.ly Q.hy.le
  have hc := hside (b.gy j) le_rfl hyj
  have e1 : inside vs ⟨b.gx i, p.y⟩ = inside vs ⟨b.gx i, b.gy j⟩ := by
    have l1 := left_eq_below id vs ⟨b.gx i, p.y⟩ hp0
    have l2 := left_eq_below id vs ⟨b.gx i, b.gy j⟩ hc
    simp only [id] at l1 l2
    show parity (fun a b' => crossL _ a b') _ = parity (fun a b' => crossL _ a b') _
    rw [l1, l2]
    apply parity_congr
    intro e he
    by_cases hne : e.1 = e.2
    · rw [hne]; simp [crossB]
    · apply below_same
      intro y h1 h2
      rw [min_eq_right Q.ly] at h1
      rw [max_eq_left Q.ly] at h2
      exact hside y h1 (le_trans h2 Q.hy.le) e he hne
  have e2 := made_pieces Q.made (F := toggleL p) (M := fun q => ¬ Close p q.va q.vb) (T := fun u v => xor (crossL ⟨b.gx i, p.y⟩ u v) (crossL p u v)) (i := i) (j := j) Q.hi
    (fun u v => by rw [crossL_comm _ u v, crossL_comm _ u v]) (fun u => by simp [crossL])
    (fun h h' => by
      rw [crossL_add h h', crossL_add h h']
      generalize crossL _ _ _ = u; generalize crossL _ _ _ = v; generalize crossL _ _ _ = w; generalize crossL _ _ _ = z
      cases u <;> cases v <;> cases w <;> cases z <;> rfl)
    (fun g hm h0 h h1 c1 c2 _ _ hM => by
      rw [toggleL_eq (part_sub h0 h h1) hM, crossL_right (p := ⟨b.gx i, p.y⟩) c1.lx c2.lx, Bool.false_xor])
    (fun g hm hne h0 h h1 c1 c2 => Q.out_level ⟨le_rfl, by have := Q.made.dx; rw [gx_succ]; linarith⟩ hne c1 c2
      (fun h' => mem_off Q.off g hm (h'.part h0 h.le h1)) (fun h' => mem_off hp0 g hm (h'.part h0 h.le h1)))
    Q.far
  rw [toggled_eq, Q.bl, ← e1, e2, parity_xor]
  show xor (inside vs _) (xor (inside vs _) (inside vs p)) = _
  cases inside vs ⟨b.gx i, p.y⟩ <;> simp

/-- The bottom side is clear. -/
theorem Query.caseB (Q : Query b vs evs i j p) (hl : Ev.hit (j * 5 + i) .b ∉ evs) :
    toggled (toggleB p) (blIn evs i j) (piecesAt evs (j * 5 + i)) = inside vs p := by
  have hside : ∀ x, b.gx i ≤ x → x ≤ b.gx (i + 1) → ∀ e ∈ edges vs, e.1 ≠ e.2 → ¬ OnEdge ⟨x, b.gy j⟩ e.1 e.2 :=
    fun y h1 h2 e he _ hon => hl (made_horiz Q.made rfl h1 h2 he hon).1
  have dx := Q.made.dx
  have hp0 := hside p.x Q.lx Q.hx.le
  have e1 : inside vs ⟨p.x, b.gy j⟩ = inside vs ⟨b.gx i, b.gy j⟩ := by
    apply parity_congr
    intro e he
    by_cases hne : e.1 = e.2
    · rw [hne]; simp [crossL]
    · apply left_same
      intro y h1 h2
      rw [min_eq_right Q.lx] at h1
      rw [max_eq_left Q.lx] at h2
      exact hside y h1 (le_trans h2 Q.hx.le) e he hne
  have e2 := made_pieces Q.made (F := toggleB p) (M := fun q => ¬ Close p q.va q.vb) (T := fun u v => xor (crossB ⟨p.x, b.gy j⟩ u v) (crossB p u v)) (i := i) (j := j) Q.hi
    (fun u v => by rw [crossB_comm _ u v, crossB_comm _ u v]) (fun u => by simp [crossB])
    (fun h h' => by
      rw [crossB_add h h', crossB_add h h']
      generalize crossB _ _ _ = u; generalize crossB _ _ _ = v; generalize crossB _ _ _ = w; generalize crossB _ _ _ = z
      cases u <;> cases v <;> cases w <;> cases z <;> rfl)
    (fun g hm h0 h h1 c1 c2 _ _ hM => by
      rw [toggleB_eq (part_sub h0 h h1) hM, crossB_swap ⟨p.x, b.gy j⟩, crossL_right c1.ly c2.ly, Bool.false_xor])
    (fun g hm hne h0 h h1 c1 c2 => Q.out_upright ⟨le_rfl, by have := Q.made.dy; rw [gy_succ]; linarith⟩ hne c1 c2
      (fun h' => mem_off Q.off g hm (h'.part h0 h.le h1)) (fun h' => mem_off hp0 g hm (h'.part h0 h.le h1)))
    Q.far
  have l1 := left_eq_below id vs ⟨p.x, b.gy j⟩ hp0
  have l2 := left_eq_below id vs p Q.off
  simp only [id] at l1 l2
  rw [toggled_eq, Q.bl, ← e1, e2, parity_xor]
  show xor (inside vs _) (xor (parity (fun a b' => crossB ⟨p.x, b.gy j⟩ a b') _) (parity (fun a b' => crossB p a b') _)) = _
  rw [← l1, ← l2]
  show xor (inside vs _) (xor (inside vs _) (inside vs p)) = _
  cases inside vs ⟨p.x, b.gy j⟩ <;> simp

/-- The right side is clear. -/
theorem Query.caseR (Q : Query b vs evs i j p) (hl : Ev.hit (j * 5 + i) .r ∉ evs) :
    toggled (toggleR p) (trIn evs i j) (piecesAt evs (j * 5 + i)) = inside vs p := by
  have hside : ∀ y, b.gy j ≤ y → y ≤ b.gy (j + 1) → ∀ e ∈ edges vs, e.1 ≠ e.2 → ¬ OnEdge ⟨b.gx (i + 1), y⟩ e.1 e.2 :=
    fun y h1 h2 e he _ hon => hl (by have := (made_vert Q.made rfl h1 h2 he hon).2.1; rwa [add_sub_cancel_right] at this)
  have dy := Q.made.dy
  have hyj : b.gy j ≤ b.gy (j + 1) := by rw [gy_succ]; linarith
  have hp0 := hside p.y Q.ly Q.hy.le
  have hc := hside (b.gy (j + 1)) hyj le_rfl
  have e1 : inside vs ⟨b.gx (i + 1), p.y⟩ = inside vs ⟨b.gx (i + 1), b.gy (j + 1)⟩ := by
    have l1 := left_eq_below id vs ⟨b.gx (i + 1), p.y⟩ hp0
    have l2 := left_eq_below id vs ⟨b.gx (i + 1), b.gy (j + 1)⟩ hc
    simp only [id] at l1 l2
    show parity (fun a b' => crossL _ a b') _ = parity (fun a b' => crossL _ a b') _
    rw [l1, l2]
    apply parity_congr
    intro e he
    by_cases hne : e.1 = e.2
    · rw [hne]; simp [crossB]
    · apply below_same
      intro y h1 h2
      rw [min_eq_left Q.hy.le] at h1
      rw [max_eq_right Q.hy.le] at h2
      exact hside y (le_trans Q.ly h1) h2 e he hne
  have e2 := made_pieces Q.made (F := toggleR p) (M := fun q => ¬ Close p q.va q.vb) (T := fun u v => xor (crossL ⟨b.gx (i + 1), p.y⟩ u v) (crossL p u v)) (i := i) (j := j) Q.hi
    (fun u v => by rw [crossL_comm _ u v, crossL_comm _ u v]) (fun u => by simp [crossL])
    (fun h h' => by
      rw [crossL_add h h', crossL_add h h']
      generalize crossL _ _ _ = u; generalize crossL _ _ _ = v; generalize crossL _ _ _ = w; generalize crossL _ _ _ = z
      cases u <;> cases v <;> cases w <;> cases z <;> rfl)
    (fun g hm h0 h h1 c1 c2 _ _ hM => by
      rw [toggleR_eq (part_sub h0 h h1) hM, crossL_left (p := ⟨b.gx (i + 1), p.y⟩) c1.hx c2.hx (fun h' => mem_off hp0 g hm (h'.part h0 h.le h1))]
      rfl)
    (fun g hm hne h0 h h1 c1 c2 => Q.out_level ⟨by have := Q.made.dx; rw [gx_succ]; linarith, le_rfl⟩ hne c1 c2
      (fun h' => mem_off Q.off g hm (h'.part h0 h.le h1)) (fun h' => mem_off hp0 g hm (h'.part h0 h.le h1)))
    Q.far
  rw [toggled_eq, Q.tr, ← e1, e2, parity_xor]
  show xor (inside vs _) (xor (inside vs _) (inside vs p)) = _
  cases inside vs ⟨b.gx (i + 1), p.y⟩ <;> simp

/-- The top side is clear. -/
theorem Query.caseT (Q : Query b vs evs i j p) (hl : Ev.hit (j * 5 + i) .t ∉ evs) :
    toggled (toggleT p) (trIn evs i j) (piecesAt evs (j * 5 + i)) = inside vs p := by
  have hside : ∀ x, b.gx i ≤ x → x ≤ b.gx (i + 1) → ∀ e ∈ edges vs, e.1 ≠ e.2 → ¬ OnEdge ⟨x, b.gy (j + 1)⟩ e.1 e.2 :=
    fun y h1 h2 e he _ hon => hl (by have := (made_horiz Q.made rfl h1 h2 he hon).2.1; rwa [add_sub_cancel_right] at this)
  have dx := Q.made.dx
  have hp0 := hside p.x Q.lx Q.hx.le
  have e1 : inside vs ⟨p.x, b.gy (j + 1)⟩ = inside vs ⟨b.gx (i + 1), b.gy (j + 1)⟩ := by
    apply parity_congr
    intro e he
    by_cases hne : e.1 = e.2
    · rw [hne]; simp [crossL]
    · apply left_same
      intro y h1 h2
      rw [min_eq_left Q.hx.le] at h1
      rw [max_eq_right Q.hx.le] at h2
      exact hside y (le_trans Q.lx h1) h2 e he hne
  have e2 := made_pieces Q.made (F := toggleT p) (M := fun q => ¬ Close p q.va q.vb) (T := fun u v => xor (crossB ⟨p.x, b.gy (j + 1)⟩ u v) (crossB p u v)) (i := i) (j := j) Q.hi
    (fun u v => by rw [crossB_comm _ u v, crossB_comm _ u v]) (fun u => by simp [crossB])
    (fun h h' => by
      rw [crossB_add h h', crossB_add h h']
      generalize crossB _ _ _ = u; generalize crossB _ _ _ = v; generalize crossB _ _ _ = w; generalize crossB _ _ _ = z
      cases u <;> cases v <;> cases w <;> cases z <;> rfl)
    (fun g hm h0 h h1 c1 c2 _ _ hM => by
      rw [toggleT_eq (part_sub h0 h h1) hM, crossB_swap ⟨p.x, b.gy (j + 1)⟩,
        crossL_left (p := Pt.swap ⟨p.x, b.gy (j + 1)⟩) c1.hy c2.hy (fun h' => mem_off hp0 g hm ((OnEdge.swap.1 h').part h0 h.le h1))]
      rfl)
    (fun g hm hne h0 h h1 c1 c2 => Q.out_upright ⟨by have := Q.made.dy; rw [gy_succ]; linarith, le_rfl⟩ hne c1 c2
      (fun h' => mem_off Q.off g hm (h'.part h0 h.le h1)) (fun h' => mem_off hp0 g hm (h'.part h0 h.le h1)))
    Q.far
  have l1 := left_eq_below id vs ⟨p.x, b.gy (j + 1)⟩ hp0
  have l2 := left_eq_below id vs p Q.off
  simp only [id] at l1 l2
  rw [toggled_eq, Q.tr, ← e1, e2, parity_xor]
  show xor (inside vs _) (xor (parity (fun a b' => crossB ⟨p.x, b.gy (j + 1)⟩ a b') _) (parity (fun a b' => crossB p a b') _)) = _
  rw [← l1, ← l2]
  show xor (inside vs _) (xor (inside vs _) (inside vs p)) = _
  cases inside vs ⟨p.x, b.gy (j + 1)⟩ <;> simp

theorem mem_pairs : ∀ {vs : List Pt} {u : Pt} {e : Pt × Pt}, e ∈ pairs u vs → e.1 ∈ u :: vs ∧ e.2 ∈ vs
  | [], u, e, h => by cases h
  | v :: vs, u, e, h => by
      rcases List.mem_cons.1 h with rfl | h
      · simp
      · obtain ⟨h1, h2⟩ := mem_pairs h
        exact ⟨List.mem_cons_of_mem _ h1, List.mem_cons_of_mem _ h2⟩

theorem mem_edges {vs : List Pt} {e : Pt × Pt} (h : e ∈ edges vs) : e.1 ∈ vs ∧ e.2 ∈ vs := by
  cases vs with
  | nil => cases h
  | cons v vs =>
      obtain ⟨h1, h2⟩ := mem_pairs h
      refine ⟨?_, h2⟩
      rcases List.mem_cons.1 h1 with h | h
      · rw [h]; exact List.getLast_mem _
      · exact h

/-- No side is clear. -/
theorem Query.caseC (Q : Query b vs evs i j p) (hx : b.gx i < p.x) (hy : b.gy j < p.y) (hv : ∀ v ∈ vs, ¬ OnEdge v ⟨b.gx i, b.gy j⟩ p) :
    toggled (toggleC ⟨b.gx i, b.gy j⟩ p) (blIn evs i j) (piecesAt evs (j * 5 + i)) = inside vs p := by
  have dx := Q.made.dx
  have dy := Q.made.dy
  have hc : ∀ e ∈ edges vs, e.1 ≠ e.2 → ¬ OnEdge ⟨b.gx i, b.gy j⟩ e.1 e.2 := by
    intro e he _ hon
    obtain ⟨_, _, h, _⟩ := made_vert Q.made (k := i) (j := j) (p := ⟨b.gx i, b.gy j⟩) rfl le_rfl (by rw [gy_succ]; simp only; linarith) he hon
    exact lt_irrefl _ h
  have hin : ∀ l : ℚ, 0 < l → l ≤ 1 → b.gx i < (along ⟨b.gx i, b.gy j⟩ p l).x ∧ (along ⟨b.gx i, b.gy j⟩ p l).x < b.gx (i + 1) ∧
      b.gy j < (along ⟨b.gx i, b.gy j⟩ p l).y ∧ (along ⟨b.gx i, b.gy j⟩ p l).y < b.gy (j + 1) := by
    intro l l0 l1
    have := Q.hx; have := Q.hy
    simp only [along]
    refine ⟨?_, ?_, ?_, ?_⟩ <;> nlinarith
  have notBd : ∀ z : Pt, Bd b i j z → z ≠ ⟨b.gx i, b.gy j⟩ → ¬ OnEdge z ⟨b.gx i, b.gy j⟩ p := by
    intro z hz hne hon
    obtain ⟨l, l0, l1, rfl⟩ := (onEdge_iff _ _ _).1 hon
    rcases l0.lt_or_eq with h | h
    · obtain ⟨h1, h2, h3, h4⟩ := hin l h l1
      rcases hz with hz | hz | hz | hz <;> linarith
    · rw [← h, along_zero] at hne; exact hne rfl
  have e2 := made_pieces Q.made (F := toggleC ⟨b.gx i, b.gy j⟩ p) (M := fun q => ¬ Close p q.va q.vb) (T := crossS ⟨b.gx i, b.gy j⟩ p) (i := i) (j := j) Q.hi
    (fun u v => crossS_comm _ _ u v) (fun u => by simp [crossS, crossB])
    (fun h h' => crossS_add h h')
    (fun {va vb s s'} g hm h0 h h1 c1 c2 b1 b2 hM => by
      have hmem : va ∈ vs ∧ vb ∈ vs := by
        rcases hm with hm | hm
        · exact mem_edges hm
        · exact (mem_edges hm).symm
      have hcp : ∀ z, OnEdge z (along va vb s) (along va vb s') → z ≠ ⟨b.gx i, b.gy j⟩ := by
        intro z hz hzc; rw [hzc] at hz; exact mem_off hc g hm (hz.part h0 h.le h1)
      refine toggleC_eq hx.le hy (fun h' => mem_off hc g hm (h'.part h0 h.le h1)) (fun h' => mem_off Q.off g hm (h'.part h0 h.le h1)) ?_ ?_
      · rcases b1 with b1 | b1
        · simp only; rw [b1, along_zero]; exact hv _ hmem.1
        · exact notBd _ b1 (hcp _ ((onEdge_iff _ _ _).2 ⟨0, le_rfl, zero_le_one, (along_zero _ _).symm⟩))
      · rcases b2 with b2 | b2
        · simp only; rw [b2, along_one]; exact hv _ hmem.2
        · exact notBd _ b2 (hcp _ ((onEdge_iff _ _ _).2 ⟨1, zero_le_one, le_rfl, (along_one _ _).symm⟩)))
    (fun {va vb i' j' s s'} g hm hne h0 h h1 c1 c2 => by
      by_contra hcon
      have hcon := Bool.eq_true_of_not_eq_false hcon
      obtain ⟨l, l0, l1, hon⟩ := crossS_meets hy hcon
      have hl : 0 < l := by
        rcases l0.lt_or_eq with h' | h'
        · exact h'
        · exfalso; rw [← h', along_zero] at hon; exact mem_off hc g hm (hon.part h0 h.le h1)
      obtain ⟨h2, h3, h4, h5⟩ := hin l hl l1
      obtain ⟨r, r0, r1, hr⟩ := (onEdge_iff _ _ _).1 hon
      have hcell : InCell b i' j' (along ⟨b.gx i, b.gy j⟩ p l) := by
        rw [hr]
        exact InCell.between (t := 0) (t' := 1) r0 r1 (by rw [along_zero]; exact c1) (by rw [along_one]; exact c2)
      apply hne
      have a1 := (gx_lt dx).1 (lt_of_le_of_lt hcell.lx h3)
      have a2 := (gx_lt dx).1 (lt_of_lt_of_le h2 hcell.hx)
      have a3 := (gy_lt dy).1 (lt_of_le_of_lt hcell.ly h5)
      have a4 := (gy_lt dy).1 (lt_of_lt_of_le h4 hcell.hy)
      constructor <;> omega)
    Q.far
  rw [toggled_eq, Q.bl, e2]
  exact (segment_parity vs _ p hc Q.off).symm

end

end Verif.Grid
