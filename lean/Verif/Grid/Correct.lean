import Verif.Grid.Edges

/-!
# The test against the pieces of a cell
-/

namespace Verif.Grid

theorem straddle_iff (y a b : ℚ) : (decide (min a b ≤ y) && decide (y < max a b)) = (decide (y < a) != decide (y < b)) := by
  by_cases h1 : y < a <;> by_cases h2 : y < b <;> simp [h1, h2] <;> simp only [not_lt] at * <;> simp [*]

/-- The test with the right slope is the crossing of the ray. -/
theorem toggle_left {p a b : Pt} {k : ℚ}
    (hk : (p.y < a.y) ≠ (p.y < b.y) → min a.x b.x < p.x → p.x ≤ max a.x b.x → k * (b.y - a.y) = b.x - a.x) :
    (decide (min a.y b.y ≤ p.y) && decide (p.y < max a.y b.y) &&
      (decide (p.x > max a.x b.x) || (decide (p.x > min a.x b.x) && decide (a.x - (a.y - p.y) * k < p.x)))) = crossL p a b := by
  rw [straddle_iff]
  unfold crossL
  by_cases hs : (p.y < a.y) = (p.y < b.y)
  · simp [hs]
  have hs1 : (decide (p.y < a.y) != decide (p.y < b.y)) = true := by
    simp only [bne_iff_ne, ne_eq, decide_eq_decide]; intro h; exact hs (propext h)
  rw [hs1, Bool.true_and, Bool.true_and]
  have hk := hk hs
  have hsh := area_shift a b p
  -- the signs of the heights
  have hor : (a.y ≤ p.y ∧ p.y < b.y) ∨ (b.y ≤ p.y ∧ p.y < a.y) := by
    by_cases h1 : p.y < a.y
    · right; exact ⟨by by_contra h2; exact hs (by simp [h1, not_le.1 h2]), h1⟩
    · left; exact ⟨not_lt.1 h1, by by_contra h2; exact hs (by simp [h1, h2])⟩
  by_cases h1 : p.x > max a.x b.x
  · have ha : a.x < p.x := lt_of_le_of_lt (le_max_left _ _) h1
    have hb : b.x < p.x := lt_of_le_of_lt (le_max_right _ _) h1
    rw [decide_eq_true h1, Bool.true_or]
    symm
    rw [decide_eq_true_eq]
    rcases hor with ⟨o1, o2⟩ | ⟨o1, o2⟩
    · rw [if_pos (by linarith)]; nlinarith
    · rw [if_neg (by linarith)]; nlinarith
  · rw [decide_eq_false h1, Bool.false_or]
    by_cases h2 : p.x > min a.x b.x
    · rw [decide_eq_true h2, Bool.true_and]
      have hk := hk h2 (not_lt.1 h1)
      congr 1
      apply propext
      have harea : area a b p = (b.y - a.y) * ((a.x - (a.y - p.y) * k) - p.x) := by
        unfold area; rw [← hk]; ring
      rw [harea]
      rcases hor with ⟨o1, o2⟩ | ⟨o1, o2⟩
      · rw [if_pos (by linarith)]
        constructor
        · intro h; nlinarith
        · intro h; by_contra h3; nlinarith
      · rw [if_neg (by linarith)]
        constructor
        · intro h; nlinarith
        · intro h; by_contra h3; nlinarith
    · rw [decide_eq_false h2, Bool.false_and]
      symm
      rw [decide_eq_false_iff_not]
      have h3 : p.x ≤ min a.x b.x := not_lt.1 h2
      have ha : p.x ≤ a.x := le_trans h3 (min_le_left _ _)
      have hb : p.x ≤ b.x := le_trans h3 (min_le_right _ _)
      rcases hor with ⟨o1, o2⟩ | ⟨o1, o2⟩
      · rw [if_pos (by linarith)]; nlinarith
      · rw [if_neg (by linarith)]; nlinarith

/-- The same for the ray to the right. -/
theorem toggle_right {p a b : Pt} {k : ℚ}
    (hk : (p.y < a.y) ≠ (p.y < b.y) → min a.x b.x < p.x → p.x ≤ max a.x b.x → k * (b.y - a.y) = b.x - a.x) :
    (decide (min a.y b.y ≤ p.y) && decide (p.y < max a.y b.y) &&
      (decide (p.x ≤ min a.x b.x) || (decide (p.x ≤ max a.x b.x) && decide (a.x - (a.y - p.y) * k ≥ p.x)))) = crossR p a b := by
  have h := toggle_left hk
  unfold crossR
  rw [← h, straddle_iff]
  have e1 : decide (p.x ≤ min a.x b.x) = !decide (p.x > min a.x b.x) := by
    rw [← decide_not]; congr 1; apply propext; exact not_lt.symm
  have e2 : decide (p.x ≤ max a.x b.x) = !decide (p.x > max a.x b.x) := by
    rw [← decide_not]; congr 1; apply propext; exact not_lt.symm
  have e3 : decide (a.x - (a.y - p.y) * k ≥ p.x) = !decide (a.x - (a.y - p.y) * k < p.x) := by
    rw [← decide_not]; congr 1; apply propext; exact not_lt.symm
  have e4 : p.x > max a.x b.x → p.x > min a.x b.x := fun h => lt_of_le_of_lt (min_le_max) h
  rw [e1, e2, e3]
  generalize decide (a.x - (a.y - p.y) * k < p.x) = w
  by_cases h1 : p.x > max a.x b.x
  · simp only [decide_eq_true h1, decide_eq_true (e4 h1)]
    cases decide (p.y < a.y) <;> cases decide (p.y < b.y) <;> cases w <;> rfl
  · simp only [decide_eq_false h1]
    cases decide (p.y < a.y) <;> cases decide (p.y < b.y) <;> cases w <;> cases decide (p.x > min a.x b.x) <;> rfl

/-- The tolerance of the code in coordinates. -/
def tol : ℚ := 1 / 10 ^ 9

theorem nearly_iff (u v : ℚ) : nearly u v = true ↔ |u - v| < tol := by
  unfold nearly tol
  rw [decide_eq_true_eq, abs_lt]
  constructor
  · rintro ⟨h1, h2⟩; constructor <;> linarith
  · rintro ⟨h1, h2⟩; constructor <;> linarith

/-- Closeness to a point of the edge, in both coordinates. -/
def Close (p va vb : Pt) : Prop := ∃ q, OnEdge q va vb ∧ |p.x - q.x| < tol ∧ |p.y - q.y| < tol

/-- A coordinate between those of two points is taken between them. -/
theorem exists_along {u v x : ℚ} (h1 : min u v ≤ x) (h2 : x ≤ max u v) : ∃ s, 0 ≤ s ∧ s ≤ 1 ∧ u + s * (v - u) = x := by
  rcases lt_trichotomy u v with h | h | h
  · rw [min_eq_left h.le] at h1; rw [max_eq_right h.le] at h2
    refine ⟨(x - u) / (v - u), div_nonneg (by linarith) (by linarith), (div_le_one (by linarith)).2 (by linarith), ?_⟩
    have : v - u ≠ 0 := by intro h; linarith
    field_simp; ring
  · subst h
    rw [min_self] at h1; rw [max_self] at h2
    exact ⟨0, le_rfl, zero_le_one, by linarith⟩
  · rw [min_eq_right h.le] at h1; rw [max_eq_left h.le] at h2
    refine ⟨(x - u) / (v - u), div_nonneg_of_nonpos (by linarith) (by linarith), (div_le_one_of_neg (by linarith)).2 (by linarith), ?_⟩
    have : v - u ≠ 0 := by intro h; linarith
    field_simp; ring

theorem between_abs {u v s x : ℚ} (h0 : 0 ≤ s) (h1 : s ≤ 1) (hx : min u v ≤ x) (hx' : x ≤ max u v) (h : |u - v| < tol) : |x - (u + s * (v - u))| < tol := by
  rw [abs_lt] at h ⊢
  rcases le_total u v with h2 | h2
  · rw [min_eq_left h2] at hx; rw [max_eq_right h2] at hx'
    constructor <;> nlinarith
  · rw [min_eq_right h2] at hx; rw [max_eq_left h2] at hx'
    constructor <;> nlinarith

theorem straddle_minmax {y a b : ℚ} (h : (y < a) ≠ (y < b)) : min a b ≤ y ∧ y ≤ max a b := by
  by_cases h1 : y < a
  · have h2 : ¬ y < b := fun h2 => h (by simp [h1, h2])
    exact ⟨le_trans (min_le_right _ _) (not_lt.1 h2), le_trans h1.le (le_max_left _ _)⟩
  · have h2 : y < b := by by_contra h2; exact h (by simp [h1, h2])
    exact ⟨le_trans (min_le_left _ _) (not_lt.1 h1), le_trans h2.le (le_max_right _ _)⟩

/-- Where the point is not close to the edge, the slope is the right one. -/
theorem slope_ok {p : Pt} {q : Piece} (hsub : ∀ s, 0 ≤ s → s ≤ 1 → OnEdge (along q.a q.b s) q.va q.vb) (hn : ¬ Close p q.va q.vb)
    (hs : (p.y < q.a.y) ≠ (p.y < q.b.y)) (h1 : min q.a.x q.b.x < p.x) (h2 : p.x ≤ max q.a.x q.b.x) : q.slope * (q.b.y - q.a.y) = q.b.x - q.a.x := by
  obtain ⟨y1, y2⟩ := straddle_minmax hs
  unfold Piece.slope
  split_ifs with c1 c2
  · exfalso
    obtain ⟨s, s0, s1, hx⟩ := exists_along h1.le h2
    apply hn
    refine ⟨_, hsub s s0 s1, ?_, between_abs s0 s1 y1 y2 ((nearly_iff _ _).1 c1)⟩
    simp only [along]; rw [hx]; simp [tol]
  · exfalso
    obtain ⟨s, s0, s1, hy⟩ := exists_along y1 y2
    apply hn
    refine ⟨_, hsub s s0 s1, between_abs s0 s1 h1.le h2 ((nearly_iff _ _).1 c2), ?_⟩
    simp only [along]; rw [hy]; simp [tol]
  · have : q.b.y - q.a.y ≠ 0 := by
      intro h; apply c1; rw [nearly_iff, show q.a.y - q.b.y = 0 by linarith]; simp [tol]
    field_simp

theorem invSlope_ok {p : Pt} {q : Piece} (hsub : ∀ s, 0 ≤ s → s ≤ 1 → OnEdge (along q.a q.b s) q.va q.vb) (hn : ¬ Close p q.va q.vb)
    (hs : (p.x < q.a.x) ≠ (p.x < q.b.x)) (h1 : min q.a.y q.b.y < p.y) (h2 : p.y ≤ max q.a.y q.b.y) : q.invSlope * (q.b.x - q.a.x) = q.b.y - q.a.y := by
  obtain ⟨y1, y2⟩ := straddle_minmax hs
  unfold Piece.invSlope
  split_ifs with c1 c2
  · exfalso
    obtain ⟨s, s0, s1, hx⟩ := exists_along y1 y2
    apply hn
    refine ⟨_, hsub s s0 s1, ?_, between_abs s0 s1 h1.le h2 ((nearly_iff _ _).1 c1)⟩
    simp only [along]; rw [hx]; simp [tol]
  · exfalso
    obtain ⟨s, s0, s1, hy⟩ := exists_along h1.le h2
    apply hn
    refine ⟨_, hsub s s0 s1, between_abs s0 s1 y1 y2 ((nearly_iff _ _).1 c2), ?_⟩
    simp only [along]; rw [hy]; simp [tol]
  · have : q.b.x - q.a.x ≠ 0 := by
      intro h; apply c2; rw [nearly_iff, show q.a.x - q.b.x = 0 by linarith]; simp [tol]
    field_simp

theorem toggleL_eq {p : Pt} {q : Piece} (hsub : ∀ s, 0 ≤ s → s ≤ 1 → OnEdge (along q.a q.b s) q.va q.vb) (hn : ¬ Close p q.va q.vb) :
    toggleL p q = crossL p q.a q.b := toggle_left (slope_ok hsub hn)

theorem toggleR_eq {p : Pt} {q : Piece} (hsub : ∀ s, 0 ≤ s → s ≤ 1 → OnEdge (along q.a q.b s) q.va q.vb) (hn : ¬ Close p q.va q.vb) :
    toggleR p q = crossR p q.a q.b := toggle_right (slope_ok hsub hn)

theorem toggleB_eq {p : Pt} {q : Piece} (hsub : ∀ s, 0 ≤ s → s ≤ 1 → OnEdge (along q.a q.b s) q.va q.vb) (hn : ¬ Close p q.va q.vb) :
    toggleB p q = crossB p q.a q.b := by
  rw [crossB_swap]
  exact toggle_left (p := p.swap) (a := q.a.swap) (b := q.b.swap) (invSlope_ok hsub hn)

theorem crossT_swap (p a b : Pt) : crossT p a b = crossR p.swap a.swap b.swap := by
  unfold crossT crossR
  rw [crossB_swap]; rfl

theorem toggleT_eq {p : Pt} {q : Piece} (hsub : ∀ s, 0 ≤ s → s ≤ 1 → OnEdge (along q.a q.b s) q.va q.vb) (hn : ¬ Close p q.va q.vb) :
    toggleT p q = crossT p q.a q.b := by
  rw [crossT_swap]
  exact toggle_right (p := p.swap) (a := q.a.swap) (b := q.b.swap) (invSlope_ok hsub hn)

/-- The meeting of an edge and a segment. -/
theorem crossS_meets {c p a b : Pt} (hy : c.y < p.y) (h : crossS c p a b = true) :
    ∃ l : ℚ, 0 ≤ l ∧ l ≤ 1 ∧ OnEdge (along c p l) a b := by
  have hyne : p.y - c.y ≠ 0 := by intro h; linarith
  unfold crossS at h
  simp only at h
  generalize hk : (p.x - c.x) / (p.y - c.y) = k at h
  have hkx : p.x - c.x = k * (p.y - c.y) := by rw [← hk]; field_simp
  have hX : ∀ l, (shear k (along c p l)).x = (shear k c).x := by
    intro l; simp only [shear, along]; rw [hkx]; ring
  have hXp : (shear k p).x = (shear k c).x := by rw [← along_one c p]; rw [hX]
  have hstr : ((shear k c).x < (shear k a).x) ≠ ((shear k c).x < (shear k b).x) := by
    intro h1
    unfold crossB at h
    rw [hXp] at h
    simp [h1] at h
  unfold crossB at h
  rw [hXp, area_shear, area_shear] at h
  have hs1 : (decide ((shear k c).x < (shear k a).x) != decide ((shear k c).x < (shear k b).x)) = true := by
    simp only [bne_iff_ne, ne_eq, decide_eq_decide]; intro h; exact hstr (propext h)
  rw [hs1, Bool.true_and, Bool.true_and] at h
  -- one of the two is on each side
  have hsgn : (area a b c ≤ 0 ∧ 0 ≤ area a b p ∧ area a b c ≠ area a b p) ∨ (area a b p ≤ 0 ∧ 0 ≤ area a b c ∧ area a b c ≠ area a b p) := by
    have hne : area a b c ≠ area a b p := by
      intro h1; rw [h1] at h; simp at h
    by_cases hlt : (shear k a).x < (shear k b).x
    · simp only [if_pos hlt] at h
      by_cases u1 : 0 < area a b c <;> by_cases u2 : 0 < area a b p <;> simp [u1, u2] at h
      · right; exact ⟨not_lt.1 u2, u1.le, hne⟩
      · left; exact ⟨not_lt.1 u1, u2.le, hne⟩
    · simp only [if_neg hlt] at h
      by_cases u1 : area a b c < 0 <;> by_cases u2 : area a b p < 0 <;> simp [u1, u2] at h
      · left; exact ⟨u1.le, not_lt.1 u2, hne⟩
      · right; exact ⟨u2.le, not_lt.1 u1, hne⟩
  have hlin : ∀ l, area a b (along c p l) = area a b c + l * (area a b p - area a b c) := by
    intro l; simp only [area, along]; ring
  have hd : area a b p - area a b c ≠ 0 := by
    rcases hsgn with ⟨_, _, h1⟩ | ⟨_, _, h1⟩ <;> intro h2 <;> apply h1 <;> linarith
  refine ⟨- area a b c / (area a b p - area a b c), ?_, ?_, ?_⟩
  · rcases hsgn with ⟨s1, s2, s3⟩ | ⟨s1, s2, s3⟩
    · exact div_nonneg (by linarith) (by linarith)
    · exact div_nonneg_of_nonpos (by linarith) (by linarith)
  · rcases hsgn with ⟨s1, s2, s3⟩ | ⟨s1, s2, s3⟩
    · exact (div_le_one (lt_of_le_of_ne (by linarith) (Ne.symm hd))).2 (by linarith)
    · exact (div_le_one_of_neg (lt_of_le_of_ne (by linarith) hd)).2 (by linarith)
  · rw [← onEdge_shear (k := k)]
    apply onEdge_of_x
    · rw [area_shear, hlin]; field_simp; ring
    · rw [hX]; exact hstr

/-- A piece beyond the point in one direction does not meet the segment. -/
theorem crossS_quick {c p : Pt} {q : Piece} (hx : c.x ≤ p.x) (hy : c.y < p.y) (hquick : ¬ (p.x ≥ min q.a.x q.b.x ∧ p.y ≥ min q.a.y q.b.y)) :
    crossS c p q.a q.b = false := by
  by_contra h
  have h := Bool.eq_true_of_not_eq_false h
  obtain ⟨l, l0, l1, s, s0, s1, e1, e2⟩ := crossS_meets hy h
  apply hquick
  simp only [along] at e1 e2
  constructor
  · have : min q.a.x q.b.x ≤ q.a.x + s * (q.b.x - q.a.x) := by
      rcases le_total q.a.x q.b.x with h2 | h2
      · rw [min_eq_left h2]; nlinarith
      · rw [min_eq_right h2]; nlinarith
    nlinarith
  · have : min q.a.y q.b.y ≤ q.a.y + s * (q.b.y - q.a.y) := by
      rcases le_total q.a.y q.b.y with h2 | h2
      · rw [min_eq_left h2]; nlinarith
      · rw [min_eq_right h2]; nlinarith
    nlinarith

/-- The test against the corner is the meeting of the piece with the segment, if neither the corner nor the point is on the piece and no end of the piece is on
the segment. -/
theorem toggleC_eq {c p : Pt} {q : Piece} (hx : c.x ≤ p.x) (hy : c.y < p.y) (hc : ¬ OnEdge c q.a q.b) (hp : ¬ OnEdge p q.a q.b)
    (ha : ¬ OnEdge q.a c p) (hb : ¬ OnEdge q.b c p) : toggleC c p q = crossS c p q.a q.b := by
  have hyne : p.y - c.y ≠ 0 := by intro h; linarith
  by_cases hquick : p.x ≥ min q.a.x q.b.x ∧ p.y ≥ min q.a.y q.b.y
  · unfold toggleC
    rw [if_pos hquick]
    obtain ⟨a, b, va, vb⟩ := q
    simp only at *
    unfold crossS
    simp only
    generalize hk : (p.x - c.x) / (p.y - c.y) = k
    have hkx : p.x - c.x = k * (p.y - c.y) := by rw [← hk]; field_simp
    have hD : 0 < p.y - c.y := by linarith
    have hXp : (shear k p).x = (shear k c).x := by simp only [shear]; linarith
    generalize hX0 : (shear k c).x = X0 at hXp
    have eα : (p.y - c.y) * (a.x - p.x) - (p.x - c.x) * (a.y - p.y) = (p.y - c.y) * ((shear k a).x - X0) := by
      rw [← hXp, hkx]; simp only [shear]; ring
    have eβ : (b.x - a.x) * (a.y - p.y) - (b.y - a.y) * (a.x - p.x) = - area a b p := by unfold area; ring
    have eD : (b.y - a.y) * (p.x - c.x) - (b.x - a.x) * (p.y - c.y) = (p.y - c.y) * ((shear k a).x - (shear k b).x) := by
      rw [hkx]; simp only [shear]; ring
    have eC : area a b c = area a b p + (p.y - c.y) * ((shear k a).x - (shear k b).x) := by
      rw [← eD]; unfold area; ring
    rw [eα, eβ, eD]
    unfold crossB
    rw [hXp, hX0, area_shear, area_shear]
    -- ends and the line of the segment
    have end_ : ∀ z : Pt, ¬ OnEdge z c p → (shear k z).x = X0 → ∀ l, l = (z.y - c.y) / (p.y - c.y) → l < 0 ∨ 1 < l := by
      intro z hz hzx l hl
      by_contra hcon
      rw [not_or, not_lt, not_lt] at hcon
      apply hz
      have hl' : l * (p.y - c.y) = z.y - c.y := by rw [hl]; field_simp
      refine ⟨l, hcon.1, hcon.2, ?_, by linarith⟩
      rw [hkx, ← mul_assoc, mul_comm l k, mul_assoc, hl']
      rw [← hX0] at hzx
      simp only [shear] at hzx
      linarith
    have sq : ∀ l : ℚ, (l < 0 ∨ 1 < l) → ∀ d : ℚ, d ≠ 0 → 0 < (l * d) * ((l - 1) * d) := by
      intro l hl d hd
      have h1 : 0 < l * (l - 1) := by rcases hl with h | h <;> nlinarith
      have h2 : 0 < d * d := mul_self_pos.2 hd
      nlinarith
    have fa : (shear k a).x ≠ (shear k b).x → (shear k a).x = X0 → 0 < area a b c * area a b p := by
      intro hne haX
      have hl := end_ a ha haX _ rfl
      have hd : (p.y - c.y) * ((shear k a).x - (shear k b).x) ≠ 0 := mul_ne_zero hyne (sub_ne_zero.2 hne)
      have h1 := sq _ hl _ hd
      have e1 : (a.y - c.y) / (p.y - c.y) * ((p.y - c.y) * ((shear k a).x - (shear k b).x)) = area a b c := by
        field_simp
        rw [← hX0] at haX
        simp only [shear, area] at haX ⊢
        have : a.x = c.x - k * c.y + k * a.y := by linarith
        rw [this]; ring
      have e2 : ((a.y - c.y) / (p.y - c.y) - 1) * ((p.y - c.y) * ((shear k a).x - (shear k b).x)) = area a b p := by
        rw [sub_mul, e1, eC]; ring
      rwa [e1, e2] at h1
    have fb : (shear k a).x ≠ (shear k b).x → (shear k b).x = X0 → 0 < area a b c * area a b p := by
      intro hne haX
      have hl := end_ b hb haX _ rfl
      have hd : (p.y - c.y) * ((shear k a).x - (shear k b).x) ≠ 0 := mul_ne_zero hyne (sub_ne_zero.2 hne)
      have h1 := sq _ hl _ hd
      have e1 : (b.y - c.y) / (p.y - c.y) * ((p.y - c.y) * ((shear k a).x - (shear k b).x)) = area a b c := by
        field_simp
        rw [← hX0] at haX
        simp only [shear, area] at haX ⊢
        have : b.x = c.x - k * c.y + k * b.y := by linarith
        rw [this]; ring
      have e2 : ((b.y - c.y) / (p.y - c.y) - 1) * ((p.y - c.y) * ((shear k a).x - (shear k b).x)) = area a b p := by
        rw [sub_mul, e1, eC]; ring
      rwa [e1, e2] at h1
    have fc : (X0 < (shear k a).x) ≠ (X0 < (shear k b).x) → area a b c ≠ 0 := by
      intro h h0
      apply hc
      rw [← onEdge_shear (k := k)]
      apply onEdge_of_x
      · rw [area_shear]; exact h0
      · rw [hX0]; exact h
    have fp : (X0 < (shear k a).x) ≠ (X0 < (shear k b).x) → area a b p ≠ 0 := by
      intro h h0
      apply hp
      rw [← onEdge_shear (k := k)]
      apply onEdge_of_x
      · rw [area_shear]; exact h0
      · rw [hXp]; exact h
    generalize (shear k a).x = A at *
    generalize (shear k b).x = B at *
    generalize area a b c = U at *
    generalize area a b p = V at *
    generalize p.y - c.y = D at *
    have hxor : ∀ u v : Bool, (xor u v = true) ↔ ¬ (u = true ↔ v = true) := by decide
    rcases lt_trichotomy A B with hAB | hAB | hAB
    · have hneg : D * (A - B) < 0 := by nlinarith
      rw [if_neg (not_lt.2 hneg.le), if_pos hneg]
      have g1 : D * (A - X0) > 0 ↔ X0 < A := ⟨fun h => by by_contra h2; nlinarith, fun h => by nlinarith⟩
      have g2 : D * (A - X0) ≤ D * (A - B) ↔ B ≤ X0 := ⟨fun h => by by_contra h2; nlinarith, fun h => by nlinarith⟩
      simp only [g1, g2, if_pos hAB]
      rw [Bool.eq_iff_iff, hxor]
      simp only [Bool.and_eq_true, Bool.not_eq_true', decide_eq_false_iff_not, not_or, not_lt, not_le, bne_iff_ne, ne_eq,
        decide_eq_decide, Bool.and_eq_true, decide_eq_true_eq]
      constructor
      · rintro ⟨⟨q1, q2⟩, q3, q4⟩
        have qlt : A < X0 := lt_of_le_of_ne q1 (fun h => by have := fa hAB.ne h; nlinarith)
        have hst : (X0 < A) ≠ (X0 < B) := by intro h; rw [← h] at q2; linarith
        have hV := fp hst
        have hV' : 0 < V := lt_of_le_of_ne (by linarith) (Ne.symm hV)
        intro h
        have h1 := h.2 ⟨fun h => hst (propext h), hV'⟩
        linarith [h1.2]
      · intro h
        by_cases hst : (X0 < A) = (X0 < B)
        · exfalso; apply h; simp [hst]
        · have hst' : ¬ (X0 < A ↔ X0 < B) := fun h => hst (propext h)
          simp only [hst', not_false_eq_true, true_and] at h
          have hU := fc hst
          have hV := fp hst
          have hle : A ≤ X0 := by
            by_contra h1; apply hst'; exact ⟨fun _ => by linarith, fun _ => by linarith⟩
          have hlt : X0 < B := by
            by_contra h1; apply hst'; exact ⟨fun _ => by linarith, fun h2 => absurd h2 h1⟩
          by_cases hV0 : 0 < V
          · have hU0 : ¬ 0 < U := fun h1 => h ⟨fun _ => hV0, fun _ => h1⟩
            have : U < 0 := lt_of_le_of_ne (not_lt.1 hU0) hU
            exact ⟨⟨hle, hlt⟩, by linarith, by linarith⟩
          · exfalso
            have hU0 : 0 < U := by
              by_contra h1; exact h ⟨fun h2 => absurd h2 h1, fun h2 => absurd h2 hV0⟩
            have : V < 0 := lt_of_le_of_ne (not_lt.1 hV0) hV
            linarith
    · subst hAB
      simp
    · have hpos : 0 < D * (A - B) := by nlinarith
      rw [if_pos hpos]
      have g1 : D * (A - X0) < 0 ↔ A < X0 := ⟨fun h => by by_contra h2; nlinarith, fun h => by nlinarith⟩
      have g2 : D * (A - X0) ≥ D * (A - B) ↔ X0 ≤ B := ⟨fun h => by by_contra h2; nlinarith, fun h => by nlinarith⟩
      simp only [g1, g2, if_neg (not_lt.2 hAB.le)]
      rw [Bool.eq_iff_iff, hxor]
      simp only [Bool.and_eq_true, Bool.not_eq_true', decide_eq_false_iff_not, not_or, not_lt, not_le, bne_iff_ne, ne_eq,
        decide_eq_decide, Bool.and_eq_true, decide_eq_true_eq, ge_iff_le]
      constructor
      · rintro ⟨⟨q1, q2⟩, q3, q4⟩
        have qlt : X0 < A := lt_of_le_of_ne q1 (fun h => by have := fa hAB.ne' h.symm; nlinarith)
        have hst : (X0 < A) ≠ (X0 < B) := by intro h; rw [h] at qlt; linarith
        have hV := fp hst
        have hV' : V < 0 := lt_of_le_of_ne (by linarith) hV
        intro h
        have h1 := h.2 ⟨fun h => hst (propext h), hV'⟩
        linarith [h1.2]
      · intro h
        by_cases hst : (X0 < A) = (X0 < B)
        · exfalso; apply h; simp [hst]
        · have hst' : ¬ (X0 < A ↔ X0 < B) := fun h => hst (propext h)
          simp only [hst', not_false_eq_true, true_and] at h
          have hU := fc hst
          have hV := fp hst
          have hle : B ≤ X0 := by
            by_contra h1; apply hst'; exact ⟨fun _ => by linarith, fun _ => by linarith⟩
          have hlt : X0 < A := by
            by_contra h1; apply hst'; exact ⟨fun h2 => absurd h2 h1, fun h2 => by linarith⟩
          by_cases hV0 : V < 0
          · have hU0 : ¬ U < 0 := fun h1 => h ⟨fun _ => hV0, fun _ => h1⟩
            have hU1 : 0 < U := lt_of_le_of_ne (not_lt.1 hU0) (Ne.symm hU)
            have hlt' : B < X0 := lt_of_le_of_ne hle (fun h => by have := fb hAB.ne' h; nlinarith)
            exact ⟨⟨hlt.le, hlt'⟩, by linarith, by linarith⟩
          · exfalso
            have hU0 : U < 0 := by
              by_contra h1; exact h ⟨fun h2 => absurd h2 h1, fun h2 => absurd h2 hV0⟩
            have : 0 < V := lt_of_le_of_ne (not_lt.1 hV0) (Ne.symm hV)
            linarith
  · unfold toggleC
    rw [if_neg hquick, crossS_quick hx hy hquick]

end Verif.Grid
