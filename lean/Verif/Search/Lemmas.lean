import Mathlib.Tactic.Linarith
import Mathlib.Tactic.FieldSimp
import Mathlib.Tactic.Ring
import Verif.Search.Spec

/-!
# Turning frames, edges of a ring, where a lane meets an edge
-/

namespace Verif.Search

/-! ### Turning -/

theorem turnIn_turnOut (c : Pos) (h : ℝ) (p : Pos) : turnIn c h (turnOut c h p) = p := by
  have hs := Real.sin_sq_add_cos_sq h
  ext
  · simp only [turnIn, turnOut]; linear_combination p.n * hs
  · simp only [turnIn, turnOut]; linear_combination p.e * hs

theorem turnOut_turnIn (c : Pos) (h : ℝ) (p : Pos) : turnOut c h (turnIn c h p) = p := by
  have hs := Real.sin_sq_add_cos_sq h
  ext
  · simp only [turnIn, turnOut]; linear_combination (p.n - c.n) * hs
  · simp only [turnIn, turnOut]; linear_combination (p.e - c.e) * hs

theorem along_turn (c : Pos) (h : ℝ) (v p : Pos) :
    along h (turnOut c h v) p = (turnIn c h p).n - v.n := by
  have hs := Real.sin_sq_add_cos_sq h
  simp only [along, turnIn, turnOut]; linear_combination (-v.n) * hs

theorem across_turn (c : Pos) (h : ℝ) (v p : Pos) :
    across h (turnOut c h v) p = (turnIn c h p).e - v.e := by
  have hs := Real.sin_sq_add_cos_sq h
  simp only [across, turnIn, turnOut]; linear_combination (-v.e) * hs

theorem along_back (h : ℝ) (v p : Pos) : along (h + Real.pi) v p = -along h v p := by
  simp only [along, Real.cos_add_pi, Real.sin_add_pi]; ring

theorem across_back (h : ℝ) (v p : Pos) : across (h + Real.pi) v p = -across h v p := by
  simp only [across, Real.cos_add_pi, Real.sin_add_pi]; ring

theorem between_turn (c : Pos) (h : ℝ) (a b : Pos) (t : ℝ) :
    between (turnOut c h a) (turnOut c h b) t = turnOut c h (between a b t) := by
  ext <;> simp only [between, turnOut] <;> ring

/-! ### Edges of a ring -/

theorem mem_path {u v : Pos} : ∀ {a : Pos} {ps : List Pos}, (u, v) ∈ path a ps →
    ∃ i, ∃ hi : i < ps.length, u = (a :: ps)[i]'(by simp; omega) ∧ v = ps[i]
  | a, [], h => by simp [path] at h
  | a, b :: ps, h => by
      simp only [path, List.mem_cons, Prod.mk.injEq] at h
      rcases h with ⟨h1, h2⟩ | h
      · exact ⟨0, by simp, by simpa using h1, by simpa using h2⟩
      · obtain ⟨i, hi, h1, h2⟩ := mem_path h
        exact ⟨i + 1, by simpa using hi, by simpa using h1, by simpa using h2⟩

theorem mem_ring {u v : Pos} {vs : List Pos} (h : (u, v) ∈ ring vs) :
    ∃ i, ∃ hi : i < vs.length, u = vs[i] ∧
      v = vs[(i + 1) % vs.length]'(Nat.mod_lt _ (by omega)) := by
  match vs, h with
  | [], h => simp [ring] at h
  | a :: vs, h =>
      obtain ⟨i, hi, h1, h2⟩ := mem_path h
      simp only [List.length_append, List.length_cons, List.length_nil] at hi
      refine ⟨i, by simpa using hi, ?_, ?_⟩
      · rw [h1]
        have : a :: (vs ++ [a]) = (a :: vs) ++ [a] := rfl
        simp only [this]
        rw [List.getElem_append_left]
      · rw [h2]
        by_cases hl : i < vs.length
        · rw [List.getElem_append_left hl]
          have : (i + 1) % (a :: vs).length = i + 1 := Nat.mod_eq_of_lt (by simp; omega)
          simp only [this, List.getElem_cons_succ]
        · have hil : i = vs.length := by omega
          subst hil
          have : (vs.length + 1) % (a :: vs).length = 0 := by simp
          simp only [this]
          simp

theorem ring_mem {vs : List Pos} {g : Pos × Pos} (h : g ∈ ring vs) : g.1 ∈ vs ∧ g.2 ∈ vs := by
  obtain ⟨i, hi, h1, h2⟩ := mem_ring (u := g.1) (v := g.2) h
  exact ⟨h1 ▸ List.getElem_mem _, h2 ▸ List.getElem_mem _⟩

theorem inside_edge {σ : ℝ} {vs : List Pos} {p : Pos} (h : Inside σ vs p) {u v : Pos}
    (hg : (u, v) ∈ ring vs) : 0 ≤ σ * lineAt u v p := by
  obtain ⟨i, hi, h1, h2⟩ := mem_ring hg
  have := h i hi
  simp only [← h1, ← h2] at this
  have e : lineAt u v p = (v.n - u.n) * (p.e - u.e) - (v.e - u.e) * (p.n - u.n) := by
    simp only [lineAt]; ring
  rw [e]; exact this

/-! ### A lane and an edge -/

/-- The height at which the line through `u` and `v` meets the lane at `x`. -/
noncomputable def cut (u v : Pos) (x : ℝ) : ℝ := u.n + (x - u.e) * (v.n - u.n) / (v.e - u.e)

/-- The number reported in place of `t` by the rounding left over in
`bFindIntersection`: half a metre further from zero. -/
def Off (t r : ℝ) : Prop := |r - t| = 1 / 2 ∧ |r| = |t| + 1 / 2

theorem off_near {t r : ℝ} (h : Off t r) : t - 1 / 2 ≤ r ∧ r ≤ t + 1 / 2 := by
  have := abs_le.1 (le_of_eq h.1); constructor <;> linarith [this.1, this.2]

/-- The quotient with the left over rounding. -/
theorem off_div {num den : ℝ} (hd : den ≠ 0) :
    Off (num / den) ((if num < 0 then num - (if den < 0 then -den / 2 else den / 2)
      else num + (if den < 0 then -den / 2 else den / 2)) / den) := by
  have key : ∀ t : ℝ, (0 ≤ t → Off t (t + 1 / 2)) ∧ (t ≤ 0 → Off t (t - 1 / 2)) := by
    intro t
    refine ⟨fun h => ⟨?_, ?_⟩, fun h => ⟨?_, ?_⟩⟩
    · rw [show t + 1 / 2 - t = 1 / 2 by ring]; norm_num
    · rw [abs_of_nonneg h, abs_of_nonneg (by linarith)]
    · rw [show t - 1 / 2 - t = -(1 / 2) by ring]; norm_num
    · rw [abs_of_nonpos h, abs_of_nonpos (by linarith)]; ring
  by_cases hn : num < 0 <;> by_cases hd' : den < 0
  · rw [if_pos hn, if_pos hd', show (num - -den / 2) / den = num / den + 1 / 2 by field_simp; ring]
    exact (key _).1 (div_nonneg_of_nonpos hn.le hd'.le)
  · have hd'' : 0 < den := lt_of_le_of_ne (not_lt.1 hd') (Ne.symm hd)
    rw [if_pos hn, if_neg hd', show (num - den / 2) / den = num / den - 1 / 2 by field_simp]
    exact (key _).2 (div_nonpos_of_nonpos_of_nonneg hn.le hd''.le)
  · rw [if_neg hn, if_pos hd', show (num + -den / 2) / den = num / den - 1 / 2 by field_simp; ring]
    exact (key _).2 (div_nonpos_of_nonneg_of_nonpos (not_lt.1 hn) hd'.le)
  · have hd'' : 0 < den := lt_of_le_of_ne (not_lt.1 hd') (Ne.symm hd)
    rw [if_neg hn, if_neg hd', show (num + den / 2) / den = num / den + 1 / 2 by field_simp]
    exact (key _).1 (div_nonneg (not_lt.1 hn) hd''.le)

/-- On the lane at `x`, the position with respect to an edge is told by the height of
the cut. -/
theorem lineAt_lane {u v : Pos} {x n : ℝ} (h : u.e ≠ v.e) :
    lineAt u v ⟨n, x⟩ = (u.e - v.e) * (n - cut u v x) := by
  have : v.e - u.e ≠ 0 := sub_ne_zero.2 (Ne.symm h)
  simp only [lineAt, cut]; field_simp; ring

theorem lineAt_of_lane {c d u : Pos} {x : ℝ} (hc : c.e = x) (hd : d.e = x) :
    lineAt c d u = (d.n - c.n) * (u.e - x) := by
  simp only [lineAt, hc, hd]; ring

/-- The cut of an edge whose ends are on the two sides lies between the heights of its
ends. -/
theorem cut_between {u v : Pos} {x lo hi : ℝ} (h : (u.e ≤ x ∧ x ≤ v.e) ∨ (v.e ≤ x ∧ x ≤ u.e))
    (hne : u.e ≠ v.e) (hu : lo ≤ u.n ∧ u.n ≤ hi) (hv : lo ≤ v.n ∧ v.n ≤ hi) :
    lo ≤ cut u v x ∧ cut u v x ≤ hi := by
  have hd : v.e - u.e ≠ 0 := sub_ne_zero.2 (Ne.symm hne)
  set t := (x - u.e) / (v.e - u.e) with ht
  have h01 : 0 ≤ t ∧ t ≤ 1 := by
    rcases h with ⟨h1, h2⟩ | ⟨h1, h2⟩
    · have hp : 0 < v.e - u.e := lt_of_le_of_ne (by linarith) (Ne.symm hd)
      exact ⟨div_nonneg (by linarith) hp.le, (div_le_one hp).2 (by linarith)⟩
    · have hp : v.e - u.e < 0 := lt_of_le_of_ne (by linarith) hd
      exact ⟨div_nonneg_of_nonpos (by linarith) hp.le, (div_le_one_of_neg hp).2 (by linarith)⟩
  have e : cut u v x = u.n + t * (v.n - u.n) := by
    simp only [cut, ht]; field_simp
  have f : cut u v x = (1 - t) * u.n + t * v.n := by rw [e]; ring
  have h1 := mul_le_mul_of_nonneg_left hu.1 (sub_nonneg.2 h01.2)
  have h2 := mul_le_mul_of_nonneg_left hu.2 (sub_nonneg.2 h01.2)
  have h3 := mul_le_mul_of_nonneg_left hv.1 h01.1
  have h4 := mul_le_mul_of_nonneg_left hv.2 h01.1
  rw [f]; constructor <;> nlinarith

/-- An edge with both ends strictly on one side of the lane is not reported. -/
theorem crossing_none {u v c d : Pos} {x : ℝ} (hc : c.e = x) (hd : d.e = x) (hcd : c.n < d.n)
    (h : (u.e < x ∧ v.e < x) ∨ (x < u.e ∧ x < v.e)) : crossing u v c d = none := by
  have hs : SameSigns (lineAt c d u) (lineAt c d v) := by
    rw [lineAt_of_lane hc hd, lineAt_of_lane hc hd]
    have hl : 0 < d.n - c.n := by linarith
    rcases h with ⟨h1, h2⟩ | ⟨h1, h2⟩
    · exact .inr ⟨mul_neg_of_pos_of_neg hl (by linarith), mul_neg_of_pos_of_neg hl (by linarith)⟩
    · exact .inl ⟨mul_pos hl (by linarith), mul_pos hl (by linarith)⟩
  unfold crossing
  by_cases h3 : SameSigns (lineAt u v c) (lineAt u v d)
  · rw [if_pos h3]
  · rw [if_neg h3, if_pos hs]

/-- An edge with its ends not strictly on one side of the lane, and within its reach,
is reported where the lane cuts it, up to the half metre. -/
theorem crossing_some {u v c d : Pos} {x : ℝ} (hc : c.e = x) (hd : d.e = x)
    (hu : c.n < u.n ∧ u.n < d.n) (hv : c.n < v.n ∧ v.n < d.n)
    (h : (u.e ≤ x ∧ x ≤ v.e) ∨ (v.e ≤ x ∧ x ≤ u.e)) (hne : u.e ≠ v.e) :
    ∃ p, crossing u v c d = some p ∧ Off x p.e ∧ Off (cut u v x) p.n := by
  have hcd : c.n < d.n := by linarith [hu.1, hu.2]
  have hl : 0 < d.n - c.n := by linarith
  have hev : v.e - u.e ≠ 0 := sub_ne_zero.2 (Ne.symm hne)
  obtain ⟨ec, en⟩ := c
  obtain ⟨dc, dn⟩ := d
  simp only at hc hd hu hv hcd hl
  subst hc hd
  have hin : ec < cut u v dn ∧ cut u v dn < dc := by
    have := cut_between h hne (lo := min u.n v.n) (hi := max u.n v.n)
      ⟨min_le_left _ _, le_max_left _ _⟩ ⟨min_le_right _ _, le_max_right _ _⟩
    exact ⟨lt_of_lt_of_le (lt_min hu.1 hv.1) this.1, lt_of_le_of_lt this.2 (max_lt hu.2 hv.2)⟩
  have n1 : ¬ SameSigns (lineAt u v ⟨ec, dn⟩) (lineAt u v ⟨dc, dn⟩) := by
    rw [lineAt_lane hne, lineAt_lane hne]
    rintro (⟨h1, h2⟩ | ⟨h1, h2⟩)
    · rcases lt_or_gt_of_ne (sub_ne_zero.2 hne) with hb | hb
      · exact absurd (mul_neg_of_neg_of_pos hb (by linarith : (0:ℝ) < dc - cut u v dn))
          (not_lt.2 h2.le)
      · exact absurd (mul_neg_of_pos_of_neg hb (by linarith : ec - cut u v dn < 0))
          (not_lt.2 h1.le)
    · rcases lt_or_gt_of_ne (sub_ne_zero.2 hne) with hb | hb
      · exact absurd (mul_pos_of_neg_of_neg hb (by linarith : ec - cut u v dn < 0))
          (not_lt.2 h1.le)
      · exact absurd (mul_pos hb (by linarith : (0:ℝ) < dc - cut u v dn)) (not_lt.2 h2.le)
  have n2 : ¬ SameSigns (lineAt ⟨ec, dn⟩ ⟨dc, dn⟩ u) (lineAt ⟨ec, dn⟩ ⟨dc, dn⟩ v) := by
    rw [lineAt_of_lane (x := dn) rfl rfl, lineAt_of_lane (x := dn) rfl rfl]
    rintro (⟨h1, h2⟩ | ⟨h1, h2⟩)
    · have := (pos_iff_pos_of_mul_pos h1).1 hl
      have := (pos_iff_pos_of_mul_pos h2).1 hl
      rcases h with h | h <;> linarith [h.1, h.2]
    · have : u.e - dn < 0 := by by_contra hh; exact absurd (mul_nonneg hl.le (not_lt.1 hh)) (not_le.2 h1)
      have : v.e - dn < 0 := by by_contra hh; exact absurd (mul_nonneg hl.le (not_lt.1 hh)) (not_le.2 h2)
      rcases h with h | h <;> linarith [h.1, h.2]
  have hden : (v.n - u.n) * (dn - dn) - (dc - ec) * (u.e - v.e) ≠ 0 := by
    have : (v.n - u.n) * (dn - dn) - (dc - ec) * (u.e - v.e) = (dc - ec) * (v.e - u.e) := by ring
    rw [this]; exact mul_ne_zero hl.ne' hev
  have hX : ((u.e - v.e) * (dn * ec - dn * dc) - (dn - dn) * (v.e * u.n - u.e * v.n)) /
      ((v.n - u.n) * (dn - dn) - (dc - ec) * (u.e - v.e)) = dn := by
    rw [div_eq_iff hden]; ring
  have hY : ((dc - ec) * (v.e * u.n - u.e * v.n) - (v.n - u.n) * (dn * ec - dn * dc)) /
      ((v.n - u.n) * (dn - dn) - (dc - ec) * (u.e - v.e)) = cut u v dn := by
    rw [div_eq_iff hden]
    simp only [cut]; field_simp; ring
  have oX := off_div (num := (u.e - v.e) * (dn * ec - dn * dc) - (dn - dn) * (v.e * u.n - u.e * v.n))
    hden
  have oY := off_div (num := (dc - ec) * (v.e * u.n - u.e * v.n) - (v.n - u.n) * (dn * ec - dn * dc))
    hden
  rw [hX] at oX
  rw [hY] at oY
  refine ⟨⟨_, _⟩, ?_, oX, oY⟩
  unfold crossing
  rw [if_neg n1, if_neg n2, if_neg hden]

/-- Whatever is reported for a lane is on it, up to the half metre. -/
theorem crossing_off {u v c d p : Pos} {x : ℝ} (hc : c.e = x) (hd : d.e = x)
    (h : crossing u v c d = some p) : Off x p.e ∧ Off (cut u v x) p.n := by
  obtain ⟨cn, ce⟩ := c
  obtain ⟨dn, de⟩ := d
  simp only at hc hd
  subst hd
  subst hc
  unfold crossing at h
  by_cases h1 : SameSigns (lineAt u v ⟨cn, ce⟩) (lineAt u v ⟨dn, ce⟩)
  · rw [if_pos h1] at h; cases h
  by_cases h2 : SameSigns (lineAt ⟨cn, ce⟩ ⟨dn, ce⟩ u) (lineAt ⟨cn, ce⟩ ⟨dn, ce⟩ v)
  · rw [if_neg h1, if_pos h2] at h; cases h
  by_cases hden : (v.n - u.n) * (ce - ce) - (dn - cn) * (u.e - v.e) = 0
  · rw [if_neg h1, if_neg h2, if_pos hden] at h; cases h
  rw [if_neg h1, if_neg h2, if_neg hden] at h
  have hp := Option.some.inj h
  have hX : ((u.e - v.e) * (ce * cn - ce * dn) - (ce - ce) * (v.e * u.n - u.e * v.n)) /
      ((v.n - u.n) * (ce - ce) - (dn - cn) * (u.e - v.e)) = ce := by
    rw [div_eq_iff hden]; ring
  have hev : v.e - u.e ≠ 0 := by
    intro hh
    exact hden (by rw [show u.e - v.e = -(v.e - u.e) by ring, hh]; ring)
  have hY : ((dn - cn) * (v.e * u.n - u.e * v.n) - (v.n - u.n) * (ce * cn - ce * dn)) /
      ((v.n - u.n) * (ce - ce) - (dn - cn) * (u.e - v.e)) = cut u v ce := by
    rw [div_eq_iff hden]
    simp only [cut]; field_simp; ring
  have oX := off_div (num := (u.e - v.e) * (ce * cn - ce * dn) - (ce - ce) * (v.e * u.n - u.e * v.n))
    hden
  have oY := off_div (num := (dn - cn) * (v.e * u.n - u.e * v.n) - (v.n - u.n) * (ce * cn - ce * dn))
    hden
  rw [hX] at oX
  rw [hY] at oY
  rw [← hp]
  exact ⟨oX, oY⟩

/-- Every point reported for a lane is within half a metre of it. -/
theorem hits_lane {vs : List Pos} {south north x : ℝ} {p : Pos}
    (h : p ∈ hits vs ⟨south, x⟩ ⟨north, x⟩) : |p.e - x| ≤ 1 / 2 := by
  obtain ⟨g, -, hg⟩ := List.mem_filterMap.1 h
  exact le_of_eq (crossing_off (c := ⟨south, x⟩) (d := ⟨north, x⟩) (x := x) rfl rfl hg).1.1

end Verif.Search
