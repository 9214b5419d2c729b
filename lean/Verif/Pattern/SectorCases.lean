import Mathlib.Analysis.Real.Pi.Bounds
import Verif.Pattern.SectorSeen

/-!
# Sector searches: what is not seen (C141), and examples
-/

namespace Verif.Pattern

open Verif.Search

/-- **C141**, the full claim is false: where the lanes do not fit half a turn, a wedge at the rim can stay unseen.  A disc
of 1000 m, a footprint 335.6 m wide (10.4 lanes to half a turn): a point at the rim is 209 m from all legs. -/
theorem C141_wedge_violated :
    ∃ (rounds : ℕ) (legs : List Line) (z : Pos),
      sector rounds ⟨0, 0⟩ 1000 (1000 * (5 * Real.pi / 52)) 100 20 = some legs ∧ legs ≠ [] ∧
      (z.n - 0) ^ 2 + (z.e - 0) ^ 2 ≤ 1000 ^ 2 ∧
      ∀ l ∈ legs, ¬ Swept 100 20 (1000 * (5 * Real.pi / 52) / 0.9 / 2) (course l.heading) l.start l.stop z := by
  have hpi := Real.pi_pos
  have hp3 := Real.pi_gt_three
  have hp4 := Real.pi_lt_d2
  have hs : 0 < 1000 * (5 * Real.pi / 52) := by positivity
  obtain ⟨rounds, legs, h⟩ := (C141_ends (c := ⟨0, 0⟩) (E := 1000) (lead := 100) (trail := 20) hs).1 (by norm_num)
  have hδ : 1000 * (5 * Real.pi / 52) / 1000 = 5 * Real.pi / 52 := by ring
  refine ⟨rounds, legs, ⟨1000 * Real.sin ((97 / 10) * (5 * Real.pi / 52)), 1000 * Real.cos ((97 / 10) * (5 * Real.pi / 52))⟩, h, ?_, ?_, ?_⟩
  · have := sector_nonempty (by norm_num) (by linarith) h
    rintro rfl
    simp at this
  · have := Real.sin_sq_add_cos_sq ((97 / 10) * (5 * Real.pi / 52))
    simp only [sub_zero]
    nlinarith
  · intro l hl
    obtain ⟨i, hi, rfl⟩ := List.getElem_of_mem hl
    obtain ⟨h1, -⟩ := sector_inv (by norm_num) h
    obtain ⟨e, hlt⟩ := h1 i hi
    obtain ⟨-, -, r3, r4, r5, r6⟩ := sectorLeg_spec (c := ⟨0, 0⟩) (E := 1000) (lead := 100) (trail := 20)
      (θ := i * (1000 * (5 * Real.pi / 52) / 1000)) (up := upAt true i) (by norm_num)
    rw [← e, sign_upAt] at r3 r4
    rw [← e] at r5 r6
    rw [r5, r6]
    rintro ⟨t, t0, t1, -, -, h3⟩
    rw [between_ahead, across_ahead] at h3
    have ea : across (course legs[i].heading) ⟨0, 0⟩
        ⟨1000 * Real.sin ((97 / 10) * (5 * Real.pi / 52)), 1000 * Real.cos ((97 / 10) * (5 * Real.pi / 52))⟩ =
        (-1) ^ i * (1000 * Real.sin (i * (5 * Real.pi / 52) - (97 / 10) * (5 * Real.pi / 52))) := by
      simp only [across]; rw [r3, r4, hδ, Real.sin_sub]; ring
    rw [ea, abs_mul, abs_pow, abs_neg, abs_one, one_pow, one_mul, abs_mul, abs_of_pos (by norm_num : (0 : ℝ) < 1000)] at h3
    rw [hδ] at hlt
    have hi9 : i ≤ 9 := by
      by_contra hc
      have : (10 : ℝ) ≤ i := by exact_mod_cast not_le.1 hc
      have := mul_le_mul_of_nonneg_right this (show 0 ≤ 5 * Real.pi / 52 by positivity)
      linarith
    have hi9' : (i : ℝ) ≤ 9 := by exact_mod_cast hi9
    have hi0 : (0 : ℝ) ≤ i := Nat.cast_nonneg i
    have x1 : 7 / 10 * (5 * Real.pi / 52) ≤ ((97 / 10) - i) * (5 * Real.pi / 52) :=
      mul_le_mul_of_nonneg_right (by linarith) (by positivity)
    have x2 : ((97 / 10) - i) * (5 * Real.pi / 52) ≤ (97 / 10) * (5 * Real.pi / 52) :=
      mul_le_mul_of_nonneg_right (by linarith) (by positivity)
    have hsin : Real.sin (7 / 10 * (5 * Real.pi / 52)) ≤ Real.sin (((97 / 10) - i) * (5 * Real.pi / 52)) := by
      rcases le_total (((97 / 10) - i) * (5 * Real.pi / 52)) (Real.pi / 2) with hc | hc
      · exact Real.sin_le_sin_of_le_of_le_pi_div_two (by linarith) hc x1
      · rw [← Real.sin_pi_sub (((97 / 10) - i) * (5 * Real.pi / 52))]
        exact Real.sin_le_sin_of_le_of_le_pi_div_two (by linarith) (by linarith) (by linarith)
    have hb := Real.sin_gt_sub_cube (x := 7 / 10 * (5 * Real.pi / 52)) (by positivity)
    have hcube : (7 / 10 * (5 * Real.pi / 52)) ^ 3 ≤ 0.022 := by
      have h22 : 7 / 10 * (5 * Real.pi / 52) ≤ 0.22 := by linarith
      have := pow_le_pow_left₀ (by positivity) h22 3
      norm_num at this ⊢
      linarith
    have habs : Real.sin (((97 / 10) - i) * (5 * Real.pi / 52)) ≤ |Real.sin (i * (5 * Real.pi / 52) - (97 / 10) * (5 * Real.pi / 52))| := by
      rw [show (i : ℝ) * (5 * Real.pi / 52) - (97 / 10) * (5 * Real.pi / 52) = -(((97 / 10) - i) * (5 * Real.pi / 52)) by ring,
        Real.sin_neg, abs_neg]
      exact le_abs_self _
    have e9 : 1000 * (5 * Real.pi / 52) / 0.9 / 2 = 1000 * (5 * Real.pi / 52) * 5 / 9 := by ring
    rw [e9] at h3
    linarith

/-- **C141**, the full claim is false: a sensor that sees the whole disc at once is given nothing to do.  A disc of 100 m and a footprint 700 m wide. -/
theorem C141_large_violated :
    ∃ r, onSector 1 ⟨0, 0⟩ 100 700 700 1000 20 = some r ∧ r.request = none ∧ r.start = none ∧ r.stop = none := by
  have hp := Real.pi_lt_d2
  have h : sector 1 ⟨0, 0⟩ 100 (700 * 0.9) 1000 20 = some [] := by
    rw [sector, if_neg (by norm_num), sectorFrom, if_neg]
    linarith
  refine ⟨_, by rw [onSector, if_pos (by norm_num), h]; rfl, ?_⟩
  simp [lineRoutes]

/-- A disc of 1000 m with a footprint such that 16 lanes fill half a turn (218 m): requested and seen, to the rim. -/
example : ∃ rounds r rs, onSector rounds ⟨5, -9⟩ 1000 700 (1000 * Real.pi / 16 / 0.9) 100 20 = some r ∧ r.request = some rs ∧
    ∃ q ∈ rs, RouteSees 100 20 (1000 * Real.pi / 16 / 0.9 / 2) q ⟨605, 791⟩ := by
  have hpi := Real.pi_pos
  have hp3 := Real.pi_gt_three
  have e : 0.9 * (1000 * Real.pi / 16 / 0.9) = 1000 * Real.pi / 16 := by ring
  obtain ⟨rounds, legs, h⟩ := (C141_ends (c := ⟨5, -9⟩) (E := 1000) (s := 1000 * Real.pi / 16) (lead := 100)
    (trail := 20) (by positivity)).1 (by norm_num)
  have h' : ∃ r, onSector rounds ⟨5, -9⟩ 1000 700 (1000 * Real.pi / 16 / 0.9) 100 20 = some r := by
    unfold onSector
    rw [mul_comm, e, if_pos (by linarith), h]
    exact ⟨_, rfl⟩
  obtain ⟨r, hr⟩ := h'
  obtain ⟨rs, hq⟩ := Option.ne_none_iff_exists'.1 ((C141_sent (by norm_num) hr).2 (by rw [e]; constructor <;> linarith))
  refine ⟨rounds, r, rs, hr, hq, ?_⟩
  exact (C141_seen_partial (by norm_num) (by norm_num) hr hq (by norm_num)).2
    ⟨16, by rw [e]; push_cast; linarith, by rw [e]; push_cast; linarith⟩

end Verif.Pattern
