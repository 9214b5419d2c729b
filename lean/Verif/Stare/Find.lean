import Mathlib.Analysis.Convex.Segment
import Verif.Stare.Props

/-!
# The point of the road for a waypoint and a position (C161)
-/

namespace Verif.Stare

open Complex
open Verif.Escort (along)

variable {β : Type*}

theorem put_last {k : ℤ} {v : β} : ∀ {m : List (ℤ × β)}, (∀ x ∈ m, x.1 < k) → put k v m = m ++ [(k, v)]
  | [], _ => rfl
  | (j, w) :: m, h => by
      have := h (j, w) List.mem_cons_self
      simp only at this
      unfold put
      rw [if_neg this.not_gt, if_neg this.ne', put_last fun x hx => h x (List.mem_cons_of_mem _ hx), List.cons_append]

theorem build_sorted {l : List (ℤ × β)} (h : Sorted l) : build l = l := by
  induction l using List.reverseRecOn with
  | nil => rfl
  | append_singleton l x ih =>
      obtain ⟨h1, -, h3⟩ := List.pairwise_append.1 h
      rw [build_append, ih h1, put_last fun y hy => h3 y hy x (List.mem_singleton.2 rfl)]

theorem lowerBound_get {l : List (ℤ × β)} (h : Sorted l) : ∀ (k : ℕ) (hk : k < l.length) (prev : Option (ℤ × β)),
    lowerBound (l[k].1) prev l = some (if _ : k = 0 then prev else some (l[k - 1]'(by omega)), l[k]) := by
  induction l with
  | nil => intro k hk; simp at hk
  | cons x l ih =>
      obtain ⟨h1, h2⟩ := List.pairwise_cons.1 h
      intro k hk prev
      cases k with
      | zero => simp [lowerBound]
      | succ k =>
          have hk' : k < l.length := by simpa using hk
          have hlt : x.1 < (l[k]).1 := h1 _ (List.getElem_mem hk')
          simp only [List.getElem_cons_succ]
          unfold lowerBound
          rw [if_neg (not_le.2 hlt), ih h2 k hk']
          cases k with
          | zero => simp
          | succ k => simp

/-- The entries of the waypoints from which the map is filled. -/
theorem wps_entries (wps : List (ℤ × ℂ)) (i : ℕ) (h : i < wps.length) :
    ((wps.zip (dists (wps.map (·.2)))).map fun x => (x.1.1, x.1.2, x.2))[i]'(by simp [dists_length, h]) =
    (wps[i].1, wps[i].2, len ((wps.map (·.2)).take (i + 1))) := by
  simp only [List.getElem_map, List.getElem_zip]
  rw [dists_get]

theorem wps_sorted {wps : List (ℤ × ℂ)} (hids : wps.Pairwise fun x y => x.1 < y.1) (d : List ℝ) :
    Sorted ((wps.zip d).map fun x => (x.1.1, x.1.2, x.2)) := by
  unfold Sorted
  rw [List.pairwise_map]
  induction wps generalizing d with
  | nil => simp
  | cons w wps ih =>
      cases d with
      | nil => simp
      | cons c d =>
          obtain ⟨h1, h2⟩ := List.pairwise_cons.1 hids
          simp only [List.zip_cons_cons]
          refine List.pairwise_cons.2 ⟨?_, ih h2 d⟩
          intro x hx
          exact h1 x.1 (List.of_mem_zip hx).1

theorem dists_snd (l : List ℂ) (i : ℕ) (h : i < (dists l).length) : (dists l)[i] = len (l.take (i + 1)) := dists_get l i h

/-- The closest point of a segment is where the code puts it. -/
theorem clamp_closest {a b pos q : ℂ} (hab : a ≠ b) (hq : q ∈ segment ℝ a b)
    (hmin : ∀ r ∈ segment ℝ a b, ‖pos - q‖ ≤ ‖pos - r‖) :
    let f := ((pos - a).im * (b - a).im + (pos - a).re * (b - a).re) / ((b - a).im * (b - a).im + (b - a).re * (b - a).re)
    let f := if f < 0 then 0 else if 1 < f then 1 else f
    0 ≤ f ∧ f ≤ 1 ∧ ‖q - a‖ = f * ‖b - a‖ := by
  intro f₀ f
  have hn : 0 < ‖b - a‖ := norm_pos_iff.2 (sub_ne_zero.2 (Ne.symm hab))
  have hsq : (b - a).im * (b - a).im + (b - a).re * (b - a).re = ‖b - a‖ ^ 2 := by
    rw [Verif.Escort.normSq_def]; ring
  have hf : 0 ≤ f ∧ f ≤ 1 := by
    change 0 ≤ (if f₀ < 0 then 0 else if 1 < f₀ then 1 else f₀) ∧ (if f₀ < 0 then 0 else if 1 < f₀ then 1 else f₀) ≤ 1
    split_ifs with h1 h2
    · norm_num
    · norm_num
    · exact ⟨not_lt.1 h1, not_lt.1 h2⟩
  refine ⟨hf.1, hf.2, ?_⟩
  have hmem : ∀ t : ℝ, 0 ≤ t → t ≤ 1 → a + (t : ℂ) * (b - a) ∈ segment ℝ a b := by
    intro t h0 h1
    rw [segment_eq_image']
    refine ⟨t, ⟨h0, h1⟩, ?_⟩
    simp
  rw [segment_eq_image'] at hq
  obtain ⟨t, ⟨h0, h1⟩, rfl⟩ := hq
  have hdist : ∀ t : ℝ, ‖pos - (a + (t : ℂ) * (b - a))‖ ^ 2 = ‖b - a‖ ^ 2 * (t - f₀) ^ 2 + (‖pos - a‖ ^ 2 - ‖b - a‖ ^ 2 * f₀ ^ 2) := by
    intro t
    have e : f₀ * ‖b - a‖ ^ 2 = (pos - a).im * (b - a).im + (pos - a).re * (b - a).re := by
      change _ / _ * _ = _
      rw [hsq, div_mul_cancel₀]
      positivity
    have g1 := Verif.Escort.normSq_def (pos - (a + (t : ℂ) * (b - a)))
    have g2 := Verif.Escort.normSq_def (pos - a)
    have g3 := Verif.Escort.normSq_def (b - a)
    simp only [sub_re, sub_im, add_re, add_im, mul_re, mul_im, ofReal_re, ofReal_im, zero_mul, sub_zero, add_zero] at g1 g2 g3 e
    rw [g1, g2]
    have : ‖b - a‖ ^ 2 * (t - f₀) ^ 2 = ‖b - a‖ ^ 2 * t ^ 2 - 2 * t * (f₀ * ‖b - a‖ ^ 2) + ‖b - a‖ ^ 2 * f₀ ^ 2 := by ring
    rw [this, e, g3]
    ring
  have hle := hmin _ (hmem f hf.1 hf.2)
  have hq' : a + t • (b - a) = a + (t : ℂ) * (b - a) := by simp
  simp only [hq'] at hle ⊢
  have hle2 : ‖pos - (a + (t : ℂ) * (b - a))‖ ^ 2 ≤ ‖pos - (a + (f : ℂ) * (b - a))‖ ^ 2 := by
    gcongr
  rw [hdist, hdist] at hle2
  have hle3 : (t - f₀) ^ 2 ≤ (f - f₀) ^ 2 := by
    have : ‖b - a‖ ^ 2 * (t - f₀) ^ 2 ≤ ‖b - a‖ ^ 2 * (f - f₀) ^ 2 := by linarith
    exact le_of_mul_le_mul_left this (by positivity)
  have ht : t = f := by
    have hfd : f = if f₀ < 0 then 0 else if 1 < f₀ then 1 else f₀ := rfl
    by_cases c1 : f₀ < 0
    · rw [if_pos c1] at hfd
      rw [hfd] at hle3 ⊢
      nlinarith
    · rw [if_neg c1] at hfd
      by_cases c2 : 1 < f₀
      · rw [if_pos c2] at hfd
        rw [hfd] at hle3 ⊢
        nlinarith
      · rw [if_neg c2] at hfd
        rw [hfd] at hle3 ⊢
        have : (t - f₀) ^ 2 = 0 := le_antisymm (by linarith [hle3, show (f₀ - f₀) ^ 2 = (0 : ℝ) by ring]) (sq_nonneg _)
        have := pow_eq_zero_iff (two_ne_zero) |>.1 this
        linarith
  rw [ht, add_sub_cancel_left, norm_mul, Complex.norm_real, Real.norm_eq_abs, abs_of_nonneg hf.1]

theorem init_road (wps : List (ℤ × ℂ)) (road : List Spot) : (Steering.init wps road).road = (Steering.init [] road).road := rfl

theorem init_wps {wps : List (ℤ × ℂ)} (hids : wps.Pairwise fun x y => x.1 < y.1) (road : List Spot) :
    (Steering.init wps road).wps = (wps.zip (dists (wps.map (·.2)))).map fun x => (x.1.1, x.1.2, x.2) :=
  build_sorted (wps_sorted hids _)

/-- Where a waypoint of the plan is found, and what is before it. -/
theorem find_get {wps : List (ℤ × ℂ)} (hids : wps.Pairwise fun x y => x.1 < y.1) (road : List Spot) (pos : ℂ)
    (k : ℕ) (hk : k < wps.length) :
    (Steering.init wps road).find (wps[k].1) pos =
      (progress (Steering.init wps road)
        (if _ : k = 0 then none else some (wps[k - 1].1, wps[k - 1].2, len ((wps.map (·.2)).take k)))
        (wps[k].1, wps[k].2, len ((wps.map (·.2)).take (k + 1))) pos).bind
        fun n => .ok (lookAt (Steering.init [] road).road n) := by
  have hlen : k < ((wps.zip (dists (wps.map (·.2)))).map fun x => (x.1.1, x.1.2, x.2)).length := by
    simp [dists_length, hk]
  have hget := wps_entries wps k hk
  have hlb := lowerBound_get (wps_sorted hids (dists (wps.map (·.2)))) k hlen none
  rw [hget] at hlb
  unfold Steering.find
  rw [init_wps hids]
  simp only at hlb ⊢
  rw [hlb]
  simp only [if_true]
  rw [init_road]
  congr 2
  by_cases hp : k = 0
  · rw [dif_pos hp, dif_pos hp]
  · rw [dif_neg hp, dif_neg hp]
    have := wps_entries wps (k - 1) (by omega)
    rw [show k - 1 + 1 = k by omega] at this
    rw [this]

/-- **C161.**  On the way to a waypoint after the first, the sensor looks at a point within two thousandths of the length of
the road of the one as far along the road, in proportion, as the vehicle is along its waypoints: the vehicle counts as
at the closest point of the segment that leads to its waypoint. -/
theorem C161_near {wps : List (ℤ × ℂ)} (hids : wps.Pairwise fun x y => x.1 < y.1) {road : List Spot}
    (hL : 0 < len (road.map (·.at_))) {k : ℕ} (hk : k + 1 < wps.length) (hab : wps[k].2 ≠ wps[k + 1].2) {pos q : ℂ}
    (hq : q ∈ segment ℝ wps[k].2 wps[k + 1].2) (hmin : ∀ r ∈ segment ℝ wps[k].2 wps[k + 1].2, ‖pos - q‖ ≤ ‖pos - r‖) :
    ∃ z, ((Steering.init wps road).find (wps[k + 1].1) pos = .ok (.onto z) ∨
        ∃ alt, (Steering.init wps road).find (wps[k + 1].1) pos = .ok (.wholly ⟨z, alt⟩)) ∧
      ‖z - along (road.map (·.at_)) ((len ((wps.map (·.2)).take (k + 1)) + ‖q - wps[k].2‖) / len (wps.map (·.2)) *
          len (road.map (·.at_)))‖ ≤ 2 / 1000 * len (road.map (·.at_)) := by
  obtain ⟨hf0, hf1, hqa⟩ := clamp_closest hab hq hmin
  set f₀ := ((pos - wps[k].2).im * (wps[k + 1].2 - wps[k].2).im + (pos - wps[k].2).re * (wps[k + 1].2 - wps[k].2).re) /
    ((wps[k + 1].2 - wps[k].2).im * (wps[k + 1].2 - wps[k].2).im + (wps[k + 1].2 - wps[k].2).re * (wps[k + 1].2 - wps[k].2).re)
    with hf₀
  set f := if f₀ < 0 then 0 else if 1 < f₀ then 1 else f₀ with hf
  set pts := wps.map (·.2) with hpts
  have hn : 0 < ‖wps[k + 1].2 - wps[k].2‖ := norm_pos_iff.2 (sub_ne_zero.2 (Ne.symm hab))
  have hsucc : len (pts.take (k + 2)) = len (pts.take (k + 1)) + ‖wps[k + 1].2 - wps[k].2‖ := by
    have := len_take_succ pts k (by simpa [hpts] using hk)
    simpa [hpts] using this
  have hW : 0 < len pts := by
    have := len_take_le pts (k + 2)
    have := len_nonneg (pts.take (k + 1))
    linarith
  have htot : (Steering.init wps road).length = len pts := total_eq _
  set d := len (pts.take (k + 1)) + ‖q - wps[k].2‖ with hd
  have hd0 : 0 ≤ d := add_nonneg (len_nonneg _) (norm_nonneg _)
  have hdW : d ≤ len pts := by
    have := len_take_le pts (k + 2)
    have : ‖q - wps[k].2‖ ≤ ‖wps[k + 1].2 - wps[k].2‖ := by rw [hqa]; nlinarith
    linarith
  have hprog : progress (Steering.init wps road) (some (wps[k].1, wps[k].2, len (pts.take (k + 1))))
      (wps[k + 1].1, wps[k + 1].2, len (pts.take (k + 2))) pos = .ok ⌊d / len pts * 1000⌋ := by
    unfold progress
    simp only
    have hsq : (wps[k + 1].2 - wps[k].2).im * (wps[k + 1].2 - wps[k].2).im +
        (wps[k + 1].2 - wps[k].2).re * (wps[k + 1].2 - wps[k].2).re ≠ 0 := by
      have := Verif.Escort.normSq_def (wps[k + 1].2 - wps[k].2)
      have h2 : 0 < ‖wps[k + 1].2 - wps[k].2‖ ^ 2 := by positivity
      intro h; nlinarith
    rw [if_neg hsq, htot, if_pos hW, ← hf₀, ← hf, hsucc]
    have e : f * (len (pts.take (k + 1)) + ‖wps[k + 1].2 - wps[k].2‖ - len (pts.take (k + 1))) + len (pts.take (k + 1)) = d := by
      rw [hd, hqa]; ring
    rw [e, toInt_nonneg (by positivity)]
  have hfind := find_get hids road pos (k + 1) hk
  rw [dif_neg (by omega)] at hfind
  simp only [Nat.add_sub_cancel] at hfind
  rw [hprog, Outcome.bind_ok] at hfind
  rw [hfind]
  have hdd : d / len pts ≤ 1 := by rw [div_le_one hW]; exact hdW
  obtain ⟨z, h1, h2⟩ := lookAt_near hL (n := ⌊d / len pts * 1000⌋) (Int.floor_nonneg.2 (by positivity))
    (by rw [Int.floor_le_iff]; push_cast; linarith) (Int.floor_le _) (Int.lt_floor_add_one _)
  refine ⟨z, ?_, ?_⟩
  · rcases h1 with h1 | ⟨alt, h1⟩
    · exact Or.inl (by rw [h1])
    · exact Or.inr ⟨alt, by rw [h1]⟩
  · rwa [mul_div_assoc, div_self (by norm_num : (1000 : ℝ) ≠ 0), mul_one] at h2

/-- **C161.**  On the way to the first waypoint the sensor looks at the start of the road, to within two thousandths of its
length. -/
theorem C161_first {wps : List (ℤ × ℂ)} (hids : wps.Pairwise fun x y => x.1 < y.1) {road : List Spot}
    (hL : 0 < len (road.map (·.at_))) (hk : 0 < wps.length) (pos : ℂ) :
    ∃ z, ((Steering.init wps road).find (wps[0].1) pos = .ok (.onto z) ∨
        ∃ alt, (Steering.init wps road).find (wps[0].1) pos = .ok (.wholly ⟨z, alt⟩)) ∧
      ‖z - along (road.map (·.at_)) 0‖ ≤ 2 / 1000 * len (road.map (·.at_)) := by
  have hfind := find_get hids road pos 0 hk
  rw [dif_pos rfl] at hfind
  change _ = Outcome.ok (lookAt (Steering.init [] road).road 0) at hfind
  obtain ⟨z, h1, h2⟩ := lookAt_near hL (n := 0) (le_refl _) (by norm_num) (x := 0) (by norm_num) (by norm_num)
  rw [hfind]
  refine ⟨z, ?_, by simpa using h2⟩
  rcases h1 with h1 | ⟨alt, h1⟩
  · exact Or.inl (by rw [h1])
  · exact Or.inr ⟨alt, by rw [h1]⟩

/-- **C161.**  A number that is none of the waypoints' leaves the location as it was. -/
theorem C161_unknown {wps : List (ℤ × ℂ)} {road : List Spot} {w : ℤ} (hw : ∀ x ∈ wps, x.1 ≠ w) (pos : ℂ) :
    (Steering.init wps road).find w pos = .ok .untouched := by
  unfold Steering.find
  cases h : lowerBound w none (Steering.init wps road).wps with
  | none => rfl
  | some r =>
      obtain ⟨p, x⟩ := r
      have hx := (lowerBound_some (sorted_build _) h).1
      obtain ⟨i, hi, g, -⟩ := mem_build.1 hx
      have hi' : i < wps.length := by simpa [dists_length] using hi
      have hne : x.1 ≠ w := by
        rw [← g, wps_entries wps i hi']
        exact hw _ (List.getElem_mem hi')
      simp only
      rw [if_neg hne]

end Verif.Stare
