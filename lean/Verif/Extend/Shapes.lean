import Verif.Extend.Lemmas

/-!
The three shapes: that they can be flown, where they end, and what they pass.
-/

namespace Verif.Extend

open Real

/-! ## Pieces -/

theorem leftBy_add (R : ℝ) (p : Pose) (a b : ℝ) : (p.leftBy R a).leftBy R b = p.leftBy R (a + b) := by
  simp only [Pose.leftBy, Pose.mk.injEq, ← add_assoc]
  refine ⟨by ring, by ring, trivial⟩

theorem along_left {R : ℝ} (hR : R ≠ 0) (p : Pose) {w : Dubins} (h : w.turn = 1) (a : ℝ) :
    p.along R w (a * R) = p.leftBy R a := by
  unfold Pose.along
  rw [if_neg (by rw [h]; decide), if_pos h, mul_div_cancel_right₀ _ hR]

theorem along_right {R : ℝ} (hR : R ≠ 0) (p : Pose) {w : Dubins} (h : w.turn = -1) (a : ℝ) :
    p.along R w (a * R) = p.rightBy R a := by
  unfold Pose.along
  rw [if_neg (by rw [h]; decide), if_neg (by rw [h]; decide), mul_div_cancel_right₀ _ hR]

theorem along_straight {R : ℝ} (p : Pose) {w : Dubins} (h : w.turn = 0) (s : ℝ) : p.along R w s = p.ahead s := by
  unfold Pose.along
  rw [if_pos h]

theorem left_pose (R th : ℝ) (p : Pose) : (left R th p).1 = p.leftBy R th := by
  simp only [left, Pose.leftBy, Pose.mk.injEq]
  have h1 : p.psi - π / 2 + th = (p.psi + th) - π / 2 := by ring
  rw [h1, cos_sub_pi_div_two, sin_sub_pi_div_two]
  refine ⟨rfl, by ring, trivial⟩

theorem rightAround_pose (R th tx ty : ℝ) (p : Pose) : (rightAround R th tx ty p).1 = p.rightBy R th := by
  simp only [rightAround, Pose.rightBy, Pose.mk.injEq]
  have h1 : p.psi + π / 2 - th = (p.psi - th) + π / 2 := by ring
  rw [h1, cos_add_pi_div_two, sin_add_pi_div_two]
  refine ⟨by ring, rfl, trivial⟩

theorem right_pose (R th : ℝ) (p : Pose) : (right R th p).1 = p.rightBy R th := rightAround_pose ..

theorem straight_pose (s : ℝ) (p : Pose) : (straight s p).1 = p.ahead s := rfl

theorem flies_left {R th : ℝ} (hR : 0 < R) (h : 0 ≤ th) {p q : Pose} {ws : List Dubins}
    (hr : Flies R (p.leftBy R th) ws q) : Flies R p ((left R th p).2 :: ws) q := by
  have ht : (left R th p).2.turn = 1 := rfl
  have ha : p.along R (left R th p).2 (left R th p).2.len = p.leftBy R th := along_left hR.ne' p ht th
  refine .cons (mul_nonneg h hR.le) (.inr (.inl ⟨ht, rfl, rfl⟩)) ?_ (ha ▸ hr)
  rw [ha, ← left_pose]
  exact ⟨rfl, rfl⟩

theorem flies_rightAround {R th tx ty : ℝ} (hR : 0 < R) (h : 0 ≤ th) {p q : Pose} {ws : List Dubins}
    (hx : tx = p.x + R * sin p.psi) (hy : ty = p.y - R * cos p.psi)
    (hr : Flies R (p.rightBy R th) ws q) : Flies R p ((rightAround R th tx ty p).2 :: ws) q := by
  have ht : (rightAround R th tx ty p).2.turn = -1 := rfl
  have ha : p.along R (rightAround R th tx ty p).2 (rightAround R th tx ty p).2.len = p.rightBy R th :=
    along_right hR.ne' p ht th
  refine .cons (mul_nonneg h hR.le) (.inr (.inr ⟨ht, hx, hy⟩)) ?_ (ha ▸ hr)
  rw [ha, ← rightAround_pose R th tx ty]
  exact ⟨rfl, rfl⟩

theorem flies_right {R th : ℝ} (hR : 0 < R) (h : 0 ≤ th) {p q : Pose} {ws : List Dubins}
    (hr : Flies R (p.rightBy R th) ws q) : Flies R p ((right R th p).2 :: ws) q :=
  flies_rightAround hR h rfl rfl hr

theorem flies_straight {R s : ℝ} (h : 0 ≤ s) {p q : Pose} {ws : List Dubins}
    (hr : Flies R (p.ahead s) ws q) : Flies R p ((straight s p).2 :: ws) q := by
  have ht : (straight s p).2.turn = 0 := rfl
  have ha : p.along R (straight s p).2 (straight s p).2.len = p.ahead s := along_straight p ht s
  refine .cons h (.inl ht) ?_ (ha ▸ hr)
  rw [ha]
  exact ⟨rfl, rfl⟩

theorem quarter_pose {R tx ty : ℝ} {p : Pose} (hx : tx = p.x - R * sin p.psi) (hy : ty = p.y + R * cos p.psi) :
    (quarter R tx ty p).1 = p.leftBy R (π / 2) := by
  simp only [quarter, Pose.leftBy, Pose.mk.injEq, sin_add_pi_div_two, cos_add_pi_div_two, hx, hy]
  refine ⟨by ring, by ring, trivial⟩

theorem quarters_pose {R tx ty : ℝ} : ∀ (n : ℕ) {p : Pose}, tx = p.x - R * sin p.psi → ty = p.y + R * cos p.psi →
    (quarters R tx ty n p).1 = p.leftBy R (n * (π / 2))
  | 0, p, hx, hy => by simp [quarters, Pose.leftBy]
  | n + 1, p, hx, hy => by
    have h := quarter_pose hx hy
    unfold quarters
    dsimp only
    rw [h, quarters_pose n (p := p.leftBy R (π / 2)) (by simp only [Pose.leftBy]; linarith)
      (by simp only [Pose.leftBy]; linarith), leftBy_add]
    congr 1
    push_cast
    ring

theorem flies_quarters {R tx ty : ℝ} (hR : 0 < R) : ∀ (n : ℕ) {p q : Pose} {ws : List Dubins},
    tx = p.x - R * sin p.psi → ty = p.y + R * cos p.psi → Flies R (p.leftBy R (n * (π / 2))) ws q →
    Flies R p ((quarters R tx ty n p).2 ++ ws) q
  | 0, p, q, ws, hx, hy, h => by
    simpa [quarters, Pose.leftBy] using h
  | n + 1, p, q, ws, hx, hy, h => by
    have hp := quarter_pose hx hy
    unfold quarters
    dsimp only
    rw [List.cons_append]
    have ht : (quarter R tx ty p).2.turn = 1 := rfl
    have ha : p.along R (quarter R tx ty p).2 (quarter R tx ty p).2.len = p.leftBy R (π / 2) :=
      along_left hR.ne' p ht (π / 2)
    refine .cons (by simp only [quarter]; positivity) (.inr (.inl ⟨ht, hx, hy⟩)) ?_ ?_
    · rw [ha, ← hp]
      exact ⟨rfl, rfl⟩
    · rw [ha, hp]
      apply flies_quarters hR n (by simp only [Pose.leftBy]; linarith) (by simp only [Pose.leftBy]; linarith)
      rw [leftBy_add]
      have : π / 2 + n * (π / 2) = (n + 1 : ℕ) * (π / 2) := by push_cast; ring
      rwa [this]

/-! ## The shapes can be flown -/

theorem flies_bubble {th R : ℝ} (hR : 0 < R) (h : 0 ≤ th) (a b : Dubins) :
    Flies R ⟨a.x, a.y, direction a b⟩ (buildBubble th R a b)
      (((((Pose.mk a.x a.y (direction a b)).leftBy R th).rightBy R th).rightBy R th).leftBy R th) := by
  unfold buildBubble
  dsimp only
  rw [left_pose, right_pose, rightAround_pose]
  refine flies_left hR h (flies_right hR h (flies_rightAround hR h ?_ ?_ (flies_left hR h (.nil _)))) <;>
    simp only [right, rightAround, Pose.rightBy] <;> ring

theorem flies_slide {th R : ℝ} (hR : 0 < R) (h : 0 ≤ th) (a b : Dubins) :
    Flies R ⟨a.x, a.y, direction a b⟩ (buildSlide th R a b)
      (((((((Pose.mk a.x a.y (direction a b)).leftBy R (π / 2)).rightBy R (π / 2)).rightBy R (π / 2)).rightBy R th).leftBy R
        (π / 2 + arccos (1 - sin th) + th)).rightBy R (arccos (1 - sin th))) := by
  unfold buildSlide
  dsimp only
  rw [left_pose, right_pose, rightAround_pose, rightAround_pose, left_pose]
  have hp : 0 ≤ π / 2 := by positivity
  have hd := arccos_nonneg (1 - sin th)
  refine flies_left hR hp (flies_right hR hp (flies_rightAround hR hp ?_ ?_ (flies_rightAround hR h ?_ ?_
    (flies_left hR (by positivity) (flies_right hR hd (.nil _)))))) <;>
    simp only [right, rightAround, Pose.rightBy] <;> ring

theorem flies_track {N : ℕ} {track R : ℝ} (hR : 0 < R) (h : 0 ≤ track) (a b : Dubins) :
    Flies R ⟨a.x, a.y, direction a b⟩ (buildRaceTrack N track R a b)
      ((((((Pose.mk a.x a.y (direction a b)).leftBy R ((N * 4 : ℕ) * (π / 2))).ahead track).leftBy R ((2 : ℕ) * (π / 2))).ahead
        track).leftBy R ((2 : ℕ) * (π / 2))) := by
  unfold buildRaceTrack
  dsimp only
  simp only [List.append_assoc, List.singleton_append, straight_pose]
  have k0 : (quarters R (a.x - R * sin (direction a b)) (a.y + R * cos (direction a b)) (N * 4)
      ⟨a.x, a.y, direction a b⟩).1 = _ := quarters_pose (N * 4) rfl rfl
  have k2 : ∀ p : Pose, (quarters R (p.x - R * sin p.psi) (p.y + R * cos p.psi) 2 p).1 = _ :=
    fun p => quarters_pose 2 rfl rfl
  rw [k0, k2]
  apply flies_quarters hR _ rfl rfl
  apply flies_straight h
  apply flies_quarters hR _ rfl rfl
  apply flies_straight h
  rw [← List.append_nil (quarters _ _ _ 2 _).2]
  exact flies_quarters hR _ rfl rfl (.nil _)

end Verif.Extend
