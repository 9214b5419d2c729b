import Verif.Extend.Shapes

/-!
Where the shapes end and how far they lead away, computed in the frame of the segment.
-/

namespace Verif.Extend

open Real

/-- A pose given relative to another. -/
noncomputable def place (o l : Pose) : Pose :=
  ⟨o.x + l.x * cos o.psi - l.y * sin o.psi, o.y + l.x * sin o.psi + l.y * cos o.psi, o.psi + l.psi⟩

theorem place_leftBy (R : ℝ) (o l : Pose) (a : ℝ) : (place o l).leftBy R a = place o (l.leftBy R a) := by
  simp only [place, Pose.leftBy, Pose.mk.injEq]
  have h : o.psi + l.psi + a = o.psi + (l.psi + a) := by ring
  rw [h]
  simp only [sin_add, cos_add o.psi]
  generalize hx : sin (l.psi + a) = u
  generalize hy : cos (l.psi + a) = v
  rw [sin_add] at hx
  rw [hx]
  refine ⟨by ring, by ring, trivial⟩

theorem place_rightBy (R : ℝ) (o l : Pose) (a : ℝ) : (place o l).rightBy R a = place o (l.rightBy R a) := by
  simp only [place, Pose.rightBy, Pose.mk.injEq]
  have h : o.psi + l.psi - a = o.psi + (l.psi - a) := by ring
  rw [h]
  generalize hb : l.psi - a = b
  simp only [sin_add, cos_add]
  refine ⟨by ring, by ring, trivial⟩

theorem place_ahead (o l : Pose) (s : ℝ) : (place o l).ahead s = place o (l.ahead s) := by
  simp only [place, Pose.ahead, Pose.mk.injEq, sin_add, cos_add]
  refine ⟨by ring, by ring, trivial⟩

theorem place_along (R : ℝ) (o l : Pose) (w : Dubins) (s : ℝ) : (place o l).along R w s = place o (l.along R w s) := by
  unfold Pose.along
  split
  · exact place_ahead ..
  · split
    · exact place_leftBy ..
    · exact place_rightBy ..

theorem place_zero (o : Pose) : place o ⟨0, 0, 0⟩ = o := by simp [place]

theorem passes_place {R : ℝ} {o : Pose} : ∀ {ws : List Dubins} {l : Pose} {z : ℝ × ℝ}, Passes R (place o l) ws z →
    ∃ u v, Passes R l ws (u, v) ∧ z = (o.x + u * cos o.psi - v * sin o.psi, o.y + u * sin o.psi + v * cos o.psi)
  | [], l, z, h => h.elim
  | w :: ws, l, z, h => by
    rcases h with ⟨s, h1, h2, h3⟩ | h
    · refine ⟨(l.along R w s).x, (l.along R w s).y, .inl ⟨s, h1, h2, rfl⟩, ?_⟩
      rw [h3, place_along]
      rfl
    · rw [place_along] at h
      obtain ⟨u, v, h1, h2⟩ := passes_place h
      exact ⟨u, v, .inr h1, h2⟩

theorem passes_append {R : ℝ} : ∀ {ws vs : List Dubins} {p q : Pose} {z : ℝ × ℝ}, Flies R p ws q →
    (Passes R p (ws ++ vs) z ↔ Passes R p ws z ∨ Passes R q vs z)
  | [], vs, p, q, z, h => by
    cases h
    simp [Passes]
  | w :: ws, vs, p, q, z, h => by
    cases h with
    | cons hlen hturn hend hrest =>
      simp only [List.cons_append, Passes, passes_append hrest, or_assoc]

/-- The direction of a segment. -/
theorem direction_spec (a b : Dubins) :
    ∃ d, 0 ≤ d ∧ b.x - a.x = d * cos (direction a b) ∧ b.y - a.y = d * sin (direction a b) ∧
      d ^ 2 = (b.x - a.x) ^ 2 + (b.y - a.y) ^ 2 := by
  refine ⟨‖(⟨b.x - a.x, b.y - a.y⟩ : ℂ)‖, norm_nonneg _, ?_, ?_, ?_⟩
  · exact (Complex.norm_mul_cos_arg (⟨b.x - a.x, b.y - a.y⟩ : ℂ)).symm
  · exact (Complex.norm_mul_sin_arg (⟨b.x - a.x, b.y - a.y⟩ : ℂ)).symm
  · rw [Complex.sq_norm, Complex.normSq_apply]
    ring

/-- A point near the part of the segment's line that the segment covers. -/
theorem near_of {a b : Dubins} {d r u v u0 : ℝ} (hx : b.x - a.x = d * cos (direction a b))
    (hy : b.y - a.y = d * sin (direction a b)) (h0 : 0 ≤ u0) (h1 : u0 ≤ d) (h : (u - u0) ^ 2 + v ^ 2 ≤ r ^ 2) :
    Near a b r (a.x + u * cos (direction a b) - v * sin (direction a b),
      a.y + u * sin (direction a b) + v * cos (direction a b)) := by
  have hd : 0 ≤ d := h0.trans h1
  refine ⟨u0 / d, div_nonneg h0 hd, div_le_one_of_le₀ h1 hd, ?_⟩
  rw [hx, hy]
  have hu : u0 / d * d = u0 := by
    rcases hd.eq_or_lt with h' | h'
    · rw [← h', mul_zero]
      linarith
    · field_simp
  have hcs := sin_sq_add_cos_sq (direction a b)
  have e1 : a.x + u * cos (direction a b) - v * sin (direction a b) - (a.x + u0 / d * (d * cos (direction a b)))
      = (u - u0) * cos (direction a b) - v * sin (direction a b) := by
    rw [← mul_assoc, hu]; ring
  have e2 : a.y + u * sin (direction a b) + v * cos (direction a b) - (a.y + u0 / d * (d * sin (direction a b)))
      = (u - u0) * sin (direction a b) + v * cos (direction a b) := by
    rw [← mul_assoc, hu]; ring
  dsimp only
  rw [e1, e2]
  calc _ = ((u - u0) ^ 2 + v ^ 2) * (sin (direction a b) ^ 2 + cos (direction a b) ^ 2) := by ring
    _ ≤ r ^ 2 := by rw [hcs, mul_one]; exact h

/-- The point after the length `s` of an arc to the left. -/
theorem arc_left {R : ℝ} (hR : 0 < R) {p : Pose} {w : Dubins} (ht : w.turn = 1) {th s : ℝ} (hl : w.len = th * R)
    (h0 : 0 ≤ s) (h1 : s ≤ w.len) : ∃ a, 0 ≤ a ∧ a ≤ th ∧ p.along R w s = p.leftBy R a := by
  refine ⟨s / R, by positivity, ?_, ?_⟩
  · rw [div_le_iff₀ hR, ← hl]; exact h1
  · rw [← along_left hR.ne' p ht, div_mul_cancel₀ _ hR.ne']

theorem arc_right {R : ℝ} (hR : 0 < R) {p : Pose} {w : Dubins} (ht : w.turn = -1) {th s : ℝ} (hl : w.len = th * R)
    (h0 : 0 ≤ s) (h1 : s ≤ w.len) : ∃ a, 0 ≤ a ∧ a ≤ th ∧ p.along R w s = p.rightBy R a := by
  refine ⟨s / R, by positivity, ?_, ?_⟩
  · rw [div_le_iff₀ hR, ← hl]; exact h1
  · rw [← along_right hR.ne' p ht, div_mul_cancel₀ _ hR.ne']

theorem passes_left {R : ℝ} (hR : 0 < R) {p : Pose} {w : Dubins} (ht : w.turn = 1) {th : ℝ} (hl : w.len = th * R)
    {ws : List Dubins} {z : ℝ × ℝ} (h : Passes R p (w :: ws) z) :
    (∃ t, 0 ≤ t ∧ t ≤ th ∧ z = ((p.leftBy R t).x, (p.leftBy R t).y)) ∨ Passes R (p.leftBy R th) ws z := by
  rcases h with ⟨s, s0, s1, hz⟩ | h
  · obtain ⟨t, t0, t1, e⟩ := arc_left hR (p := p) ht hl s0 s1
    exact .inl ⟨t, t0, t1, e ▸ hz⟩
  · rw [hl, along_left hR.ne' p ht] at h
    exact .inr h

theorem passes_right {R : ℝ} (hR : 0 < R) {p : Pose} {w : Dubins} (ht : w.turn = -1) {th : ℝ} (hl : w.len = th * R)
    {ws : List Dubins} {z : ℝ × ℝ} (h : Passes R p (w :: ws) z) :
    (∃ t, 0 ≤ t ∧ t ≤ th ∧ z = ((p.rightBy R t).x, (p.rightBy R t).y)) ∨ Passes R (p.rightBy R th) ws z := by
  rcases h with ⟨s, s0, s1, hz⟩ | h
  · obtain ⟨t, t0, t1, e⟩ := arc_right hR (p := p) ht hl s0 s1
    exact .inl ⟨t, t0, t1, e ▸ hz⟩
  · rw [hl, along_right hR.ne' p ht] at h
    exact .inr h

theorem passes_straight {R : ℝ} {p : Pose} {w : Dubins} (ht : w.turn = 0)
    {ws : List Dubins} {z : ℝ × ℝ} (h : Passes R p (w :: ws) z) :
    (∃ t, 0 ≤ t ∧ t ≤ w.len ∧ z = ((p.ahead t).x, (p.ahead t).y)) ∨ Passes R (p.ahead w.len) ws z := by
  rcases h with ⟨s, s0, s1, hz⟩ | h
  · rw [along_straight p ht] at hz
    exact .inl ⟨s, s0, s1, hz⟩
  · rw [along_straight p ht] at h
    exact .inr h

/-! ## The bubble -/

/-- The ends of the pieces, in the frame of the segment. -/
noncomputable def bub (th R : ℝ) : ℕ → Pose
  | 0 => ⟨0, 0, 0⟩
  | 1 => ⟨R * sin th, R - R * cos th, th⟩
  | 2 => ⟨2 * R * sin th, 2 * R - 2 * R * cos th, 0⟩
  | 3 => ⟨3 * R * sin th, R - R * cos th, -th⟩
  | _ => ⟨4 * R * sin th, 0, 0⟩

theorem bub1 (th R : ℝ) : (bub th R 0).leftBy R th = bub th R 1 := by
  simp [bub, Pose.leftBy]
theorem bub2 (th R : ℝ) : (bub th R 1).rightBy R th = bub th R 2 := by
  simp [bub, Pose.rightBy]; constructor <;> ring
theorem bub3 (th R : ℝ) : (bub th R 2).rightBy R th = bub th R 3 := by
  simp [bub, Pose.rightBy]; constructor <;> ring
theorem bub4 (th R : ℝ) : (bub th R 3).leftBy R th = bub th R 4 := by
  simp [bub, Pose.leftBy]; ring

theorem bubble_end (th R : ℝ) (o : Pose) :
    (((o.leftBy R th).rightBy R th).rightBy R th).leftBy R th =
      ⟨o.x + bubbleStraight th R * cos o.psi, o.y + bubbleStraight th R * sin o.psi, o.psi⟩ := by
  have h := place_zero o
  rw [← h, place_leftBy, place_rightBy, place_rightBy, place_leftBy]
  have : (⟨0, 0, 0⟩ : Pose) = bub th R 0 := rfl
  rw [this, bub1, bub2, bub3, bub4]
  simp [place, bub, bubbleStraight]

theorem bubble_total (th R : ℝ) (a b : Dubins) : total (buildBubble th R a b) = bubbleArc th R := by
  simp [total, buildBubble, left, right, rightAround, bubbleArc]
  ring

theorem bubble_near {th R d : ℝ} (hR : 0 < R) (h0 : 0 ≤ th) (h1 : th ≤ π / 2) {a b : Dubins}
    (hx : b.x - a.x = d * cos (direction a b)) (hy : b.y - a.y = d * sin (direction a b))
    (hd : bubbleStraight th R ≤ d) {z : ℝ × ℝ}
    (hz : Passes R ⟨a.x, a.y, direction a b⟩ (buildBubble th R a b) z) : Near a b (2 * R) z := by
  rw [← place_zero ⟨a.x, a.y, direction a b⟩] at hz
  obtain ⟨u, v, hq, rfl⟩ := passes_place hz
  clear hz
  have hs0 : 0 ≤ sin th := sin_nonneg_of_nonneg_of_le_pi h0 (by linarith [pi_pos])
  have hc0 : 0 ≤ cos th := cos_nonneg_of_neg_pi_div_two_le_of_le (by linarith [pi_pos]) h1
  have key : ∀ t, 0 ≤ t → t ≤ th → 0 ≤ sin t ∧ sin t ≤ sin th ∧ cos th ≤ cos t ∧ cos t ≤ 1 := by
    intro t ht0 ht1
    refine ⟨sin_nonneg_of_nonneg_of_le_pi ht0 (by linarith [pi_pos]),
      sin_le_sin_of_le_of_le_pi_div_two (by linarith [pi_pos]) h1 ht1,
      cos_le_cos_of_nonneg_of_le_pi ht0 (by linarith [pi_pos]) ht1, cos_le_one t⟩
  unfold bubbleStraight at hd
  have goal : 0 ≤ u ∧ u ≤ 4 * R * sin th ∧ 0 ≤ v ∧ v ≤ 2 * R := by
    have e0 : (⟨0, 0, 0⟩ : Pose) = bub th R 0 := rfl
    rw [e0] at hq
    unfold buildBubble at hq
    rcases passes_left hR rfl rfl hq with ⟨t, t0, t1, hz⟩ | hq
    · simp only [Pose.leftBy, bub, Prod.mk.injEq, sin_zero, cos_zero, zero_add] at hz
      obtain ⟨rfl, rfl⟩ := hz
      obtain ⟨k1, k2, k3, k4⟩ := key t t0 t1
      refine ⟨?_, ?_, ?_, ?_⟩ <;> nlinarith
    rw [bub1] at hq
    rcases passes_right hR rfl rfl hq with ⟨t, t0, t1, hz⟩ | hq
    · simp only [Pose.rightBy, bub, Prod.mk.injEq] at hz
      obtain ⟨rfl, rfl⟩ := hz
      obtain ⟨k1, k2, k3, k4⟩ := key (th - t) (by linarith) (by linarith)
      refine ⟨?_, ?_, ?_, ?_⟩ <;> nlinarith
    rw [bub2] at hq
    rcases passes_right hR rfl rfl hq with ⟨t, t0, t1, hz⟩ | hq
    · simp only [Pose.rightBy, bub, Prod.mk.injEq, zero_sub, sin_neg, cos_neg, sin_zero, cos_zero] at hz
      obtain ⟨rfl, rfl⟩ := hz
      obtain ⟨k1, k2, k3, k4⟩ := key t t0 t1
      refine ⟨?_, ?_, ?_, ?_⟩ <;> nlinarith
    rw [bub3] at hq
    rcases passes_left hR rfl rfl hq with ⟨t, t0, t1, hz⟩ | hq
    · have e3 : -th + t = -(th - t) := by ring
      simp only [Pose.leftBy, bub, Prod.mk.injEq, e3, sin_neg, cos_neg] at hz
      obtain ⟨rfl, rfl⟩ := hz
      obtain ⟨k1, k2, k3, k4⟩ := key (th - t) (by linarith) (by linarith)
      refine ⟨?_, ?_, ?_, ?_⟩ <;> nlinarith
    exact hq.elim
  obtain ⟨g1, g2, g3, g4⟩ := goal
  refine near_of hx hy g1 (g2.trans hd) ?_
  rw [sub_self]
  nlinarith

end Verif.Extend
