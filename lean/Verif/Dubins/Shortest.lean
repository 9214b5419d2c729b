import Verif.Dubins.Route

/-!
# The lengths of routes (C172)
-/

namespace Verif.Dubins

open Complex

theorem lastPos_last {ws : List Way} {e : ℂ} (h : ws.getLast?.map (·.pos) = some e) (p : ℂ) : lastPos p ws = e := by
  induction ws generalizing p with
  | nil => simp at h
  | cons w ws ih =>
      cases ws with
      | nil => simpa [lastPos] using h
      | cons v vs => exact ih (by simpa using h) w.pos

/-- The length of a turn that counts. -/
noncomputable def counted (l : ℝ) : ℝ := if 1 ≤ l then l else 0

theorem cscWays_total {b e : ℂ} {c1 c2 : Circle} {s : Shape} {sep : ℝ} {ws : List Way} (h1 : 0 < c1.r) (h2 : 0 < c2.r) (hs : 0 < sep)
    (hl : s.l2 = ‖s.t2 - s.t1‖) (h : cscWays b e c1 c2 s sep = .ok ws) : total ws = counted s.l1 + s.l2 + counted s.l3 := by
  unfold cscWays at h
  rw [Outcome.bind_eq_ok] at h
  obtain ⟨w1, hw1, h⟩ := h
  rw [Outcome.bind_eq_ok] at h
  obtain ⟨w3, hw3, h⟩ := h
  simp only [Outcome.ok.injEq] at h
  rw [← h, total_append]
  have e1 : total w1 = counted s.l1 ∧ (w1 ≠ [] → lastPos 0 w1 = s.t1) := by
    unfold counted
    split at hw1
    · rename_i hc
      obtain ⟨_, _, hlast, ht, _⟩ := C173_length h1 hs (by linarith) hw1
      exact ⟨by rw [ht, if_pos hc], fun _ => lastPos_last hlast 0⟩
    · rename_i hc
      simp only [Outcome.ok.injEq] at hw1
      subst hw1
      exact ⟨by rw [if_neg hc]; rfl, by simp⟩
  have e3 : totalFrom s.t2 w3 = counted s.l3 := by
    unfold counted
    split at hw3
    · rename_i hc
      obtain ⟨_, _, _, _, ht⟩ := C173_length h2 hs (by linarith) hw3
      rw [ht, if_pos hc]
    · rename_i hc
      simp only [Outcome.ok.injEq] at hw3
      subst hw3
      rw [if_neg hc]; rfl
  have e2 : (if 0 < s.l2 then s.l2 else if w1 = [] then 0 else ‖s.t2 - lastPos 0 w1‖) = s.l2 := by
    split
    · rfl
    · rename_i hc
      have h0 : s.l2 = 0 := le_antisymm (not_lt.1 hc) (by rw [hl]; exact norm_nonneg _)
      split
      · exact h0.symm
      · rename_i hw
        rw [e1.2 hw, ← hl]
  rw [e1.1, e3]
  simp only
  rw [e2]

/-- A path of a turn, a straight line and a turn, on the same circle if the centres are at one place. -/
theorem cscShape_some {b e : ℂ} {c1 c2 c : Circle} {d least : ℤ} {s : Shape} (h : cscShape b e c1 c2 d least = (c, some s)) :
    ∃ rot : ℂ, ‖rot‖ = 1 ∧ ((|(d : ℝ)| ≤ 0.01 ∧ c = c2 ∧ rot = 1) ∨ (¬ |(d : ℝ)| ≤ 0.01 ∧ c = c1 ∧ rot = exp (bearing (c2.c - c1.c) * I))) ∧
      ¬ (d < least ∧ c.dir ≠ c2.dir) ∧ ∃ p1 p2 as bs, tangents c.r c.dir c2.dir d = (p1, p2, as, bs) ∧
        s = { t1 := p1 * rot + c.c
              t2 := p2 * rot + c.c
              l1 := sweep c.dir (bearing ((b - c.c) / rot)) (snap as (bearing ((b - c.c) / rot))) * c.r
              l2 := ‖p2 - p1‖
              l3 := sweep c2.dir (snap bs (bearing ((e - c.c) / rot - (c2.c - c.c) / rot))) (bearing ((e - c.c) / rot - (c2.c - c.c) / rot)) * c2.r } := by
  unfold cscShape at h
  by_cases hd : |(d : ℝ)| ≤ 0.01
  · simp only [if_pos hd] at h
    rw [if_neg (by simp)] at h
    simp only [Prod.mk.injEq, Option.some.injEq] at h
    obtain ⟨rfl, rfl⟩ := h
    exact ⟨1, by simp, Or.inl ⟨hd, rfl, rfl⟩, by simp, _, _, _, _, rfl, rfl⟩
  · simp only [if_neg hd] at h
    split at h
    · simp at h
    · rename_i hg
      simp only [Prod.mk.injEq, Option.some.injEq] at h
      obtain ⟨rfl, rfl⟩ := h
      exact ⟨_, exp_unit _, Or.inr ⟨hd, rfl, rfl⟩, hg, _, _, _, _, rfl, rfl⟩

theorem cscShape_l2 {b e : ℂ} {c1 c2 c : Circle} {d least : ℤ} {s : Shape} (h : cscShape b e c1 c2 d least = (c, some s)) : s.l2 = ‖s.t2 - s.t1‖ := by
  obtain ⟨rot, hrot, _, _, p1, p2, as, bs, _, rfl⟩ := cscShape_some h
  simp only
  rw [show (p2 * rot + c.c) - (p1 * rot + c.c) = (p2 - p1) * rot by ring, norm_mul, hrot, mul_one]

/-- What a route of a turn, a straight line and a turn says it is long. -/
theorem csc_total {b e : ℂ} {sep : ℝ} {c1 c2 c : Circle} {ws : List Way} (h1 : 0 < c1.r) (h2 : 0 < c2.r) (hs : 0 < sep)
    (h : csc b e sep c1 c2 = .ok (c, some ws)) :
    ∃ d least s, iRound ‖c2.c - c1.c‖ = .ok d ∧ iRound (c1.r + c2.r) = .ok least ∧ cscShape b e c1 c2 d least = (c, some s) ∧
      total ws = counted s.l1 + s.l2 + counted s.l3 := by
  unfold csc at h
  rw [Outcome.bind_eq_ok] at h
  obtain ⟨d, hd, h⟩ := h
  rw [Outcome.bind_eq_ok] at h
  obtain ⟨least, hl, h⟩ := h
  rcases hsh : cscShape b e c1 c2 d least with ⟨c', _ | s⟩
  · rw [hsh] at h; simp at h
  · rw [hsh] at h
    simp only at h
    rw [Outcome.bind_eq_ok] at h
    obtain ⟨ws', hw, h⟩ := h
    simp only [Outcome.ok.injEq, Prod.mk.injEq, Option.some.injEq] at h
    obtain ⟨rfl, rfl⟩ := h
    refine ⟨d, least, s, hd, hl, hsh, cscWays_total ?_ h2 hs (cscShape_l2 hsh) hw⟩
    have hc : c' = c1 ∨ c' = c2 := by
      obtain ⟨_, _, ⟨_, h, _⟩ | ⟨_, h, _⟩, _⟩ := cscShape_some hsh
      · exact Or.inr h
      · exact Or.inl h
    rcases hc with rfl | rfl <;> assumption

/-- Two angles within one turn of each other that point the same way. -/
theorem same_angle {x y : ℝ} {dir : Dir} (hx : 0 ≤ x ∧ x < 2 * Real.pi) (hy : 0 ≤ y ∧ y < 2 * Real.pi)
    (h : exp (((dir.sign * x : ℝ) : ℂ) * I) = exp (((dir.sign * y : ℝ) : ℂ) * I)) : x = y := by
  rw [Complex.exp_eq_exp_iff_exists_int] at h
  obtain ⟨n, hn⟩ := h
  have hn' : dir.sign * x = dir.sign * y + n * (2 * Real.pi) := by
    have : (((dir.sign * x : ℝ) : ℂ)) * I = (((dir.sign * y + n * (2 * Real.pi) : ℝ) : ℂ)) * I := by rw [hn]; push_cast; ring
    exact_mod_cast mul_right_cancel₀ I_ne_zero this
  have hp := Real.pi_pos
  have hn0 : n = 0 := by
    have h1 : -(2 * Real.pi) < n * (2 * Real.pi) ∧ n * (2 * Real.pi) < 2 * Real.pi := by
      cases dir <;> simp only [Dir.sign] at hn' <;> constructor <;> linarith
    have h2 : (-1 : ℝ) < n ∧ (n : ℝ) < 1 := by constructor <;> nlinarith
    have h3 : (-1 : ℤ) < n ∧ n < 1 := by exact_mod_cast h2
    omega
  rw [hn0] at hn'
  cases dir <;> simp only [Dir.sign] at hn' <;> push_cast at hn' <;> linarith

/-- The length of a path. -/
noncomputable def Leg.length (r : ℝ) : Leg → ℝ
  | .turn _ a => r * a
  | .straight l => l

theorem counted_le {l : ℝ} (h : 0 ≤ l) : counted l ≤ l := by unfold counted; split <;> linarith

/-- Where the straight line begins and ends if both turns are the same way. -/
theorem tangents_same {r d : ℝ} (dir : Dir) : ∃ p1 p2 A, tangents r dir dir d = (p1, p2, A, A) ∧ (Real.pi / 2 ≤ A ∧ A ≤ 3 / 2 * Real.pi) ∧
    exp ((A : ℂ) * I) = -(dir.sign * I) := by
  have hp := Real.pi_pos
  unfold tangents
  rw [if_pos rfl]
  cases dir
  · exact ⟨_, _, _, rfl, ⟨by linarith, by linarith⟩, by rw [exp_half_pi]; simp [Dir.sign]⟩
  · exact ⟨_, _, _, rfl, ⟨by linarith, by linarith⟩, by rw [exp_three_half_pi]; simp [Dir.sign]⟩

theorem sweep_first {dir : Dir} {al A : ℝ} (ha : -1e-9 ≤ al ∧ al < 2 * Real.pi) (hA : Real.pi / 2 ≤ A ∧ A ≤ 3 / 2 * Real.pi) :
    (0 ≤ sweep dir al A ∧ sweep dir al A < 2 * Real.pi) ∧ (0 ≤ sweep dir A al ∧ sweep dir A al < 2 * Real.pi) := by
  have hp := Real.pi_gt_three
  norm_num at ha
  cases dir <;> simp only [sweep] <;> refine ⟨⟨?_, ?_⟩, ⟨?_, ?_⟩⟩ <;> split <;> linarith

theorem snap_first_le {dir : Dir} {al A r : ℝ} (hr : 0 < r) (h : 0 ≤ sweep dir al A) : 0 ≤ sweep dir al (snap A al) * r ∧ sweep dir al (snap A al) * r ≤ r * sweep dir al A := by
  rcases snap_spec A al with h1 | ⟨h1, _⟩ <;> rw [h1]
  · exact ⟨by positivity, by linarith⟩
  · rw [sweep_self]; exact ⟨by simp, by rw [zero_mul]; positivity⟩

theorem snap_last_le {dir : Dir} {be A r : ℝ} (hr : 0 < r) (h : 0 ≤ sweep dir A be) : 0 ≤ sweep dir (snap A be) be * r ∧ sweep dir (snap A be) be * r ≤ r * sweep dir A be := by
  rcases snap_spec A be with h1 | ⟨h1, _⟩ <;> rw [h1]
  · exact ⟨by positivity, by linarith⟩
  · rw [sweep_self]; exact ⟨by simp, by rw [zero_mul]; positivity⟩

/-- The route over two circles of the same way is no more than half a metre longer than the path. -/
theorem csc_same {p q : Pose} {dir : Dir} {r sep : ℝ} (hp : ‖p.to_‖ = 1) (hq : ‖q.to_‖ = 1) (hr : 1 ≤ r) (hs : 0 < sep)
    (hD : 1 / 2 ≤ ‖(q.circle dir r).c - (p.circle dir r).c‖) {c : Circle} {ws : List Way}
    (h : csc p.at_ q.at_ sep (p.circle dir r) (q.circle dir r) = .ok (c, some ws)) {a1 l a2 : ℝ} (h1 : 0 ≤ a1 ∧ a1 < 2 * Real.pi) (hl : 0 ≤ l)
    (h2 : 0 ≤ a2 ∧ a2 < 2 * Real.pi) (hend : p.fly r [.turn dir a1, .straight l, .turn dir a2] = q) :
    total ws ≤ r * a1 + l + r * a2 + 1 / 2 := by
  have hr0 : 0 < r := by linarith
  obtain ⟨hc, -⟩ := csc_route hp hq hr hs hD h
  subst hc
  obtain ⟨d, least, s, hd, hle, hsh, ht⟩ := csc_total hr0 hr0 hs h
  obtain ⟨hd0, hdD⟩ := iRound_spec (norm_nonneg _) hd
  rw [abs_le] at hdD
  obtain ⟨rot, hrot, hcase, hg, p1, p2, as, bs, htan, hs'⟩ := cscShape_some hsh
  have hdc : ¬ |(d : ℝ)| ≤ 0.01 := by
    have hd1 : 1 ≤ d := by
      unfold iRound toInt at hd
      split at hd
      · simp only [Outcome.ok.injEq] at hd
        rw [← hd]; unfold trunc; rw [if_pos (by linarith), Int.le_floor]; push_cast; linarith
      · simp at hd
    have h1' : (1 : ℝ) ≤ d := by exact_mod_cast hd1
    rw [abs_of_pos (by linarith)]; norm_num; linarith
  obtain ⟨_, _, hrote⟩ := hcase.resolve_left (fun h => hdc h.1)
  obtain ⟨p1', p2', A, htan', hA, hexpA⟩ := tangents_same (r := r) (d := d) dir
  simp only [show ∀ p : Pose, (p.circle dir r).r = r from fun _ => rfl, show ∀ p : Pose, (p.circle dir r).dir = dir from fun _ => rfl] at htan hs'
  rw [htan'] at htan
  simp only [Prod.mk.injEq] at htan
  obtain ⟨rfl, rfl, rfl, rfl⟩ := htan
  have hDe := bearing_exp ((q.circle dir r).c - (p.circle dir r).c)
  rw [← hrote] at hDe
  have hrot0 : rot ≠ 0 := by rw [← norm_ne_zero_iff, hrot]; norm_num
  -- the path
  have hdisp : (q.circle dir r).c - (p.circle dir r).c = l * (p.turned dir r a1).to_ := by
    rw [← hend]
    simp only [Pose.fly, List.foldl_cons, List.foldl_nil, Pose.leg]
    rw [turned_circle]
    have := turned_circle p dir r a1
    simp only [Pose.on, Pose.circle] at this ⊢
    linear_combination this
  have hu : ‖(p.turned dir r a1).to_‖ = 1 := turned_unit hp _ _ _
  have hl' : ‖(q.circle dir r).c - (p.circle dir r).c‖ = l := by
    rw [hdisp, norm_mul, hu, mul_one, Complex.norm_real, Real.norm_of_nonneg hl]
  have hw : (p.turned dir r a1).to_ = rot := by
    have h0 : (l : ℂ) ≠ 0 := by
      have : l ≠ 0 := by rw [← hl']; linarith
      exact_mod_cast this
    apply mul_left_cancel₀ h0
    rw [← hdisp, ← hDe, hl']
  have hto : (p.fly r [.turn dir a1, .straight l, .turn dir a2]).to_ = rot * exp (((dir.sign * a2 : ℝ) : ℂ) * I) := by
    simp only [Pose.fly, List.foldl_cons, List.foldl_nil, Pose.leg, Pose.on]
    rw [← hw]; rfl
  rw [hend] at hto
  have hI := iI_sq dir
  obtain ⟨_, g2⟩ := pose_angle (p := p) (dir := dir) hr0 hp hrot
  obtain ⟨_, k2⟩ := pose_angle (p := q) (dir := dir) hr0 hq hrot
  have hbe : (q.at_ - (p.circle dir r).c) / rot - ((q.circle dir r).c - (p.circle dir r).c) / rot = (q.at_ - (q.circle dir r).c) / rot := by
    field_simp; ring
  rw [hbe] at hs'
  have hal := bearing_range ((p.at_ - (p.circle dir r).c) / rot)
  have hbr := bearing_range ((q.at_ - (q.circle dir r).c) / rot)
  generalize bearing ((p.at_ - (p.circle dir r).c) / rot) = al at *
  generalize bearing ((q.at_ - (q.circle dir r).c) / rot) = be at *
  have r1 := (sweep_first (dir := dir) hal hA).1
  have r2 := (sweep_first (dir := dir) hbr hA).2
  have split_exp : ∀ x y : ℝ, exp (((x - y : ℝ) : ℂ) * I) * exp ((y : ℂ) * I) = exp ((x : ℂ) * I) := by
    intro x y; rw [← Complex.exp_add]; congr 1; push_cast; ring
  have q1 : a1 = sweep dir al A := by
    apply same_angle (dir := dir) h1 r1
    rw [sweep_exp]
    have e1 : exp ((al : ℂ) * I) ≠ 0 := Complex.exp_ne_zero _
    apply mul_right_cancel₀ e1
    rw [split_exp, hexpA]
    have e2 : (p.turned dir r a1).to_ = p.to_ * exp (((dir.sign * a1 : ℝ) : ℂ) * I) := rfl
    rw [hw, g2] at e2
    apply mul_right_cancel₀ hrot0
    linear_combination (-(dir.sign * I)) * (-1) * e2 - (exp (((dir.sign * a1 : ℝ) : ℂ) * I) * exp ((al : ℂ) * I) * rot) * hI * (-1)
  have q2 : a2 = sweep dir A be := by
    apply same_angle (dir := dir) h2 r2
    rw [sweep_exp]
    have e1 : exp ((A : ℂ) * I) ≠ 0 := Complex.exp_ne_zero _
    apply mul_right_cancel₀ e1
    rw [split_exp, hexpA]
    rw [hto] at k2
    apply mul_right_cancel₀ hrot0
    linear_combination (-(dir.sign * I)) * k2 - (exp ((be : ℂ) * I) * rot) * hI
  have m1 := snap_first_le (r := r) hr0 r1.1
  have m2 := snap_last_le (r := r) hr0 r2.1
  have hl2 : s.l2 = d := by
    obtain ⟨_, _, _, ⟨l', δ, _, hδ, _, _, e5, e6, e7⟩, _⟩ := tangents_spec hr0 (by exact_mod_cast hd0) (fun h => absurd rfl h) htan'
    rw [e6 (Or.inl rfl)] at e5
    have := abs_nonpos_iff.1 e5
    rw [e7 rfl] at this
    rw [hs']; simp only; linarith
  have c1 : counted s.l1 ≤ r * a1 := by
    rw [hs', q1]; exact (counted_le m1.1).trans m1.2
  have c3 : counted s.l3 ≤ r * a2 := by
    rw [hs', q2]; exact (counted_le m2.1).trans m2.2
  rw [ht, hl2]
  rw [hl'] at hdD
  linarith

theorem csc_same_some {b e : ℂ} {sep : ℝ} {c1 c2 c : Circle} {x : Option (List Way)} (hdir : c1.dir = c2.dir) (h : csc b e sep c1 c2 = .ok (c, x)) : x ≠ none := by
  unfold csc at h
  rw [Outcome.bind_eq_ok] at h
  obtain ⟨d, hd, h⟩ := h
  rw [Outcome.bind_eq_ok] at h
  obtain ⟨least, hl, h⟩ := h
  rcases hsh : cscShape b e c1 c2 d least with ⟨c', _ | s⟩
  · exfalso
    unfold cscShape at hsh
    by_cases hd : |(d : ℝ)| ≤ 0.01
    · simp only [if_pos hd] at hsh
      rw [if_neg (by simp)] at hsh
      simp at hsh
    · simp only [if_neg hd] at hsh
      rw [if_neg (by simp [hdir])] at hsh
      simp at hsh
  · rw [hsh] at h
    simp only at h
    rw [Outcome.bind_eq_ok] at h
    obtain ⟨ws', hw, h⟩ := h
    simp only [Outcome.ok.injEq, Prod.mk.injEq] at h
    rw [← h.2]; simp

/-- **C172.**  A route is no more than half a metre longer than any path of a turn, a straight line and a turn the same way that leads from
the place and heading to the place and heading. -/
theorem C172_same_partial {b e : ℂ} {hb he r sep : ℝ} (hr : 1 ≤ r) (hs : 0 < sep) (hD : Distinct ⟨b, toward hb⟩ ⟨e, toward he⟩ r) {y : Option (List Way)}
    (h : dubins b hb e he r sep = .ok y) : ∃ ws, y = some ws ∧ ∀ dir a1 l a2, (0 ≤ a1 ∧ a1 < 2 * Real.pi) → 0 ≤ l → (0 ≤ a2 ∧ a2 < 2 * Real.pi) →
      Pose.fly ⟨b, toward hb⟩ r [.turn dir a1, .straight l, .turn dir a2] = ⟨e, toward he⟩ →
      total ws ≤ ([Leg.turn dir a1, .straight l, .turn dir a2].map (Leg.length r)).sum + 1 / 2 := by
  obtain ⟨s1, s2, s3⟩ := dubins_spec hr hs hD h
  have hsome : ∀ dir x c, csc b e sep (beside b hb r dir) (beside e he r dir) = .ok (c, x) → x ≠ none := by
    intro dir x c hx
    have hdir : (beside b hb r dir).dir = (beside e he r dir).dir := rfl
    exact csc_same_some hdir hx
  rcases y with _ | ws
  · obtain ⟨x, hx⟩ := s3 .cw .cw
    rcases x with _ | v
    · exact absurd rfl (hsome _ _ _ hx)
    · exact absurd (Or.inl hx) (s2 rfl .cw .cw v)
  · refine ⟨ws, rfl, ?_⟩
    intro dir a1 l a2 h1 hl h2 hend
    obtain ⟨x, hx⟩ := s3 dir dir
    rcases x with _ | v
    · exact absurd rfl (hsome _ _ _ hx)
    · have k1 := (s1 ws rfl).2 dir dir v (Or.inl hx)
      have k2 := csc_same (p := ⟨b, toward hb⟩) (q := ⟨e, toward he⟩) (toward_unit hb) (toward_unit he) hr hs (hD dir dir) hx h1 hl h2 hend
      simp only [List.map_cons, List.map_nil, Leg.length, List.sum_cons, List.sum_nil]
      linarith

end Verif.Dubins
