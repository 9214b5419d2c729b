import Verif.Dubins.Ways

/-!
# Routes from pose to pose (C171, C172)
-/

namespace Verif.Dubins

open Complex

/-- A part of a path. -/
inductive Leg
  | turn (dir : Dir) (a : ℝ)
  | straight (l : ℝ)

/-- Flying it. -/
noncomputable def Pose.leg (p : Pose) (r : ℝ) : Leg → Pose
  | .turn dir a => p.turned dir r a
  | .straight l => p.on l

/-- Flying several. -/
noncomputable def Pose.fly (p : Pose) (r : ℝ) (path : List Leg) : Pose := path.foldl (fun p l => p.leg r l) p

/-- The beginnings of a leg. -/
inductive Part : Leg → Leg → Prop
  | all (l : Leg) : Part l l
  | turn (dir : Dir) {a b : ℝ} (h0 : 0 ≤ a) (h1 : a ≤ b) : Part (.turn dir a) (.turn dir b)
  | straight {a b : ℝ} (h0 : 0 ≤ a) (h1 : a ≤ b) : Part (.straight a) (.straight b)

/-- The path passes the place. -/
def Passes (p : Pose) (r : ℝ) (path : List Leg) (x : ℂ) : Prop :=
  ∃ pre leg post part, path = pre ++ leg :: post ∧ Part part leg ∧ x = ((p.fly r pre).leg r part).at_

/-- A path a vehicle of turn radius `r` can fly: a turn, a straight line and a turn, or three turns. -/
inductive Flyable : List Leg → Prop
  | straight (d1 d2 : Dir) {a1 l a2 : ℝ} (h1 : Angle a1) (hl : 0 ≤ l) (h2 : Angle a2) : Flyable [.turn d1 a1, .straight l, .turn d2 a2]
  | turns (d : Dir) {a1 a2 a3 : ℝ} (h1 : Angle a1) (h2 : Angle a2) (h3 : Angle a3) : Flyable [.turn d a1, .turn d.other a2, .turn d a3]

/-- A waypoint within a turn from nearly the place where it begins, on nearly the circle. -/
theorem near_turn {n : Pose} {dir : Dir} {r ε δ : ℝ} {t c : ℂ} (hn : ‖n.to_‖ = 1) (hr : 0 < r) (hv : t - c ≠ 0)
    (h1 : ‖(t - c) - (n.at_ - (n.circle dir r).c)‖ ≤ ε) (h2 : ‖(n.circle dir r).c - c‖ ≤ δ) (a : ℝ) :
    ‖c + r * ((t - c) / ‖t - c‖) * exp (((dir.sign * a : ℝ) : ℂ) * I) - (n.turned dir r a).at_‖ ≤ δ + 2 * ε := by
  rw [turned_at]
  have hw := circle_off (dir := dir) hn hr
  have hc : ‖c - (n.circle dir r).c‖ ≤ δ := by rw [norm_sub_rev]; exact h2
  generalize n.at_ - (n.circle dir r).c = w at *
  generalize t - c = v at *
  have hv0 : (‖v‖ : ℂ) ≠ 0 := by exact_mod_cast norm_ne_zero_iff.2 hv
  have e1 : ‖(r : ℂ) * (v / ‖v‖) - v‖ ≤ ε := by
    have : (r : ℂ) * (v / ‖v‖) - v = ((r - ‖v‖ : ℝ) : ℂ) * (v / ‖v‖) := by push_cast; field_simp
    rw [this, norm_mul, norm_div, Complex.norm_real, Complex.norm_real, norm_norm, div_self (norm_ne_zero_iff.2 hv), mul_one, ← hw, Real.norm_eq_abs]
    rw [norm_sub_rev] at h1
    exact (abs_norm_sub_norm_le w v).trans h1
  have e2 : ‖(r : ℂ) * (v / ‖v‖) - w‖ ≤ 2 * ε := by
    calc ‖(r : ℂ) * (v / ‖v‖) - w‖ = ‖((r : ℂ) * (v / ‖v‖) - v) + (v - w)‖ := by congr 1; ring
      _ ≤ ‖(r : ℂ) * (v / ‖v‖) - v‖ + ‖v - w‖ := norm_add_le _ _
      _ ≤ 2 * ε := by linarith
  calc ‖c + r * (v / ‖v‖) * exp (((dir.sign * a : ℝ) : ℂ) * I) - ((n.circle dir r).c + w * exp (((dir.sign * a : ℝ) : ℂ) * I))‖
      = ‖(c - (n.circle dir r).c) + ((r : ℂ) * (v / ‖v‖) - w) * exp (((dir.sign * a : ℝ) : ℂ) * I)‖ := by congr 1; ring
    _ ≤ ‖c - (n.circle dir r).c‖ + ‖((r : ℂ) * (v / ‖v‖) - w) * exp (((dir.sign * a : ℝ) : ℂ) * I)‖ := norm_add_le _ _
    _ ≤ δ + 2 * ε := by rw [norm_mul, exp_unit, mul_one]; linarith

/-- What a route says of a path: each waypoint is within two metres of it. -/
def Shows (p : Pose) (r : ℝ) (path : List Leg) (ws : List Way) : Prop := ∀ w ∈ ws, ∃ x, Passes p r path x ∧ ‖w.pos - x‖ ≤ 2

/-- A turn of a path, flown from the pose before it. -/
theorem shows_turn {p : Pose} {r sep len a : ℝ} {pre post : List Leg} {dir : Dir} {ws : List Way} (hu : ‖(p.fly r pre).to_‖ = 1) (hr : 0 < r) (hs : 0 < sep)
    (hl : 0 ≤ len) (ha : len = r * a) {e : ℂ} (he : ‖e - ((p.fly r pre).turned dir r a).at_‖ ≤ 2) {s c : ℂ}
    (h1 : ‖(s - c) - ((p.fly r pre).at_ - ((p.fly r pre).circle dir r).c)‖ ≤ 1 / 2) (h2 : ‖((p.fly r pre).circle dir r).c - c‖ ≤ 1) (hv : s - c ≠ 0)
    (h : turnWays s e len c r dir sep = .ok ws) : Shows p r (pre ++ .turn dir a :: post) ws := by
  obtain ⟨k, rfl, hk, -, -, -⟩ := turnWays_eq hr hs hl hv h
  intro w hw
  simp only [List.mem_append, List.mem_map, List.mem_range, List.mem_singleton] at hw
  rcases hw with ⟨j, hj, rfl⟩ | rfl
  · refine ⟨((p.fly r pre).turned dir r ((j + 1) * (sep / r))).at_, ⟨pre, _, post, .turn dir ((j + 1) * (sep / r)), rfl, .turn dir (by positivity) ?_, rfl⟩, ?_⟩
    · have : ((j : ℝ) + 1) * sep ≤ r * a := by
        rw [← ha]
        refine le_trans ?_ hk
        have : (j : ℝ) + 1 ≤ k := by exact_mod_cast hj
        exact mul_le_mul_of_nonneg_right this hs.le
      rw [← mul_div_assoc, div_le_iff₀ hr]; linarith
    · have := near_turn hu hr hv h1 h2 ((j + 1) * (sep / r))
      exact this.trans (by norm_num)
  · exact ⟨_, ⟨pre, _, post, _, rfl, .all _, rfl⟩, he⟩

theorem shows_append {p : Pose} {r : ℝ} {path : List Leg} {a b : List Way} (ha : Shows p r path a) (hb : Shows p r path b) : Shows p r path (a ++ b) := by
  intro w hw
  rcases List.mem_append.1 hw with h | h
  · exact ha w h
  · exact hb w h

theorem turns_pos {r l a : ℝ} (h : Turns r l a) (hl : 1 ≤ l) : l = r * a := by
  rcases h with h | ⟨h, _⟩
  · exact h
  · linarith

/-- How far the end of a turn that is left out is from its beginning. -/
theorem turns_left {r l a : ℝ} {n : Pose} {dir : Dir} (hn : ‖n.to_‖ = 1) (hr : 0 < r) (ha : Angle a) (h : Turns r l a) (hl : ¬ 1 ≤ l) :
    ‖(n.turned dir r a).at_ - n.at_‖ ≤ 1 + 0.005 * r := by
  have hw := circle_off (dir := dir) hn hr
  have e : (n.turned dir r a).at_ - n.at_ = (n.at_ - (n.circle dir r).c) * (exp (((dir.sign * a : ℝ) : ℂ) * I) - 1) := by rw [turned_at]; ring
  rw [e, norm_mul, hw]
  have hb : ∀ x : ℝ, exp (((dir.sign * a : ℝ) : ℂ) * I) = exp (((dir.sign * x : ℝ) : ℂ) * I) → r * ‖exp (((dir.sign * a : ℝ) : ℂ) * I) - 1‖ ≤ r * |x| := by
    intro x hx
    rw [hx]
    apply mul_le_mul_of_nonneg_left _ hr.le
    refine (norm_exp_sub_one _).trans ?_
    rw [abs_mul, dir.sign_abs, one_mul]
  rcases h with h | ⟨_, h | h⟩
  · refine (hb a rfl).trans ?_
    have ha' : -1e-9 ≤ a := ha.1
    norm_num at ha' ⊢
    rcases abs_cases a with ⟨h1, h2⟩ | ⟨h1, h2⟩ <;> rw [h1]
    · rw [← h]; linarith
    · nlinarith
  · refine (hb a rfl).trans ?_
    have := mul_le_mul_of_nonneg_left h.le hr.le
    linarith
  · refine (hb (a - 2 * Real.pi) ?_).trans ?_
    · cases dir
      · rw [show Dir.cw.sign * a = Dir.cw.sign * (a - 2 * Real.pi) + 2 * Real.pi * ((-1 : ℤ) : ℝ) by simp [Dir.sign]; ring, exp_turns]
      · rw [show Dir.ccw.sign * a = Dir.ccw.sign * (a - 2 * Real.pi) + 2 * Real.pi * ((1 : ℤ) : ℝ) by simp [Dir.sign], exp_turns]
    · have := mul_le_mul_of_nonneg_left h.le hr.le
      linarith

/-- The route of a turn, a straight line and a turn. -/
theorem csc_route {p q : Pose} {d1 d2 : Dir} {r sep : ℝ} (hp : ‖p.to_‖ = 1) (hq : ‖q.to_‖ = 1) (hr : 1 ≤ r) (hs : 0 < sep)
    (hD : 1 / 2 ≤ ‖(q.circle d2 r).c - (p.circle d1 r).c‖) {c : Circle} {x : Option (List Way)}
    (h : csc p.at_ q.at_ sep (p.circle d1 r) (q.circle d2 r) = .ok (c, x)) :
    c = p.circle d1 r ∧ ∀ ws, x = some ws → ∃ path, Flyable path ∧ (p.fly r path).to_ = q.to_ ∧ ‖(p.fly r path).at_ - q.at_‖ ≤ 1 ∧
      Shows p r path ws ∧ ∃ w, ws.getLast? = some w ∧ ‖w.pos - q.at_‖ ≤ 5 / 2 + 0.005 * r := by
  have hr0 : 0 < r := by linarith
  unfold csc at h
  rw [Outcome.bind_eq_ok] at h
  obtain ⟨d, hd, h⟩ := h
  rw [Outcome.bind_eq_ok] at h
  obtain ⟨least, hl, h⟩ := h
  have hd1 : 1 ≤ d := by
    unfold iRound toInt at hd
    split at hd
    · simp only [Outcome.ok.injEq] at hd
      rw [← hd]; unfold trunc; rw [if_pos (by linarith), Int.le_floor]; push_cast; linarith
    · simp at hd
  rcases hsh : cscShape p.at_ q.at_ (p.circle d1 r) (q.circle d2 r) d least with ⟨c', _ | s⟩
  · rw [hsh] at h
    simp only [Outcome.ok.injEq, Prod.mk.injEq] at h
    obtain ⟨rfl, rfl⟩ := h
    refine ⟨?_, by simp⟩
    have h1' : (1 : ℝ) ≤ d := by exact_mod_cast hd1
    have hdc : ¬ |(d : ℝ)| ≤ 0.01 := by rw [abs_of_pos (by linarith)]; norm_num; linarith
    unfold cscShape at hsh
    simp only [if_neg hdc] at hsh
    split at hsh
    · simp only [Prod.mk.injEq] at hsh; exact hsh.1.symm
    · simp at hsh
  · obtain ⟨rfl, a1, l, a2, hA1, hl0, hA2, t1, t2, e1, e2, L1, L2, L3, k1, k2⟩ := C171_straight hp hq hr hd hl hd1 hsh
    rw [hsh] at h
    simp only at h
    rw [Outcome.bind_eq_ok] at h
    obtain ⟨ws, hw, h⟩ := h
    simp only [Outcome.ok.injEq, Prod.mk.injEq] at h
    obtain ⟨rfl, rfl⟩ := h
    refine ⟨rfl, ?_⟩
    intro ws' hws
    simp only [Option.some.injEq] at hws
    subst hws
    unfold cscWays at hw
    rw [Outcome.bind_eq_ok] at hw
    obtain ⟨w1, hw1, hw⟩ := hw
    rw [Outcome.bind_eq_ok] at hw
    obtain ⟨w3, hw3, hw⟩ := hw
    simp only [Outcome.ok.injEq] at hw
    -- the centre of the last turn
    have hu2 : ‖((p.turned d1 r a1).on l).to_‖ = 1 := turned_unit hp d1 r a1
    have hc2 : ‖((((p.turned d1 r a1).on l).circle d2 r).c) - (q.circle d2 r).c‖ ≤ 1 := by
      rw [← turned_circle _ d2 r a2]
      refine le_of_eq_of_le ?_ e2
      simp only [Pose.circle]
      rw [e1]; congr 1; ring
    have hv : s.t2 - (q.circle d2 r).c ≠ 0 := by
      intro h0
      rw [h0, zero_sub, norm_neg, circle_off hu2 hr0] at k1
      linarith
    refine ⟨[.turn d1 a1, .straight l, .turn d2 a2], .straight d1 d2 hA1 hl0 hA2, e1, e2, ?_, ?_⟩
    · rw [← hw]
      refine shows_append ?_ ?_
      · split at hw1
        · rename_i hc
          refine shows_turn (pre := []) (post := [.straight l, .turn d2 a2]) (p := p) (r := r) hp hr0 hs (by linarith) (turns_pos L1 hc) ?_ ?_ ?_ ?_ hw1
          · simp only [Pose.fly, List.foldl_nil]; rw [t1]; simp
          · simp [Pose.fly]
          · simp [Pose.fly]
          · rw [← norm_ne_zero_iff, circle_off hp hr0]; exact hr0.ne'
        · simp only [Outcome.ok.injEq] at hw1; subst hw1; intro w hw; simp at hw
      · intro w hw
        rcases List.mem_cons.1 hw with rfl | hw
        · exact ⟨_, ⟨[.turn d1 a1], _, [.turn d2 a2], _, rfl, .all _, rfl⟩, t2.trans (by norm_num)⟩
        · refine (?_ : Shows p r [.turn d1 a1, .straight l, .turn d2 a2] w3) w hw
          split at hw3
          · rename_i hc
            refine shows_turn (pre := [.turn d1 a1, .straight l]) (post := []) (p := p) (r := r) hu2 hr0 hs (by linarith) (turns_pos L3 hc) ?_ k1 hc2 hv hw3
            have : ‖q.at_ - (((p.turned d1 r a1).on l).turned d2 r a2).at_‖ ≤ 1 := by rw [norm_sub_rev]; exact e2
            exact this.trans (by norm_num)
          · simp only [Outcome.ok.injEq] at hw3; subst hw3; intro w hw; simp at hw
    · rw [← hw]
      split at hw3
      · rename_i hc
        obtain ⟨-, -, hlast, -⟩ := C173_length hr0 hs (by linarith) hw3
        rcases hg : w3.getLast? with _ | w
        · rw [hg] at hlast; simp at hlast
        · rw [hg] at hlast
          simp only [Option.map_some, Option.some.injEq] at hlast
          refine ⟨w, ?_, ?_⟩
          · rw [List.getLast?_append, List.getLast?_cons, hg]; simp
          · rw [hlast]; simp; positivity
      · rename_i hc
        simp only [Outcome.ok.injEq] at hw3
        subst hw3
        refine ⟨⟨s.t2, s.l2⟩, by simp, ?_⟩
        have h3 := turns_left (dir := d2) hu2 hr0 hA2 L3 hc
        calc ‖s.t2 - q.at_‖ = ‖(s.t2 - ((p.turned d1 r a1).on l).at_) + -((((p.turned d1 r a1).on l).turned d2 r a2).at_ - ((p.turned d1 r a1).on l).at_) +
              ((((p.turned d1 r a1).on l).turned d2 r a2).at_ - q.at_)‖ := by congr 1; ring
          _ ≤ ‖s.t2 - ((p.turned d1 r a1).on l).at_‖ + ‖-((((p.turned d1 r a1).on l).turned d2 r a2).at_ - ((p.turned d1 r a1).on l).at_)‖ +
              ‖(((p.turned d1 r a1).on l).turned d2 r a2).at_ - q.at_‖ := norm_add₃_le
          _ ≤ 5 / 2 + 0.005 * r := by rw [norm_neg]; linarith

theorem turnWays_short {s e c : ℂ} {len r sep : ℝ} {dir : Dir} (h : len ≤ sep) :
    turnWays s e len c r dir sep = .ok [⟨e, if len < 0 then 0 else len⟩] := by
  unfold turnWays
  rw [if_neg (fun hh => absurd hh.1 (not_lt.2 h))]
  simp [Outcome.bind]

/-- A turn of a path, flown exactly. -/
theorem shows_exact {p : Pose} {r sep len a : ℝ} {pre post : List Leg} {dir : Dir} {ws : List Way} (hu : ‖(p.fly r pre).to_‖ = 1) (hr : 0 < r) (hs : 0 < sep)
    (ha : len = r * a) (h : turnWays (p.fly r pre).at_ ((p.fly r pre).turned dir r a).at_ len ((p.fly r pre).circle dir r).c r dir sep = .ok ws) :
    Shows p r (pre ++ .turn dir a :: post) ws := by
  rcases le_or_gt 0 len with hl | hl
  · refine shows_turn hu hr hs hl ha ?_ ?_ ?_ ?_ h
    · simp
    · simp
    · simp
    · rw [← norm_ne_zero_iff, circle_off hu hr]; exact hr.ne'
  · rw [turnWays_short (by linarith)] at h
    simp only [Outcome.ok.injEq] at h
    subst h
    intro w hw
    simp only [List.mem_singleton] at hw
    subst hw
    exact ⟨_, ⟨pre, _, post, _, rfl, .all _, rfl⟩, by simp [Pose.leg]⟩

theorem turnWays_last {s e c : ℂ} {len r sep : ℝ} {dir : Dir} {ws : List Way} (h : turnWays s e len c r dir sep = .ok ws) :
    ws.getLast?.map (·.pos) = some e := by
  unfold turnWays at h
  rw [Outcome.bind_eq_ok] at h
  obtain ⟨n, hn, h⟩ := h
  simp only [Outcome.ok.injEq] at h
  rw [← h]; simp

/-- The route of three turns. -/
theorem ccc_route {p q : Pose} {dir : Dir} {r sep : ℝ} (hp : ‖p.to_‖ = 1) (hq : ‖q.to_‖ = 1) (hr : 1 ≤ r) (hs : 0 < sep)
    (hD : 1 / 2 ≤ ‖(q.circle dir r).c - (p.circle dir r).c‖) {c : Circle} {x : Option (List Way)}
    (h : ccc p.at_ q.at_ sep (p.circle dir r) (q.circle dir r) = .ok (c, x)) :
    c = p.circle dir r ∧ ∀ ws, x = some ws → ∃ path, Flyable path ∧ p.fly r path = q ∧ Shows p r path ws ∧ ws.getLast?.map (·.pos) = some q.at_ := by
  have hr0 : 0 < r := by linarith
  unfold ccc at h
  split at h
  · simp only [Outcome.ok.injEq, Prod.mk.injEq] at h
    obtain ⟨rfl, rfl⟩ := h
    exact ⟨rfl, by simp⟩
  · rename_i h4
    rw [norm_sub_rev] at h4
    have hle : ‖(q.circle dir r).c - (p.circle dir r).c‖ ≤ 4 * r := not_lt.1 h4
    rcases hsh : cccShape p.at_ q.at_ (p.circle dir r) (q.circle dir r) with ⟨c', m, s⟩
    obtain ⟨rfl, a1, a2, a3, hA1, hA2, hA3, l1, l2, l3, t1, hm, t2, hc, hend⟩ := C171_turns hp hq hr0 (by norm_num; linarith) hle hsh
    rw [hsh] at h
    simp only at h
    rw [Outcome.bind_eq_ok] at h
    obtain ⟨w1, hw1, h⟩ := h
    rw [Outcome.bind_eq_ok] at h
    obtain ⟨w2, hw2, h⟩ := h
    rw [Outcome.bind_eq_ok] at h
    obtain ⟨w3, hw3, h⟩ := h
    simp only [Outcome.ok.injEq, Prod.mk.injEq] at h
    obtain ⟨rfl, rfl⟩ := h
    refine ⟨rfl, ?_⟩
    intro ws hws
    simp only [Option.some.injEq] at hws
    subst hws
    have hA2' : Angle a2 := ⟨by have := Real.pi_gt_three; norm_num; linarith [hA2.1], by norm_num; linarith [hA2.2]⟩
    refine ⟨[.turn dir a1, .turn dir.other a2, .turn dir a3], .turns dir hA1 hA2' hA3, hend, ?_, ?_⟩
    · rw [t1] at hw1 hw2
      rw [t2] at hw2 hw3
      rw [hm] at hw2
      rw [hc] at hw3
      have hq' : q.at_ = (((p.turned dir r a1).turned dir.other r a2).turned dir r a3).at_ := by rw [hend]
      have e3 : turnWays ((p.turned dir r a1).turned dir.other r a2).at_ (((p.turned dir r a1).turned dir.other r a2).turned dir r a3).at_ s.l3
          (((p.turned dir r a1).turned dir.other r a2).circle dir r).c r dir sep = .ok w3 := by rw [← hq']; exact hw3
      refine shows_append (shows_append ?_ ?_) ?_
      · exact shows_exact (pre := []) (post := [.turn dir.other a2, .turn dir a3]) hp hr0 hs l1 hw1
      · exact shows_exact (pre := [.turn dir a1]) (post := [.turn dir a3]) (turned_unit hp _ _ _) hr0 hs l2 hw2
      · exact shows_exact (pre := [.turn dir a1, .turn dir.other a2]) (post := []) (turned_unit (turned_unit hp _ _ _) _ _ _) hr0 hs l3 e3
    · have := turnWays_last hw3
      rcases hg : w3.getLast? with _ | w
      · rw [hg] at this; simp at this
      · rw [List.getLast?_append, hg]
        rw [hg] at this; simpa using this

/-! ### The choice -/

theorem better_spec {a b : Option (List Way)} {w : List Way} (h : better a b = some w) :
    (a = some w ∨ b = some w) ∧ (∀ v, a = some v → total w ≤ total v) ∧ (∀ v, b = some v → total w ≤ total v) := by
  unfold better at h
  rcases a with _ | a <;> rcases b with _ | b <;> simp only at h
  · simp at h
  · simp only [Option.some.injEq] at h; subst h; simp
  · simp only [Option.some.injEq] at h; subst h; simp
  · split at h <;> rename_i hc <;> simp only [Option.some.injEq] at h <;> subst h
    · simp only [Option.some.injEq, or_true, forall_eq', le_refl, and_true, true_and]; exact hc.le
    · simp only [Option.some.injEq, true_or, forall_eq', le_refl, true_and]; exact not_lt.1 hc

theorem better_none {a b : Option (List Way)} (h : better a b = none) : a = none ∧ b = none := by
  unfold better at h
  rcases a with _ | a <;> rcases b with _ | b <;> simp only at h
  · exact ⟨rfl, rfl⟩
  · simp at h
  · simp at h
  · split at h <;> simp at h

/-- A route from a pair of circles: a turn, a straight line and a turn, or three turns. -/
def Candidate (b e : ℂ) (sep : ℝ) (c1 c2 : Circle) (ws : List Way) : Prop :=
  csc b e sep c1 c2 = .ok (c1, some ws) ∨ (threeTurns b e c1 c2 ∧ ccc b e sep c1 c2 = .ok (c1, some ws))

/-- A pair of circles, at different places. -/
theorem pair_spec {p q : Pose} {d1 d2 : Dir} {r sep : ℝ} (hp : ‖p.to_‖ = 1) (hq : ‖q.to_‖ = 1) (hr : 1 ≤ r) (hs : 0 < sep)
    (hD : 1 / 2 ≤ ‖(q.circle d2 r).c - (p.circle d1 r).c‖) {best : Option (List Way)} {y : Circle × Option (List Way)}
    (h : pair p.at_ q.at_ sep (p.circle d1 r, best) (q.circle d2 r) = .ok y) :
    y.1 = p.circle d1 r ∧
      (∀ w, y.2 = some w → (best = some w ∨ Candidate p.at_ q.at_ sep (p.circle d1 r) (q.circle d2 r) w) ∧ (∀ v, best = some v → total w ≤ total v) ∧
        ∀ v, Candidate p.at_ q.at_ sep (p.circle d1 r) (q.circle d2 r) v → total w ≤ total v) ∧
      (y.2 = none → best = none ∧ ∀ v, ¬ Candidate p.at_ q.at_ sep (p.circle d1 r) (q.circle d2 r) v) ∧
      ∃ x, csc p.at_ q.at_ sep (p.circle d1 r) (q.circle d2 r) = .ok (p.circle d1 r, x) := by
  unfold pair at h
  rw [Outcome.bind_eq_ok] at h
  obtain ⟨⟨c, x⟩, hx, h⟩ := h
  have hc := (csc_route hp hq hr hs hD hx).1
  subst hc
  simp only at h
  have hcand : ∀ v, csc p.at_ q.at_ sep (p.circle d1 r) (q.circle d2 r) = .ok (p.circle d1 r, some v) ↔ x = some v := by
    intro v; rw [hx]; simp
  split at h
  · rename_i ht
    rw [Outcome.bind_eq_ok] at h
    obtain ⟨⟨c', z⟩, hz, h⟩ := h
    have hdd : d1 = d2 := ht.1
    subst hdd
    have hc' := (ccc_route hp hq hr hs hD hz).1
    subst hc'
    simp only [Outcome.ok.injEq] at h
    subst h
    refine ⟨rfl, ?_, ?_, _, hx⟩
    · intro w hw
      obtain ⟨h1, h2, h3⟩ := better_spec hw
      rcases hb : better best x with _ | b
      · obtain ⟨rfl, rfl⟩ := better_none hb
        rw [hb] at h1 h2
        refine ⟨Or.inr (Or.inr ⟨ht, by rw [hz]; simpa using h1⟩), by simp, ?_⟩
        rintro v (hv | ⟨_, hv⟩)
        · rw [hcand] at hv; simp at hv
        · rw [hz] at hv; simp only [Outcome.ok.injEq, Prod.mk.injEq, true_and] at hv; exact h3 v hv
      · obtain ⟨g1, g2, g3⟩ := better_spec hb
        have hwb := h2 b hb
        refine ⟨?_, fun v hv => hwb.trans (g2 v hv), ?_⟩
        · rcases h1 with h1 | h1
          · rw [hb] at h1
            simp only [Option.some.injEq] at h1
            subst h1
            rcases g1 with g1 | g1
            · exact Or.inl g1
            · exact Or.inr (Or.inl ((hcand b).2 g1))
          · exact Or.inr (Or.inr ⟨ht, by rw [hz]; simpa using h1⟩)
        · rintro v (hv | ⟨_, hv⟩)
          · exact hwb.trans (g3 v ((hcand v).1 hv))
          · rw [hz] at hv; simp only [Outcome.ok.injEq, Prod.mk.injEq, true_and] at hv; exact h3 v hv
    · intro hn
      obtain ⟨h1, h2⟩ := better_none hn
      obtain ⟨h3, h4⟩ := better_none h1
      refine ⟨h3, ?_⟩
      rintro v (hv | ⟨_, hv⟩)
      · rw [hcand, h4] at hv; simp at hv
      · rw [hz, h2] at hv; simp at hv
  · rename_i ht
    simp only [Outcome.ok.injEq] at h
    subst h
    refine ⟨rfl, ?_, ?_, _, hx⟩
    · intro w hw
      obtain ⟨h1, h2, h3⟩ := better_spec hw
      refine ⟨h1.imp id fun h1 => Or.inl ((hcand w).2 h1), h2, ?_⟩
      rintro v (hv | ⟨hv, _⟩)
      · exact h3 v ((hcand v).1 hv)
      · exact absurd hv ht
    · intro hn
      obtain ⟨h1, h2⟩ := better_none hn
      refine ⟨h1, ?_⟩
      rintro v (hv | ⟨hv, _⟩)
      · rw [hcand, h2] at hv; simp at hv
      · exact absurd hv ht

/-- No circle beside the beginning is at the place of one beside the end. -/
def Distinct (p q : Pose) (r : ℝ) : Prop := ∀ d1 d2, 1 / 2 ≤ ‖(q.circle d2 r).c - (p.circle d1 r).c‖

/-- The best of all pairs. -/
theorem dubins_spec {b e : ℂ} {hb he r sep : ℝ} (hr : 1 ≤ r) (hs : 0 < sep) (hD : Distinct ⟨b, toward hb⟩ ⟨e, toward he⟩ r) {y : Option (List Way)}
    (h : dubins b hb e he r sep = .ok y) :
    (∀ w, y = some w → (∃ d1 d2, Candidate b e sep (beside b hb r d1) (beside e he r d2) w) ∧
      ∀ d1 d2 v, Candidate b e sep (beside b hb r d1) (beside e he r d2) v → total w ≤ total v) ∧
    (y = none → ∀ d1 d2 v, ¬ Candidate b e sep (beside b hb r d1) (beside e he r d2) v) ∧
    ∀ d1 d2, ∃ x, csc b e sep (beside b hb r d1) (beside e he r d2) = .ok (beside b hb r d1, x) := by
  have hp : ‖(⟨b, toward hb⟩ : Pose).to_‖ = 1 := toward_unit hb
  have hq : ‖(⟨e, toward he⟩ : Pose).to_‖ = 1 := toward_unit he
  unfold dubins at h
  rw [Outcome.bind_eq_ok] at h
  obtain ⟨⟨c1, y1⟩, h1, h⟩ := h
  rw [Outcome.bind_eq_ok] at h
  obtain ⟨⟨c2, y2⟩, h2, h⟩ := h
  rw [Outcome.bind_eq_ok] at h
  obtain ⟨⟨c3, y3⟩, h3, h⟩ := h
  rw [Outcome.bind_eq_ok] at h
  obtain ⟨⟨c4, y4⟩, h4, h⟩ := h
  simp only [Outcome.ok.injEq] at h
  subst h
  obtain ⟨k1, s1, n1, x1⟩ := pair_spec hp hq hr hs (hD .cw .cw) h1
  simp only at k1; subst k1
  obtain ⟨k2, s2, n2, x2⟩ := pair_spec hp hq hr hs (hD .cw .ccw) h2
  simp only at k2; subst k2
  obtain ⟨k3, s3, n3, x3⟩ := pair_spec hp hq hr hs (hD .ccw .cw) h3
  simp only at k3; subst k3
  obtain ⟨k4, s4, n4, x4⟩ := pair_spec hp hq hr hs (hD .ccw .ccw) h4
  simp only at s1 n1 s2 n2 s3 n3 s4 n4
  -- the best so far
  have m1 : (∀ w, y1 = some w → (∃ d1 d2, Candidate b e sep (beside b hb r d1) (beside e he r d2) w) ∧
      ∀ v, Candidate b e sep (beside b hb r .cw) (beside e he r .cw) v → total w ≤ total v) := by
    intro w hw
    obtain ⟨i, _, j⟩ := s1 w hw
    exact ⟨⟨_, _, i.resolve_left (by simp)⟩, j⟩
  have m2 : (∀ w, y2 = some w → (∃ d1 d2, Candidate b e sep (beside b hb r d1) (beside e he r d2) w) ∧
      ∀ d2 v, Candidate b e sep (beside b hb r .cw) (beside e he r d2) v → total w ≤ total v) := by
    intro w hw
    obtain ⟨i, k, j⟩ := s2 w hw
    refine ⟨i.elim (fun i => (m1 w i).1) fun i => ⟨_, _, i⟩, ?_⟩
    rintro (_ | _) v hv
    · rcases hy : y1 with _ | u
      · exact absurd hv ((n1 hy).2 v)
      · exact (k u hy).trans ((m1 u hy).2 v hv)
    · exact j v hv
  have z2 : y2 = none → ∀ d2 v, ¬ Candidate b e sep (beside b hb r .cw) (beside e he r d2) v := by
    rintro hy (_ | _) v
    · exact (n1 (n2 hy).1).2 v
    · exact (n2 hy).2 v
  have m3 : (∀ w, y3 = some w → (∃ d1 d2, Candidate b e sep (beside b hb r d1) (beside e he r d2) w) ∧
      (∀ d2 v, Candidate b e sep (beside b hb r .cw) (beside e he r d2) v → total w ≤ total v) ∧
      ∀ v, Candidate b e sep (beside b hb r .ccw) (beside e he r .cw) v → total w ≤ total v) := by
    intro w hw
    obtain ⟨i, k, j⟩ := s3 w hw
    refine ⟨i.elim (fun i => (m2 w i).1) fun i => ⟨_, _, i⟩, ?_, j⟩
    intro d2 v hv
    rcases hy : y2 with _ | u
    · exact absurd hv (z2 hy d2 v)
    · exact (k u hy).trans ((m2 u hy).2 d2 v hv)
  refine ⟨?_, ?_, ?_⟩
  · intro w hw
    obtain ⟨i, k, j⟩ := s4 w hw
    refine ⟨i.elim (fun i => (m3 w i).1) fun i => ⟨_, _, i⟩, ?_⟩
    rintro (_ | _) d2 v hv
    · rcases hy : y3 with _ | u
      · exact absurd hv (z2 (n3 hy).1 d2 v)
      · exact (k u hy).trans ((m3 u hy).2.1 d2 v hv)
    · rcases d2 with _ | _
      · rcases hy : y3 with _ | u
        · exact absurd hv ((n3 hy).2 v)
        · exact (k u hy).trans ((m3 u hy).2.2 v hv)
      · exact j v hv
  · rintro hy (_ | _) d2 v
    · exact z2 (n3 (n4 hy).1).1 d2 v
    · rcases d2 with _ | _
      · exact (n3 (n4 hy).1).2 v
      · exact (n4 hy).2 v
  · rintro (_ | _) (_ | _)
    · exact x1
    · exact x2
    · exact x3
    · exact x4

/-- **C171.**  A route from a place and heading to a place and heading shows a path that a vehicle with the turn radius can fly: it begins
there, ends with the heading within a metre of the place, and each waypoint is within two metres of it; the last waypoint is the place, up
to 2.5 metres and a 200th of the radius. -/
theorem C171_route_partial {b e : ℂ} {hb he r sep : ℝ} (hr : 1 ≤ r) (hs : 0 < sep) (hD : Distinct ⟨b, toward hb⟩ ⟨e, toward he⟩ r) {ws : List Way}
    (h : dubins b hb e he r sep = .ok (some ws)) :
    ∃ path, Flyable path ∧ (Pose.fly ⟨b, toward hb⟩ r path).to_ = toward he ∧ ‖(Pose.fly ⟨b, toward hb⟩ r path).at_ - e‖ ≤ 1 ∧
      Shows ⟨b, toward hb⟩ r path ws ∧ ∃ w, ws.getLast? = some w ∧ ‖w.pos - e‖ ≤ 5 / 2 + 0.005 * r := by
  obtain ⟨⟨d1, d2, hc⟩, _⟩ := (dubins_spec hr hs hD h).1 ws rfl
  rcases hc with hc | ⟨ht, hc⟩
  · exact (csc_route (p := ⟨b, toward hb⟩) (q := ⟨e, toward he⟩) (toward_unit hb) (toward_unit he) hr hs (hD d1 d2) hc).2 ws rfl
  · have hdd : d1 = d2 := ht.1
    subst hdd
    obtain ⟨path, hf, hend, hsh, hl⟩ := (ccc_route (p := ⟨b, toward hb⟩) (q := ⟨e, toward he⟩) (toward_unit hb) (toward_unit he) hr hs (hD d1 d1) hc).2 ws rfl
    refine ⟨path, hf, by rw [hend], by rw [hend]; simp, hsh, ?_⟩
    rcases hg : ws.getLast? with _ | w
    · rw [hg] at hl; simp at hl
    · rw [hg] at hl
      simp only [Option.map_some, Option.some.injEq] at hl
      exact ⟨w, rfl, by rw [hl]; simp; positivity⟩

end Verif.Dubins
