import Verif.Steering.Route

/-!
# C132, continued: where following the waypoints fails

A first waypoint to which nothing leads; waypoints that are accepted from a distance.
-/

namespace Verif.Steering

open Real

/-- What is reported for a state is the current waypoint. -/
theorem reported_own (cfg : Config) (t0 : ℤ) (l0 : Bool) (hist : List (ℤ × Msg)) (now : ℤ) {st : AvState}
    (hst : st.id = cfg.vehicle) : ∃ outs, sent cfg t0 l0 (hist ++ [(now, .state st)]) = sent cfg t0 l0 hist ++ [outs] ∧
      reported outs = [(after cfg t0 l0 (hist ++ [(now, .state st)])).nav.cur] := by
  have h := C132_report cfg t0 l0 hist (now, .state st)
  have ho : ownState cfg.vehicle (Msg.state st) = some st := by simp [ownState, hst]
  simp only [ho] at h
  obtain ⟨d, k, tasks, h1, _, h3, h4, _⟩ := h
  exact ⟨_, h1, by rw [reported_report h3]; simp only [h4]⟩

theorem first_after {cfg : Config} {t0 : ℤ} {l0 : Bool} {hist later : List (ℤ × Msg)} {i : ℤ × Msg} {m : Mission} {w : Wp}
    (hm : newMission cfg.vehicle i.2 = some m) (hq : Quiet cfg.vehicle later) (hw : m.find m.first = some w)
    (hl : w.loiter = none) (hno : ∀ u ∈ m.wps, u.next ≠ m.first) (hs : cfg.acceptTime = 0 ∨ w.turnShort = false)
    (hfar : ∀ j ∈ later, ∀ st, ownState cfg.vehicle j.2 = some st →
      1 < (toNE st.loc w.loc).1 ^ 2 + (toNE st.loc w.loc).2 ^ 2) :
    (after cfg t0 l0 (hist ++ i :: later)).nav.cur = m.first ∧ (after cfg t0 l0 (hist ++ i :: later)).nav.prev = none := by
  induction later using List.reverseRecOn with
  | nil =>
    have ho : ownState (after cfg t0 l0 hist).cfg.vehicle i.2 = none := by
      rcases i with ⟨now, i⟩
      cases i <;> simp [newMission] at hm <;> rfl
    have h1 := step_other ho
    rw [after_cfg, hm] at h1
    rw [(after_snoc cfg t0 l0 hist i).1, h1.2]
    refine ⟨rfl, ?_⟩
    simp only [S.assign, S.reset, Option.map_eq_none_iff, List.find?_eq_none]
    intro u hu
    simpa using hno u hu
  | append_singleton later j ih =>
    have hq' : Quiet cfg.vehicle later := fun k hk => hq k (List.mem_append_left _ hk)
    obtain ⟨h1, h2⟩ := ih hq' fun k hk => hfar k (List.mem_append_left _ hk)
    have hon := (on_after (t0 := t0) (l0 := l0) (hist := hist) hm hq').1
    rw [show hist ++ i :: (later ++ [j]) = (hist ++ i :: later) ++ [j] from by simp, (after_snoc cfg t0 l0 _ j).1]
    have hc := after_cfg cfg t0 l0 (hist ++ i :: later)
    generalize after cfg t0 l0 (hist ++ i :: later) = s at *
    cases ho : ownState s.cfg.vehicle j.2 with
    | none =>
      have := step_other ho
      rw [hc, hq j (by simp)] at this
      rw [this.2.2]; exact ⟨h1, h2⟩
    | some st =>
      rw [(step_own ho).1]
      obtain ⟨n, q, v, k1, k2⟩ := observe_spec hon.mission (w := w) (by rw [h1]; exact hw) j.1 st
      rw [k1]
      show n.cur = m.first ∧ n.prev = none
      rcases k2 with ⟨_, rfl, _, _⟩ | ⟨_, acc, t, q0, hwalk, hend⟩
      · exact ⟨h1, h2⟩
      have hf := hfar j (by simp) st (by rw [← hc]; exact ho)
      have hpt : (env s m j.1 st).pt w = toNE st.loc w.loc := by simp only [Env.pt, target_of_none hl]; rfl
      have hnr : ¬Reached (env s m j.1 st) s.nav.start (legStart s st) w := by
        unfold Reached
        rw [hl]
        simp only [hpt, legStart, h2]
        rintro (h | h | ⟨h, h', _⟩)
        · nlinarith
        · nlinarith
        · simp only [env, hc] at h
          rcases hs with hs | hs
          · omega
          · rw [hs] at h'; cases h'
      cases hwalk with
      | on hr _ _ _ => exact absurd hr hnr
      | here =>
        rcases hend.how with ⟨a, b, c, d⟩ | ⟨_, b, _⟩ | ⟨_, b, _⟩
        · exact ⟨by rw [hend.cur]; exact find_number hw, by rw [d]; simpa using h2⟩
        · exact absurd b hnr
        · exact absurd b hnr

/-- **C132.**  If no waypoint leads to the first one, it is left only when some state of the vehicle is within a metre of it
(or within the configured distance, if it allows that): flying past it is not enough. -/
theorem C132_first {cfg : Config} {t0 : ℤ} {l0 : Bool} {hist later : List (ℤ × Msg)} {i : ℤ × Msg} {m : Mission} {w : Wp}
    (hm : newMission cfg.vehicle i.2 = some m) (hq : Quiet cfg.vehicle later) (hw : m.find m.first = some w)
    (hl : w.loiter = none) (hno : ∀ u ∈ m.wps, u.next ≠ m.first) (hs : cfg.acceptTime = 0 ∨ w.turnShort = false)
    (now : ℤ) (st : AvState) (hst : st.id = cfg.vehicle)
    (hfar : ∀ j ∈ later ++ [(now, Msg.state st)], ∀ st, ownState cfg.vehicle j.2 = some st →
      1 < (toNE st.loc w.loc).1 ^ 2 + (toNE st.loc w.loc).2 ^ 2) :
    ∃ outs, sent cfg t0 l0 (hist ++ i :: later ++ [(now, .state st)]) = sent cfg t0 l0 (hist ++ i :: later) ++ [outs] ∧
      reported outs = [m.first] := by
  have hq' : Quiet cfg.vehicle (later ++ [(now, Msg.state st)]) := by
    intro j hj
    rcases List.mem_append.mp hj with hj | hj
    · exact hq j hj
    · rw [List.mem_singleton] at hj; subst hj; rfl
  have h := (first_after (t0 := t0) (l0 := l0) (hist := hist) hm hq' hw hl hno hs hfar).1
  obtain ⟨outs, h1, h2⟩ := reported_own cfg t0 l0 (hist ++ i :: later) now hst
  refine ⟨outs, h1, ?_⟩
  rw [h2, show hist ++ i :: later ++ [(now, Msg.state st)] = hist ++ i :: (later ++ [(now, Msg.state st)]) from by simp, h]

/-! ## Concrete routes -/

/-- A degree of latitude is at least 110 km, wherever the vehicle is. -/
theorem toNE_north (o : Loc) : ∃ M : ℝ, 110000 ≤ M ∧ ∀ p : Loc, (toNE o p).1 = M * (p.lat - o.lat) := by
  refine ⟨Earth.quot (Earth.radiusEquatorial * (1 - Earth.ecc2))
    (Earth.flat (Earth.Angle.deg.toRad o.lat) ^ ((3 : ℝ) / 2)) * Earth.degToRad, ?_, fun p => ?_⟩
  · have h0 : 0 < Earth.flat (Earth.Angle.deg.toRad o.lat) := by rw [Earth.flat_eq]; exact Earth.under_pos _
    have h1 : Earth.flat (Earth.Angle.deg.toRad o.lat) ≤ 1 := by
      rw [Earth.flat_eq]
      unfold Earth.under Earth.ecc2
      have := mul_self_nonneg (sin (Earth.Angle.deg.toRad o.lat))
      nlinarith
    have h2 := Real.rpow_le_one h0.le h1 (show (0 : ℝ) ≤ 3 / 2 by norm_num)
    have h3 := Real.rpow_pos_of_pos h0 ((3 : ℝ) / 2)
    have h4 : Earth.radiusEquatorial * (1 - Earth.ecc2) ≤ Earth.quot (Earth.radiusEquatorial * (1 - Earth.ecc2))
        (Earth.flat (Earth.Angle.deg.toRad o.lat) ^ ((3 : ℝ) / 2)) := by
      unfold Earth.quot
      rw [if_neg (not_le.mpr h3), le_div_iff₀ h3]
      have : 0 ≤ Earth.radiusEquatorial * (1 - Earth.ecc2) := by unfold Earth.radiusEquatorial Earth.ecc2; norm_num
      nlinarith
    have h5 : (0 : ℝ) ≤ Earth.degToRad := by unfold Earth.degToRad; norm_num
    refine le_trans ?_ (mul_le_mul_of_nonneg_right h4 h5)
    unfold Earth.radiusEquatorial Earth.ecc2 Earth.degToRad; norm_num
  · simp only [toNE, Earth.Angle.toRad]; ring

/-- Legs that change the latitude by a hundred-thousandth of a degree are long enough for `C132_patrol`, wherever the vehicle
is. -/
theorem longLegs_of_lat {m : Mission} (h : ∀ u ∈ m.wps, ∀ w, m.find u.next = some w →
    1 / 100000 ≤ |u.loc.lat - w.loc.lat|) (o : Loc) : LongLegs m o := by
  intro u hu w hw
  obtain ⟨M, h1, h2⟩ := toNE_north o
  rw [h2, h2]
  have h3 := h u hu w hw
  have h4 : 1 < |M * (u.loc.lat - w.loc.lat)| := by
    rw [abs_mul, abs_of_pos (by linarith)]
    nlinarith [abs_nonneg (u.loc.lat - w.loc.lat)]
  have h5 : 1 < (M * (u.loc.lat - w.loc.lat)) ^ 2 := by
    rw [← sq_abs]; nlinarith
  have h6 := sq_nonneg ((toNE o u.loc).2 - (toNE o w.loc).2)
  have h7 : M * (u.loc.lat - o.lat) - M * (w.loc.lat - o.lat) = M * (u.loc.lat - w.loc.lat) := by ring
  rw [h7]
  linarith

theorem toNE_zero (p : Loc) : toNE ⟨0, 0⟩ p =
    (Earth.radiusEquatorial * (1 - Earth.ecc2) * (p.lat * Earth.degToRad), Earth.radiusEquatorial * (p.lon * Earth.degToRad)) := by
  have h : Earth.flat 0 = 1 := by simp [Earth.flat]
  simp [toNE, Earth.Angle.toRad, h, Earth.quot]

/-- A waypoint for examples. -/
noncomputable def exWp (number next : ℤ) (lat lon : ℝ) (short : Bool) : Wp :=
  { number := number, next := next, loc := ⟨lat, lon⟩, altitude := 100, altType := 0, speed := 30, speedType := .airspeed,
    climb := 0, turnShort := short, actions := [], tasks := [number] }

theorem exWp_loiter (number next : ℤ) (lat lon : ℝ) (short : Bool) : (exWp number next lat lon short).loiter = none := rfl

/-- Three waypoints, each about 100 m from the next, that are to be flown round and round. -/
noncomputable def exRound (short : Bool) : Mission :=
  { vehicle := 1, first := 1, wps := [exWp 1 2 0 0 short, exWp 2 3 (1 / 1000) 0 short, exWp 3 1 0 (1 / 1000) short] }

theorem exRound_find (short : Bool) : (exRound short).find 1 = some (exWp 1 2 0 0 short) ∧
    (exRound short).find 2 = some (exWp 2 3 (1 / 1000) 0 short) ∧
    (exRound short).find 3 = some (exWp 3 1 0 (1 / 1000) short) := by
  refine ⟨?_, ?_, ?_⟩ <;> simp [Mission.find, exRound, exWp]

theorem exRound_patrol (short : Bool) : Patrol (exRound short) := by
  obtain ⟨h1, h2, h3⟩ := exRound_find short
  refine ⟨by rw [show (exRound short).first = 1 from rfl, h1]; rfl, ?_⟩
  intro w hw
  simp only [exRound, List.mem_cons, List.not_mem_nil, or_false] at hw
  rcases hw with rfl | rfl | rfl
  · exact ⟨rfl, by simp [exWp], by rw [show (exWp 1 2 0 0 short).next = 2 from rfl, h2]; rfl⟩
  · exact ⟨rfl, by simp [exWp], by rw [show (exWp 2 3 (1 / 1000) 0 short).next = 3 from rfl, h3]; rfl⟩
  · exact ⟨rfl, by simp [exWp], by rw [show (exWp 3 1 0 (1 / 1000) short).next = 1 from rfl, h1]; rfl⟩

/-- Legs of more than 100 m. -/
theorem exRound_legs (short : Bool) : ∀ u ∈ (exRound short).wps, ∀ w, (exRound short).find u.next = some w →
    100 ^ 2 < ((toNE ⟨0, 0⟩ u.loc).1 - (toNE ⟨0, 0⟩ w.loc).1) ^ 2 + ((toNE ⟨0, 0⟩ u.loc).2 - (toNE ⟨0, 0⟩ w.loc).2) ^ 2 := by
  obtain ⟨h1, h2, h3⟩ := exRound_find short
  intro u hu w hw
  simp only [exRound, List.mem_cons, List.not_mem_nil, or_false] at hu
  rcases hu with rfl | rfl | rfl
  · rw [show (exWp 1 2 0 0 short).next = 2 from rfl, h2] at hw
    cases hw
    simp only [exWp, toNE_zero, Earth.radiusEquatorial, Earth.ecc2, Earth.degToRad]; norm_num
  · rw [show (exWp 2 3 (1 / 1000) 0 short).next = 3 from rfl, h3] at hw
    cases hw
    simp only [exWp, toNE_zero, Earth.radiusEquatorial, Earth.ecc2, Earth.degToRad]; norm_num
  · rw [show (exWp 3 1 0 (1 / 1000) short).next = 1 from rfl, h1] at hw
    cases hw
    simp only [exWp, toNE_zero, Earth.radiusEquatorial, Earth.ecc2, Earth.degToRad]; norm_num

/-- A configuration for examples: waypoints that allow it are accepted ten seconds before arrival. -/
noncomputable def exCfg (time : ℕ) : Config := configure 1 { acceptTime := some time }

/-- A state of vehicle 1. -/
noncomputable def exState (lat lon : ℝ) : AvState := { id := 1, loc := ⟨lat, lon⟩, current := 0, tasks := [], rest := 0 }

/-- The messages up to the first state, at the first waypoint: a speed of 30 m/s, the mission, the state. -/
noncomputable def exHist : List (ℤ × Msg) := [(0, .config 1 30 30), (0, .mission (exRound true)), (1, .state (exState 0 0))]

theorem exHist_last (t0 : ℤ) (l0 : Bool) : (after (exCfg 10000) t0 l0 exHist).nav.cur = 1 ∧
    (after (exCfg 10000) t0 l0 exHist).nav.isLast = true := by
  obtain ⟨h1, h2, h3⟩ := exRound_find true
  have hv : (exCfg 10000).vehicle = 1 := rfl
  have hs : ∃ s : S, after (exCfg 10000) t0 l0 [(0, .config 1 30 30), (0, .mission (exRound true))] = s ∧
      s.cfg = exCfg 10000 ∧ s.acceptDist = 300 ∧ s.mission = some (exRound true) ∧ s.nav.cur = 1 ∧ s.nav.isLast = false := by
    refine ⟨_, rfl, after_cfg _ _ _ _, ?_⟩
    simp only [after, runM, step, S.init, hv, if_true, S.configured, show (exRound true).vehicle = 1 from rfl, S.assign,
      S.reset, show (exRound true).first = 1 from rfl]
    refine ⟨?_, trivial, trivial, rfl⟩
    refine (if_pos (show (exCfg 10000).acceptTime > 0 from Nat.zero_lt_succ _)).trans ?_
    show ((10000 : ℕ) : ℝ) / 1000 * 30 = 300
    norm_num
  obtain ⟨s, e, k1, k2, k3, k4, k5⟩ := hs
  have hreach : ∀ (t : ℤ) (p : Pt) (w : Wp), w ∈ (exRound true).wps → Reached (env s (exRound true) 1 (exState 0 0)) t p w := by
    intro t p w hw
    have hwl : w.loiter = none := ((exRound_patrol true).goesOn w hw).1
    have hpt : (env s (exRound true) 1 (exState 0 0)).pt w = toNE ⟨0, 0⟩ w.loc := by
      simp only [Env.pt, target_of_none hwl]; rfl
    unfold Reached
    rw [hwl]
    refine .inr (.inr ⟨?_, ?_, ?_, ?_⟩)
    · simp only [env, k1]; exact Nat.zero_lt_succ _
    · simp only [exRound, List.mem_cons, List.not_mem_nil, or_false] at hw
      rcases hw with rfl | rfl | rfl <;> rfl
    · simp only [env, k2]; norm_num
    · rw [hpt]
      simp only [exRound, List.mem_cons, List.not_mem_nil, or_false] at hw
      simp only [env, k2, toNE_zero, Earth.radiusEquatorial, Earth.ecc2, Earth.degToRad]
      rcases hw with rfl | rfl | rfl <;> simp only [exWp] <;> norm_num
  rw [show exHist = [(0, .config 1 30 30), (0, .mission (exRound true))] ++ [(1, .state (exState 0 0))] from rfl,
    (after_snoc _ _ _ _ _).1, e, (step_own (st := exState 0 0) (by rw [k1, hv]; rfl)).1,
    observe_some k3 (w := exWp 1 2 0 0 true) (by rw [k4]; exact h1)]
  have hloop : ∃ n q w, loop (env s (exRound true) 1 (exState 0 0)) ((exRound true).wps.length + 2) [] s.nav
      (legStart s (exState 0 0)) (exWp 1 2 0 0 true) = some (n, q, w) ∧ n.cur = 1 ∧ n.isLast = true := by
    have b1 := fun t p => hreach t p (exWp 1 2 0 0 true) (by simp [exRound])
    have b2 := fun t p => hreach t p (exWp 2 3 (1 / 1000) 0 true) (by simp [exRound])
    have b3 := fun t p => hreach t p (exWp 3 1 0 (1 / 1000) true) (by simp [exRound])
    rw [show (exRound true).wps.length + 2 = 5 from rfl]
    rw [(loop_succ _ 4 [] s.nav _ _).2.2.1 k5 (b1 _ _) (by simp) (exWp 2 3 (1 / 1000) 0 true) h2 (by rw [k4]; simp [exWp])]
    rw [(loop_succ _ 3 _ _ _ _).2.2.1 rfl (b2 _ _) (by simp [k4, exWp]) (exWp 3 1 0 (1 / 1000) true) h3 (by simp [exWp])]
    rw [(loop_succ _ 2 _ _ _ _).2.2.1 rfl (b3 _ _) (by simp [k4, exWp]) (exWp 1 2 0 0 true) h1 (by simp [exWp])]
    rw [(loop_succ _ 1 _ _ _ _).2.1 rfl (b1 _ _) (by simp [k4, exWp])]
    exact ⟨_, _, _, rfl, rfl, rfl⟩
  obtain ⟨n, q, w, h4, h5, h6⟩ := hloop
  rw [h4]
  exact ⟨h5, h6⟩

/-- **C132 is violated** when waypoints are accepted from a distance: a route of three waypoints with legs of more than
100 m, to be flown round and round, is given up at once.  With an acceptance time of ten seconds at 30 m/s all three count
as reached from the first; from then on the service takes the first waypoint for the end of the route and reports it for
ever. -/
theorem C132_patrol_violated (t0 : ℤ) (l0 : Bool) : Patrol (exRound true) ∧
    (∀ u ∈ (exRound true).wps, ∀ w, (exRound true).find u.next = some w →
      100 ^ 2 < ((toNE ⟨0, 0⟩ u.loc).1 - (toNE ⟨0, 0⟩ w.loc).1) ^ 2 + ((toNE ⟨0, 0⟩ u.loc).2 - (toNE ⟨0, 0⟩ w.loc).2) ^ 2) ∧
    ∀ (later : List (ℤ × Msg)) (now : ℤ) (st : AvState), Quiet 1 later → st.id = 1 →
      ∃ outs, sent (exCfg 10000) t0 l0 (exHist ++ later ++ [(now, .state st)]) =
        sent (exCfg 10000) t0 l0 (exHist ++ later) ++ [outs] ∧ reported outs = [1] := by
  refine ⟨exRound_patrol _, exRound_legs _, fun later now st hq hst => ?_⟩
  obtain ⟨outs, h1, h2⟩ := reported_own (exCfg 10000) t0 l0 (exHist ++ later) now hst
  refine ⟨outs, h1, ?_⟩
  have hq' : Quiet (exCfg 10000).vehicle (later ++ [(now, Msg.state st)]) := by
    intro j hj
    rcases List.mem_append.mp hj with hj | hj
    · exact hq j hj
    · rw [List.mem_singleton] at hj; subst hj; rfl
  obtain ⟨k1, k2⟩ := exHist_last t0 l0
  rw [h2, List.append_assoc, last_after k2 hq', k1]

/-- The hypotheses of `C132_patrol` hold for the same route if nothing is accepted from a distance. -/
example (t0 : ℤ) (l0 : Bool) : ∃ d st' v,
    sent (exCfg 0) t0 l0 ([] ++ (0, .mission (exRound false)) :: [] ++ [(1, .state (exState 0 0))]) =
      sent (exCfg 0) t0 l0 ([] ++ (0, .mission (exRound false)) :: []) ++ [d ++ [.report st']] ∧ (∀ o ∈ d, ∀ x, o ≠ .report x) ∧
    st'.current = v.number ∧ v ∈ (exRound false).wps ∧
    ((∃ u ∈ (exRound false).wps, u.next = v.number ∧ Ahead (exState 0 0).loc u v) ∨
      (v.number = (exRound false).first ∧ (∀ u ∈ (exRound false).wps, u.next ≠ (exRound false).first) ∧
        1 < (toNE (exState 0 0).loc v.loc).1 ^ 2 + (toNE (exState 0 0).loc v.loc).2 ^ 2)) := by
  refine C132_patrol (cfg := exCfg 0) (i := (0, .mission (exRound false))) rfl (fun j hj => by simp at hj)
    (exRound_patrol _) (.inl rfl) 1 (exState 0 0) rfl fun j hj st hst => ?_
  simp only [List.nil_append, List.mem_singleton] at hj
  subst hj
  obtain ⟨h, _⟩ := ownState_some hst
  cases h
  intro u hu w hw
  have := exRound_legs false u hu w hw
  exact lt_trans (by norm_num) this

/-- Two waypoints, the second being the end. -/
noncomputable def exLine : Mission := { vehicle := 1, first := 1, wps := [exWp 1 2 0 0 false, exWp 2 2 (1 / 10) 0 false] }

/-- **C132 is violated** at the first waypoint: the vehicle comes from the south, flies north exactly over the first waypoint
towards the second, is a kilometre past the first, and the first is still the waypoint to go to, because no state was
within a metre of it. -/
theorem C132_passed_violated (t0 : ℤ) (l0 : Bool) :
    ∃ outs1 outs2 outs3, sent (exCfg 0) t0 l0 [(0, .mission exLine), (1, .state (exState (-1 / 10000) 0)),
      (2, .state (exState (1 / 10000) 0)), (60, .state (exState (1 / 100) 0))] = [[], outs1, outs2, outs3] ∧
    reported outs1 = [1] ∧ reported outs2 = [1] ∧ reported outs3 = [1] := by
  have hw : exLine.find exLine.first = some (exWp 1 2 0 0 false) := by simp [Mission.find, exLine, exWp]
  have hno : ∀ u ∈ exLine.wps, u.next ≠ exLine.first := by
    intro u hu
    simp only [exLine, List.mem_cons, List.not_mem_nil, or_false] at hu
    rcases hu with rfl | rfl <;> simp [exWp, exLine]
  have hfar : ∀ lat : ℝ, 1 / 10000 ≤ |lat| → 1 < (toNE ⟨lat, 0⟩ (exWp 1 2 0 0 false).loc).1 ^ 2 +
      (toNE ⟨lat, 0⟩ (exWp 1 2 0 0 false).loc).2 ^ 2 := by
    intro lat hlat
    obtain ⟨M, h1, h2⟩ := toNE_north ⟨lat, 0⟩
    have h4 : 1 < |M * (0 - lat)| := by
      rw [abs_mul, abs_of_pos (by linarith), zero_sub, abs_neg]
      nlinarith [abs_nonneg lat]
    have h5 : 1 < (M * (0 - lat)) ^ 2 := by rw [← sq_abs]; nlinarith
    have h6 := sq_nonneg (toNE ⟨lat, 0⟩ (exWp 1 2 0 0 false).loc).2
    rw [h2]
    show 1 < (M * (0 - lat)) ^ 2 + _
    linarith
  have key : ∀ (later : List (ℤ × Msg)) (now : ℤ) (lat : ℝ), Quiet 1 later →
      (∀ j ∈ later ++ [(now, Msg.state (exState lat 0))], ∃ lat, j.2 = Msg.state (exState lat 0) ∧ 1 / 10000 ≤ |lat|) →
      ∃ outs, sent (exCfg 0) t0 l0 ((0, .mission exLine) :: later ++ [(now, .state (exState lat 0))]) =
        sent (exCfg 0) t0 l0 ((0, .mission exLine) :: later) ++ [outs] ∧ reported outs = [1] := by
    intro later now lat hq hj
    refine C132_first (cfg := exCfg 0) (hist := []) (i := (0, .mission exLine)) rfl hq hw rfl hno (.inl rfl) now
      (exState lat 0) rfl fun j hjm st hst => ?_
    obtain ⟨lat', h1, h2⟩ := hj j hjm
    obtain ⟨h3, _⟩ := ownState_some hst
    rw [h1] at h3
    cases h3
    exact hfar lat' h2
  obtain ⟨o1, a1, b1⟩ := key [] 1 (-1 / 10000) (by simp) (by
    intro j hj
    simp only [List.nil_append, List.mem_singleton] at hj
    exact ⟨-1 / 10000, by rw [hj], by norm_num⟩)
  obtain ⟨o2, a2, b2⟩ := key [(1, .state (exState (-1 / 10000) 0))] 2 (1 / 10000) (by
      intro j hj; simp only [List.mem_singleton] at hj; rw [hj]; rfl) (by
    intro j hj
    simp only [List.mem_cons, List.cons_append, List.nil_append, List.not_mem_nil, or_false] at hj
    rcases hj with rfl | rfl
    · exact ⟨-1 / 10000, rfl, by norm_num⟩
    · exact ⟨1 / 10000, rfl, by norm_num⟩)
  obtain ⟨o3, a3, b3⟩ := key [(1, .state (exState (-1 / 10000) 0)), (2, .state (exState (1 / 10000) 0))] 60 (1 / 100) (by
      intro j hj
      simp only [List.mem_cons, List.not_mem_nil, or_false] at hj
      rcases hj with rfl | rfl <;> rfl) (by
    intro j hj
    simp only [List.mem_cons, List.cons_append, List.nil_append, List.not_mem_nil, or_false] at hj
    rcases hj with rfl | rfl | rfl
    · exact ⟨-1 / 10000, rfl, by norm_num⟩
    · exact ⟨1 / 10000, rfl, by norm_num⟩
    · exact ⟨1 / 100, rfl, by norm_num [abs_of_pos]⟩)
  refine ⟨o1, o2, o3, ?_, b1, b2, b3⟩
  simp only [List.cons_append, List.nil_append] at a1 a2 a3
  rw [a3, a2, a1]
  rfl

end Verif.Steering
