import Verif.Steering.Command

/-!
# C132-C134: concrete cases, and where commands are wrong
-/

namespace Verif.Steering

open Real

/-! ## The operating region -/

/-- Configured to send safe-heading commands. -/
noncomputable def exSafe : Config := configure 1 { safe := some true }

/-- A request for region 5 is answered and its mission flown; then a sandbox request is answered. -/
noncomputable def exSandbox : List (ℤ × Msg) :=
  [(0, Msg.request 10 false (some 5)), (0, Msg.uniqueResponse 10 (some [exLine])), (0, Msg.response [exLine]),
   (1, Msg.state (exState (-1 / 100) 0)), (2, Msg.request 11 true (some 7)), (2, Msg.uniqueResponse 11 (some [exRound false]))]

theorem exLine_far {later : List (ℤ × Msg)} (h : ∀ j ∈ later, ∀ st, ownState 1 j.2 = some st → st.loc = ⟨-1 / 100, 0⟩) :
    ∀ j ∈ later, ∀ st, ownState exSafe.vehicle j.2 = some st →
      1 < (toNE st.loc (exWp 1 2 0 0 false).loc).1 ^ 2 + (toNE st.loc (exWp 1 2 0 0 false).loc).2 ^ 2 := by
  intro j hj st hst
  rw [h j hj st hst]
  obtain ⟨M, h1, h2⟩ := toNE_north ⟨-1 / 100, 0⟩
  have h6 := sq_nonneg (toNE ⟨-1 / 100, 0⟩ (exWp 1 2 0 0 false).loc).2
  rw [h2]
  have : (1 : ℝ) < (M * ((exWp 1 2 0 0 false).loc.lat - -1 / 100)) ^ 2 := by
    show (1 : ℝ) < (M * (0 - -1 / 100)) ^ 2
    nlinarith
  linarith

/-- **C134 is violated** by sandbox requests, which only ask what a mission would be: while a mission that was planned with
region 5 is flown, the answer to a sandbox request for the same vehicle changes the region sent with safe-heading commands
to 0; mission and waypoint stay the same. -/
theorem C134_sandbox_violated (t0 : ℤ) (l0 : Bool) :
    (∃ d, sent exSafe t0 l0 (exSandbox.take 4) = sent exSafe t0 l0 (exSandbox.take 3) ++ [d] ∧ reported d = [1] ∧
      ∃ lead r hd alt altType speed, Out.safeHeading 1 5 lead r hd alt altType speed ∈ d) ∧
    ∃ d, sent exSafe t0 l0 (exSandbox ++ [(3, Msg.state (exState (-1 / 100) 0))]) = sent exSafe t0 l0 exSandbox ++ [d] ∧
      reported d = [1] ∧ ∃ lead r hd alt altType speed, Out.safeHeading 1 0 lead r hd alt altType speed ∈ d := by
  have hw : exLine.find exLine.first = some (exWp 1 2 0 0 false) := by simp [Mission.find, exLine, exWp]
  have hno : ∀ u ∈ exLine.wps, u.next ≠ exLine.first := by
    intro u hu
    simp only [exLine, List.mem_cons, List.not_mem_nil, or_false] at hu
    rcases hu with rfl | rfl <;> simp [exWp, exLine]
  have hnew : newMission exSafe.vehicle (Msg.response [exLine]) = some exLine := by
    rw [show exSafe.vehicle = 1 from rfl]
    simp [newMission, exLine]
  have key : ∀ later : List (ℤ × Msg), Quiet exSafe.vehicle later →
      (∀ j ∈ later, ∀ st, ownState 1 j.2 = some st → st.loc = ⟨-1 / 100, 0⟩) → ∀ now,
      ∃ d, sent exSafe t0 l0 ((exSandbox.take 2 ++ (0, Msg.response [exLine]) :: later) ++ [(now, Msg.state (exState (-1 / 100) 0))]) =
          sent exSafe t0 l0 (exSandbox.take 2 ++ (0, Msg.response [exLine]) :: later) ++ [d] ∧ reported d = [1] ∧
        (latest (headingTaken 1) (exSandbox.take 2 ++ (0, Msg.response [exLine]) :: later) = some false →
          ∃ lead r hd alt altType speed, Out.safeHeading 1
          (regionOf 1 (exSandbox.take 2 ++ (0, Msg.response [exLine]) :: later).reverse) lead r hd alt altType speed ∈ d) := by
    intro later hq hl now
    have hf := (first_after (cfg := exSafe) (t0 := t0) (l0 := l0) (hist := exSandbox.take 2) (i := (0, Msg.response [exLine]))
      hnew hq hw rfl hno (.inl rfl) (exLine_far hl)).1
    obtain ⟨d, st', v, q, l, h1, h2, h3, _, h5⟩ := C133_command (cfg := exSafe) (t0 := t0) (l0 := l0)
      (hist := exSandbox.take 2) (i := (0, Msg.response [exLine])) hnew hq (by rw [hf, hw]; rfl) now (st := exState (-1 / 100) 0) rfl
    obtain ⟨outs, k1, k2⟩ := reported_own exSafe t0 l0 (exSandbox.take 2 ++ (0, Msg.response [exLine]) :: later) now
      (st := exState (-1 / 100) 0) rfl
    have hq' : Quiet exSafe.vehicle (later ++ [(now, Msg.state (exState (-1 / 100) 0))]) := by
      intro j hj
      rcases List.mem_append.mp hj with hj | hj
      · exact hq j hj
      · rw [List.mem_singleton] at hj; subst hj; rfl
    have hl' : ∀ j ∈ later ++ [(now, Msg.state (exState (-1 / 100) 0))], ∀ st, ownState 1 j.2 = some st →
        st.loc = ⟨-1 / 100, 0⟩ := by
      intro j hj st hst
      rcases List.mem_append.mp hj with hj | hj
      · exact hl j hj st hst
      · rw [List.mem_singleton] at hj; subst hj
        cases (ownState_some hst).1; rfl
    have hf' := (first_after (cfg := exSafe) (t0 := t0) (l0 := l0) (hist := exSandbox.take 2) (i := (0, Msg.response [exLine]))
      hnew hq' hw rfl hno (.inl rfl) (exLine_far hl')).1
    rw [show exSandbox.take 2 ++ (0, Msg.response [exLine]) :: (later ++ [(now, Msg.state (exState (-1 / 100) 0))]) =
      (exSandbox.take 2 ++ (0, Msg.response [exLine]) :: later) ++ [(now, Msg.state (exState (-1 / 100) 0))] from by simp] at hf'
    refine ⟨d ++ [.report st'], h1, ?_, fun ht => ?_⟩
    · rw [k1] at h1
      have := List.append_cancel_left h1
      rw [List.cons.injEq] at this
      rw [← this.1, k2, hf']; rfl
    · rw [show exSafe.vehicle = 1 from rfl, ht] at h5
      simp only [Option.getD_some, Bool.false_eq_true, if_false] at h5
      rw [if_pos (show exSafe.safe = true from rfl)] at h5
      rw [h5]
      exact ⟨_, _, _, _, _, _, List.mem_append_left _ (List.mem_singleton.mpr rfl)⟩
  refine ⟨?_, ?_⟩
  · obtain ⟨d, h1, h2, h3⟩ := key [] (fun j hj => by simp at hj) (fun j hj => by simp at hj) 1
    refine ⟨d, h1, h2, ?_⟩
    have hr : regionOf 1 (exSandbox.take 2 ++ (0, Msg.response [exLine]) :: []).reverse = 5 := by
      simp [exSandbox, regionOf, latest, regionSaid, exLine]
    rw [hr] at h3
    exact h3 (by simp [latest, headingTaken, newMission, exLine])
  · obtain ⟨d, h1, h2, h3⟩ := key [(1, Msg.state (exState (-1 / 100) 0)), (2, Msg.request 11 true (some 7)),
        (2, Msg.uniqueResponse 11 (some [exRound false]))] (by
        intro j hj
        simp only [List.mem_cons, List.not_mem_nil, or_false] at hj
        rcases hj with rfl | rfl | rfl <;> rfl) (by
        intro j hj st hst
        simp only [List.mem_cons, List.not_mem_nil, or_false] at hj
        rcases hj with rfl | rfl | rfl
        · cases (ownState_some hst).1; rfl
        · simp [ownState] at hst
        · simp [ownState] at hst) 3
    refine ⟨d, h1, h2, ?_⟩
    have hr : regionOf 1 (exSandbox.take 2 ++ (0, Msg.response [exLine]) :: [(1, Msg.state (exState (-1 / 100) 0)),
        (2, Msg.request 11 true (some 7)), (2, Msg.uniqueResponse 11 (some [exRound false]))]).reverse = 0 := by
      simp [exSandbox, regionOf, latest, regionSaid, exRound]
    rw [hr] at h3
    exact h3 (by simp [latest, headingTaken, newMission, exLine])

/-! ## The leg after a loiter -/

/-- A loiter of no duration whose centre is not at its waypoint. -/
noncomputable def exLoiter : Wp :=
  { number := 1, next := 2, loc := ⟨0, -1⟩, altitude := 100, altType := 0, speed := 30, speedType := .airspeed, climb := 0,
    turnShort := false, tasks := [],
    actions := [.loiter { center := some ⟨-1, 0⟩, radius := 500, airspeed := 30, duration := 0, dir := .clockwise }] }

/-- The loiter, then a waypoint in the north. -/
noncomputable def exJump : Mission := { vehicle := 1, first := 1, wps := [exLoiter, exWp 2 2 1 0 false] }

/-- The configuration without any option. -/
noncomputable def exPlain : Config := configure 1 {}

/-- Metres to the north of a degree of latitude, at the equator. -/
noncomputable def exA : ℝ := Earth.radiusEquatorial * (1 - Earth.ecc2) * Earth.degToRad

/-- Metres to the east of a degree of longitude, at the equator. -/
noncomputable def exB : ℝ := Earth.radiusEquatorial * Earth.degToRad

theorem exA_pos : 110000 < exA ∧ exA < 111000 := by
  unfold exA Earth.radiusEquatorial Earth.ecc2 Earth.degToRad; constructor <;> norm_num

theorem exB_pos : 111000 < exB ∧ exB < 112000 := by
  unfold exB Earth.radiusEquatorial Earth.degToRad; constructor <;> norm_num

theorem exNE (lat lon : ℝ) : toNE ⟨0, 0⟩ ⟨lat, lon⟩ = (exA * lat, exB * lon) := by
  rw [toNE_zero]; unfold exA exB; simp only [Prod.mk.injEq]; constructor <;> ring

theorem exJump_first (e : Env) (he : e.mission = exJump) (hp : e.pos = ⟨0, 0⟩) (hn : e.now = 1) (n : Nav) (h1 : n.cur = 1)
    (h2 : n.isLast = false) (h3 : n.start = 0) (p : Pt) :
    loop e 4 [] n p exLoiter = some ({ cur := 2, start := 1, isLast := false, prev := some ⟨0, -1⟩ }, (-exA, 0),
      exWp 2 2 1 0 false) := by
  have hf : e.mission.find exLoiter.next = some (exWp 2 2 1 0 false) := by
    rw [he]; simp [Mission.find, exJump, exWp, exLoiter]
  have hr : Reached e n.start p exLoiter := by
    show (0 : ℤ) ≠ -1 ∧ n.start + 0 ≤ e.now
    rw [h3, hn]; decide
  rw [(loop_succ e 3 [] n p exLoiter).2.2.1 h2 hr (by simp) _ hf (by rw [h1]; decide)]
  have hpt : e.pt exLoiter = (-exA, 0) := by
    show toNE e.pos ⟨-1, 0⟩ = _
    rw [hp, exNE]; simp
  rw [hpt, hn]
  refine (loop_succ e 2 _ _ _ _).1 ?_
  rintro ⟨_, hr2⟩
  unfold Reached at hr2
  rw [exWp_loiter] at hr2
  have hpt2 : e.pt (exWp 2 2 1 0 false) = (exA, 0) := by
    show toNE e.pos ⟨1, 0⟩ = _
    rw [hp, exNE]; simp
  rw [hpt2] at hr2
  obtain ⟨ha, _⟩ := exA_pos
  rcases hr2 with h | h | ⟨_, h, _⟩
  · nlinarith
  · nlinarith
  · simp [exWp] at h

theorem exJump_second (e : Env) (hp : e.pos = ⟨0, 0⟩) (n : Nav) : ∀ p : Pt, p = (0, -exB) →
    loop e 4 [] n p (exWp 2 2 1 0 false) = some (n, p, exWp 2 2 1 0 false) := by
  rintro p rfl
  refine (loop_succ e 3 _ _ _ _).1 ?_
  rintro ⟨_, hr2⟩
  unfold Reached at hr2
  rw [exWp_loiter] at hr2
  have hpt2 : e.pt (exWp 2 2 1 0 false) = (exA, 0) := by
    show toNE e.pos ⟨1, 0⟩ = _
    rw [hp, exNE]; simp
  rw [hpt2] at hr2
  obtain ⟨ha, _⟩ := exA_pos
  obtain ⟨hb, _⟩ := exB_pos
  rcases hr2 with h | h | ⟨_, h, _⟩
  · nlinarith
  · nlinarith
  · simp [exWp] at h

/-- The headings for the two legs differ. -/
theorem exJump_headings (o : Option ℝ) :
    (guidance exPlain o false (0, 0) (-exA, 0) (exA, 0) (exWp 2 2 1 0 false)).1 ≠
    (guidance exPlain o false (0, 0) (0, -exB) (exA, 0) (exWp 2 2 1 0 false)).1 := by
  obtain ⟨ha, ha'⟩ := exA_pos
  obtain ⟨hb, hb'⟩ := exB_pos
  have n1 : ((exA, 0) : Pt) - (-exA, 0) ≠ (0, 0) := by
    intro h
    have := congrArg Prod.fst h
    simp at this
    linarith
  have n2 : ((exA, 0) : Pt) - (0, -exB) ≠ (0, 0) := by
    intro h
    have := congrArg Prod.fst h
    simp at this
    linarith
  have h1 := (C133_line 1 {} o n1 (w := exWp 2 2 1 0 false) rfl).2.2.2.2 (by unfold rightOf; simp)
  have h2 := C133_slope 1 {} rfl o n2 (w := exWp 2 2 1 0 false) rfl
  intro heq
  have heq' : (guidance (configure 1 {}) o false (0, 0) (-exA, 0) (exA, 0) (exWp 2 2 1 0 false)).1 =
    (guidance (configure 1 {}) o false (0, 0) (0, -exB) (exA, 0) (exWp 2 2 1 0 false)).1 := heq
  simp only at h1 h2
  rw [← heq'] at h2
  generalize (guidance (configure 1 {}) o false (0, 0) (-exA, 0) (exA, 0) (exWp 2 2 1 0 false)).1 = hd at h1 h2
  have hk : (configure 1 {}).kLine = 1 / 100 := rfl
  rw [hk] at h2
  have l1 : len (((exA, 0) : Pt) - (-exA, 0)) = 2 * exA := by
    unfold len
    simp only [Prod.mk_sub_mk, sub_neg_eq_add, sub_self]
    rw [show (exA + exA) ^ 2 + (0 : ℝ) ^ 2 = (2 * exA) ^ 2 by ring, Real.sqrt_sq (by linarith)]
  have c1 : (direction hd).1 = 1 := by
    unfold alongOf at h1
    rw [l1] at h1
    simp only [Prod.mk_sub_mk, sub_neg_eq_add, sub_self, zero_mul, add_zero] at h1
    have : exA ≠ 0 := by linarith
    field_simp at h1
    linarith
  have c2 : (direction hd).2 = 0 := by
    have := sin_sq_add_cos_sq (π / 180 * hd)
    simp only [direction] at c1 ⊢
    rw [c1] at this
    have h0 : sin (π / 180 * hd) ^ 2 = 0 := by linarith
    exact pow_eq_zero_iff two_ne_zero |>.mp h0
  have hl := len_pos n2
  have hs := len_sq (((exA, 0) : Pt) - (0, -exB))
  unfold rightOf alongOf at h2
  rw [c1, c2] at h2
  simp only [Prod.mk_sub_mk, sub_zero, zero_sub, neg_neg, neg_zero, mul_zero, mul_one, add_zero, zero_add] at h2 hs hl
  generalize len (exA, exB) = L at *
  have hL : L ≠ 0 := hl.ne'
  field_simp at h2
  have hB : exB ≠ 0 := by linarith
  have h3 : 100 * L = exA * exA := by
    have : exB * (100 * L - exA * exA) = 0 := by nlinarith
    rcases mul_eq_zero.mp this with h | h
    · exact absurd h hB
    · linarith
  have h4 : 100000000 < L := by nlinarith
  nlinarith

/-- **C133 is violated** after a loiter whose centre is not at its waypoint: the leg starts at the centre for the state that
ends the loiter, and at the waypoint for the next state.  Two states in a row at the same place, on the way to the same
waypoint, get different headings. -/
theorem C133_jump_violated (t0 : ℤ) (l0 : Bool) : ∃ h1 h2 st1 st2, h1 ≠ h2 ∧
    sent exPlain t0 l0 [(0, Msg.mission exJump), (1, Msg.state (exState 0 0)), (2, Msg.state (exState 0 0))] =
      [[], [.command 1 30 .airspeed h1 100 0 0, .report st1], [.command 1 30 .airspeed h2 100 0 0, .report st2]] ∧
    st1.current = 2 ∧ st2.current = 2 := by
  have hf1 : exJump.find 1 = some exLoiter := by simp [Mission.find, exJump, exLoiter]
  have hf2 : exJump.find 2 = some (exWp 2 2 1 0 false) := by simp [Mission.find, exJump, exLoiter, exWp]
  have hv : exPlain.vehicle = 1 := rfl
  have e0 : ∃ s : S, runM step (S.init exPlain t0 l0) [(0, Msg.mission exJump)] = (s, [[]]) ∧ s.cfg = exPlain ∧
      s.mission = some exJump ∧ s.nav = { cur := 1, start := 0, isLast := false, prev := none } ∧ s.override = none ∧
      s.byTask = false := by
    refine ⟨(S.init exPlain t0 l0).assign 0 exJump, ?_, rfl, rfl, ?_, rfl, rfl⟩
    · simp only [runM, step, S.init, hv, show exJump.vehicle = 1 from rfl, if_true]
    · simp [S.assign, S.reset, exJump, exLoiter, exWp]
  obtain ⟨s, a0, a1, a2, a3, a4, a5⟩ := e0
  have e1 : step s (1, Msg.state (exState 0 0)) = ({ s with nav := { cur := 2, start := 1, isLast := false, prev := some ⟨0, -1⟩ } },
      [.command 1 30 .airspeed (guidance exPlain none false (0, 0) (-exA, 0) (exA, 0) (exWp 2 2 1 0 false)).1 100 0 0,
        .report { exState 0 0 with current := 2, tasks := [2] }]) := by
    rw [(step_own (st := exState 0 0) (by rw [a1, hv]; rfl)).1, observe_some a2 (w := exLoiter) (by rw [a3]; exact hf1)]
    rw [show exJump.wps.length + 2 = 4 from rfl,
      exJump_first (env s exJump 1 (exState 0 0)) rfl rfl rfl s.nav (by rw [a3]) (by rw [a3]) (by rw [a3])]
    have hpt : (env s exJump 1 (exState 0 0)).pt (exWp 2 2 1 0 false) = (exA, 0) := by
      show toNE ⟨0, 0⟩ ⟨1, 0⟩ = _
      rw [exNE]; simp
    simp only [Option.map_some, Option.getD_some, hpt, S.direct, a1, a4, a5, Bool.false_eq_true, if_false, hv]
    rfl
  have e2 : ∀ s' : S, s' = { s with nav := { cur := 2, start := 1, isLast := false, prev := some ⟨0, -1⟩ } } →
      (step s' (2, Msg.state (exState 0 0))).2 =
      [.command 1 30 .airspeed (guidance exPlain none false (0, 0) (0, -exB) (exA, 0) (exWp 2 2 1 0 false)).1 100 0 0,
        .report { exState 0 0 with current := 2, tasks := [2] }] := by
    intro s' hs'
    have b1 : s'.cfg = exPlain := by rw [hs']; exact a1
    have b2 : s'.mission = some exJump := by rw [hs']; exact a2
    have b3 : s'.nav = { cur := 2, start := 1, isLast := false, prev := some ⟨0, -1⟩ } := by rw [hs']
    have b4 : s'.override = none := by rw [hs']; exact a4
    have b5 : s'.byTask = false := by rw [hs']; exact a5
    have hp : legStart s' (exState 0 0) = (0, -exB) := by
      unfold legStart
      rw [b3]
      show toNE ⟨0, 0⟩ ⟨0, -1⟩ = _
      rw [exNE]; simp
    rw [(step_own (st := exState 0 0) (by rw [b1, hv]; rfl)).1, observe_some b2 (w := exWp 2 2 1 0 false) (by rw [b3]; exact hf2)]
    rw [show exJump.wps.length + 2 = 4 from rfl,
      exJump_second (env s' exJump 2 (exState 0 0)) rfl s'.nav _ hp]
    have hpt : (env s' exJump 2 (exState 0 0)).pt (exWp 2 2 1 0 false) = (exA, 0) := by
      show toNE ⟨0, 0⟩ ⟨1, 0⟩ = _
      rw [exNE]; simp
    simp only [Option.map_some, Option.getD_some, hpt, S.direct, b1, b3, b4, b5, Bool.false_eq_true, if_false, hv, hp]
    rfl
  refine ⟨_, _, { exState 0 0 with current := 2, tasks := [2] }, { exState 0 0 with current := 2, tasks := [2] },
    exJump_headings none, ?_, rfl, rfl⟩
  · unfold sent
    rw [show [((0 : ℤ), Msg.mission exJump), (1, Msg.state (exState 0 0)), (2, Msg.state (exState 0 0))] =
      [(0, Msg.mission exJump)] ++ [(1, Msg.state (exState 0 0)), (2, Msg.state (exState 0 0))] from rfl, runM_append, a0]
    simp only [runM, e1, e2 _ rfl, List.singleton_append]

/-! ## Cases that meet the hypotheses -/

/-- `C132_route`. -/
example (t0 : ℤ) (l0 : Bool) : ∃ outs,
    sent exPlain t0 l0 ([] ++ (0, .mission (exRound false)) :: [(1, .state (exState 0 0)), (2, .other)]) =
      sent exPlain t0 l0 [] ++ [] :: outs ∧ List.IsChain (Along (exRound false)) (1 :: (outs.map reported).flatten) :=
  C132_route (i := (0, .mission (exRound false))) rfl (by
    intro j hj
    simp only [List.mem_cons, List.not_mem_nil, or_false] at hj
    rcases hj with rfl | rfl <;> rfl)

theorem exJump_after (t0 : ℤ) (l0 : Bool) : (after exPlain t0 l0 [(0, .mission exJump)]).mission = some exJump ∧
    (after exPlain t0 l0 [(0, .mission exJump)]).nav = { cur := 1, start := 0, isLast := false, prev := none } := by
  simp only [after, runM, step, S.init, show exPlain.vehicle = 1 from rfl, show exJump.vehicle = 1 from rfl, if_true]
  refine ⟨rfl, ?_⟩
  simp [S.assign, S.reset, exJump, exLoiter, exWp]

theorem exJump_find : exJump.find 1 = some exLoiter := by simp [Mission.find, exJump, exLoiter]

/-- `C132_forward`: the loiter is passed. -/
example (t0 : ℤ) (l0 : Bool) := C132_forward exPlain t0 l0 [(0, .mission exJump)] (st := exState 0 0) (w := exLoiter) 1
  (exJump_after t0 l0).1 (by rw [(exJump_after t0 l0).2]; exact exJump_find) (by rw [(exJump_after t0 l0).2]) rfl

/-- `C132_loiter`: a loiter of a minute. -/
example (t0 : ℤ) (l0 : Bool) : ∀ m : Mission, ∀ w : Wp, m = { exJump with wps := [w] } →
    w = { exLoiter with actions := [.loiter { center := none, radius := 500, airspeed := 30, duration := 60000, dir := .clockwise }] } →
    (after exPlain t0 l0 ([] ++ (1000, .mission m) :: [(2000, .state (exState 0 0)), (60999, .state (exState 1 1))])).nav.cur = 1 := by
  intro m w hm hw
  have hv : m.vehicle = 1 := by rw [hm]; rfl
  have hfirst : m.first = 1 := by rw [hm]; rfl
  have hnew : newMission exPlain.vehicle (Msg.mission m) = some m := by simp [newMission, hv, exPlain, configure]
  have hl : w.loiter = some { center := none, radius := 500, airspeed := 30, duration := 60000, dir := .clockwise } := by
    rw [hw]; rfl
  have hnum : w.number = 1 := by rw [hw]; rfl
  have hon := step_other (s := S.init exPlain t0 l0) (i := (1000, .mission m)) rfl
  rw [show (S.init exPlain t0 l0).cfg.vehicle = exPlain.vehicle from rfl, hnew] at hon
  have ha : after exPlain t0 l0 ([] ++ [(1000, .mission m)]) = (S.init exPlain t0 l0).assign 1000 m := by
    rw [(after_snoc exPlain t0 l0 [] _).1]; exact hon.2
  have := C132_loiter (cfg := exPlain) (t0 := t0) (l0 := l0) (hist := []) (i := (1000, .mission m)) (m := m) (w := w)
    (later := [(2000, .state (exState 0 0)), (60999, .state (exState 1 1))])
    (by rw [ha]; rfl) (by
      rw [ha]
      show m.find m.first = _
      rw [hfirst, hm]; simp [Mission.find, hnum]) hl (.inl (by rw [hnew]; rfl)) (by
      intro j hj
      simp only [List.mem_cons, List.not_mem_nil, or_false] at hj
      rcases hj with rfl | rfl <;> rfl) (.inr (by
      intro j hj
      simp only [List.mem_cons, List.not_mem_nil, or_false] at hj
      rcases hj with rfl | rfl <;> norm_num))
  rw [this, hnum]

/-- A leg to the north that is passed on its right side. -/
theorem exLeg_ne : ((1000, -50) : Pt) - (-1000, -50) ≠ (0, 0) := by
  intro h
  have := congrArg Prod.fst h
  norm_num at this

theorem exLeg_right : 0 < rightOf (((1000, -50) : Pt) - (-1000, -50)) ((0, 0) - (-1000, -50)) := by
  have := len_pos exLeg_ne
  unfold rightOf
  apply div_pos _ this
  norm_num

/-- `C133_line` and `C133_settles`: back towards the leg, without crossing it within 100 m. -/
example (o : Option ℝ) :
    let hd := direction (guidance exPlain o false (0, 0) (-1000, -50) (1000, -50) (exWp 2 2 1 0 false)).1
    rightOf (((1000, -50) : Pt) - (-1000, -50)) hd < 0 ∧
    0 ≤ rightOf (((1000, -50) : Pt) - (-1000, -50)) ((100 * hd.1, 100 * hd.2) - (-1000, -50)) :=
  ⟨(C133_line 1 {} o exLeg_ne (w := exWp 2 2 1 0 false) rfl).2.2.1 exLeg_right,
    ((C133_settles 1 {} o exLeg_ne (w := exWp 2 2 1 0 false) rfl (s := 100) (by norm_num)
      (by show (100 : ℝ) * (1 / 100) ≤ 1; norm_num)).1 exLeg_right).1⟩

/-- `C133_straight`: towards a waypoint in the east. -/
example (o : Option ℝ) : direction (guidance exPlain o true (0, 0) (7, 8) (0, 4) (exWp 2 2 1 0 false)).1 = (0, 1) := by
  rw [C133_straight exPlain o true (.inl rfl) (by simp) rfl]
  have : len (0, 4) = 4 := by
    unfold len
    rw [show ((0, 4) : Pt).1 ^ 2 + ((0, 4) : Pt).2 ^ 2 = 4 ^ 2 by norm_num, Real.sqrt_sq (by norm_num)]
  rw [this]; norm_num

/-- `C133_orbit`: on the circle of 500 m, south of the centre, flying clockwise is flying west. -/
example (o : Option ℝ) (l : Bool) (p : Pt) :
    alongOf ((0, 0) - (500, 0)) (direction (guidance exPlain o l (0, 0) p (500, 0) exLoiter).1) = 0 ∧
    0 < rightOf ((0, 0) - (500, 0)) (direction (guidance exPlain o l (0, 0) p (500, 0) exLoiter).1) := by
  have h := C133_orbit 1 {} o l (p := p) (c := (500, 0)) (by simp) (w := exLoiter) rfl (by norm_num)
  refine ⟨h.2.2.2.2.1 ?_, h.1 rfl⟩
  unfold len
  rw [show ((0, 0) - (500, 0) : Pt).1 ^ 2 + ((0, 0) - (500, 0) : Pt).2 ^ 2 = 500 ^ 2 by norm_num, Real.sqrt_sq (by norm_num)]

/-- `C134_request_partial` with its hypotheses met and a command sent, see `C134_sandbox_violated` for the command. -/
example (t0 : ℤ) (l0 : Bool) := C134_request_partial (cfg := exSafe) t0 l0 rfl [] 0 10 5 (mid := [(0, .config 1 30 30)])
  (by simp [regionSaid]) 0 (ms := [exLine]) ⟨exLine, by simp, rfl⟩
  (later := [(0, .response [exLine]), (0, .uniqueResponse 11 (some [{ exLine with vehicle := 2 }]))]) (by
    intro j hj
    simp only [List.mem_cons, List.not_mem_nil, or_false] at hj
    rcases hj with rfl | rfl
    · rintro ⟨id, ms, h, _⟩; cases h
    · rintro ⟨id, ms, h, m, hm, hv⟩
      cases h
      rw [List.mem_singleton] at hm
      subst hm
      exact absurd hv (by decide)) (1, .state (exState (-1 / 100) 0))

end Verif.Steering
