import Verif.Steering.Lemmas

/-!
# C132: following the waypoints

What the steering service reports and how it goes from waypoint to waypoint, over all histories of messages.
-/

namespace Verif.Steering

open Real

/-! ## Specification -/

/-- The mission a message gives to a vehicle, if it gives one. -/
def newMission (vehicle : ℤ) : Msg → Option Mission
  | .response ms => ms.find? (·.vehicle == vehicle)
  | .mission m => if m.vehicle = vehicle then some m else none
  | _ => none

/-- The state of the vehicle a message brings, if it brings one. -/
def ownState (vehicle : ℤ) : Msg → Option AvState
  | .state st => if st.id = vehicle then some st else none
  | _ => none

/-- The waypoint numbers reported. -/
def reported (outs : List Out) : List ℤ := outs.filterMap fun | .report st => some st.current | _ => none

/-- The link of the waypoint with number `a` leads to the waypoint with number `b`. -/
def Link (m : Mission) (a b : ℤ) : Prop := ∃ w, m.find a = some w ∧ w.next = b ∧ (m.find b).isSome

/-- `b` is reached from `a` by following links, none at all if need be. -/
def Along (m : Mission) : ℤ → ℤ → Prop := Relation.ReflTransGen (Link m)

/-- The state after a history. -/
noncomputable def after (cfg : Config) (t0 : ℤ) (l0 : Bool) (is : List (ℤ × Msg)) : S := (runM step (S.init cfg t0 l0) is).1

/-- The messages sent for each message of a history. -/
noncomputable def sent (cfg : Config) (t0 : ℤ) (l0 : Bool) (is : List (ℤ × Msg)) : List (List Out) :=
  (runM step (S.init cfg t0 l0) is).2

/-- The history `is` after which message `i` comes, as seen from a later point `later`. -/
abbrev Quiet (vehicle : ℤ) (later : List (ℤ × Msg)) : Prop := ∀ j ∈ later, newMission vehicle j.2 = none

/-! ## Lemmas -/

/-- What surrounds the acceptance loop. -/
def env (s : S) (m : Mission) (now : ℤ) (st : AvState) : Env :=
  { mission := m, now := now, pos := st.loc, acceptTime := s.cfg.acceptTime, acceptDist := s.acceptDist }

/-- Where the leg starts; the vehicle itself if that is not known. -/
noncomputable def legStart (s : S) (st : AvState) : Pt :=
  match s.nav.prev with
  | some l => toNE st.loc l
  | none => (0, 0)

theorem observe_none {s : S} (h : s.mission.bind (·.find s.nav.cur) = none) (now : ℤ) (st : AvState) :
    s.observe now st = some (s, [.report { st with current := s.nav.cur, tasks := [] }]) := by
  unfold S.observe; rw [h]

theorem observe_some {s : S} {m : Mission} (hm : s.mission = some m) {w : Wp} (hw : m.find s.nav.cur = some w) (now : ℤ)
    (st : AvState) :
    s.observe now st = (loop (env s m now st) (m.wps.length + 2) [] s.nav (legStart s st) w).map fun (n, prev, w) =>
        ({ s with nav := n },
          s.direct st.id w (guidance s.cfg s.override n.isLast (0, 0) prev ((env s m now st).pt w) w) ++
            [.report { st with current := n.cur, tasks := w.tasks }]) := by
  unfold S.observe
  rw [hm, Option.bind_some, hw]
  simp only [legStart, env, position_eq]
  cases s.nav.prev <;> rfl

/-- The loop ends, and how. -/
theorem observe_spec {s : S} {m : Mission} (hm : s.mission = some m) {w : Wp} (hw : m.find s.nav.cur = some w) (now : ℤ)
    (st : AvState) : ∃ n q v, s.observe now st = some ({ s with nav := n },
        s.direct st.id v (guidance s.cfg s.override n.isLast (0, 0) q ((env s m now st).pt v) v) ++
          [.report { st with current := n.cur, tasks := v.tasks }]) ∧
      ((s.nav.isLast = true ∧ n = s.nav ∧ q = legStart s st ∧ v = w) ∨
       (s.nav.isLast = false ∧ ∃ acc t q0, Walk (env s m now st) s.nav.start (legStart s st) w acc t q0 v ∧
          Ended (env s m now st) [] s.nav acc t q0 n q v)) := by
  rw [observe_some hm hw]
  cases hl : s.nav.isLast with
  | true =>
    rw [loop_last _ _ _ _ _ hl]
    exact ⟨s.nav, _, w, rfl, .inl ⟨rfl, rfl, rfl, rfl⟩⟩
  | false =>
    obtain ⟨acc, t, q0, n', q, v, h1, h2, h3⟩ := loop_spec (env s m now st) (m.wps.length + 2) [] s.nav (legStart s st) w hl hw
      List.nodup_nil (by simp) (by simp [env])
    rw [h1]
    exact ⟨n', q, v, rfl, .inr ⟨rfl, acc, t, q0, h2, h3⟩⟩

theorem Walk.link {e : Env} {s t : ℤ} {p q : Pt} {w v : Wp} {acc : List Wp} (h : Walk e s p w acc t q v)
    (hw : e.mission.find w.number = some w) :
    Along e.mission w.number v.number ∧ (∀ u ∈ acc, e.mission.find u.number = some u) ∧
    (acc ≠ [] → t = e.now ∧ ∃ u, acc.getLast? = some u ∧ u ∈ e.mission.wps ∧ u.next = v.number ∧ q = e.pt u) ∧
    (acc = [] → v = w ∧ t = s ∧ q = p) := by
  induction h with
  | here => exact ⟨.refl, by simp, by simp, by simp⟩
  | @on start prev w w' acc t q v hr hn hne hwk ih =>
    have hnum := find_number hn
    obtain ⟨h1, h2, h3, h4⟩ := ih (hnum ▸ hn)
    refine ⟨.head ⟨w, hw, hnum.symm, by rw [hnum, hn]; rfl⟩ h1, ?_, fun _ => ?_, by simp⟩
    · intro u hu
      rcases List.mem_cons.mp hu with rfl | hu
      · exact hw
      · exact h2 u hu
    · cases acc with
      | nil =>
        obtain ⟨rfl, rfl, rfl⟩ := h4 rfl
        exact ⟨rfl, w, rfl, find_mem hw, hnum.symm, rfl⟩
      | cons x xs =>
        obtain ⟨a, u, b, c⟩ := h3 (by simp)
        exact ⟨a, u, by rw [List.getLast?_cons_cons]; exact b, c⟩

theorem step_cfg (s : S) (i : ℤ × Msg) : (step s i).1.cfg = s.cfg := by
  rcases i with ⟨now, i⟩
  cases i with
  | config id speed bank => simp only [step]; split <;> rfl
  | request id sandbox region => simp only [step]; split <;> [cases region; skip] <;> rfl
  | uniqueResponse id ms => cases ms <;> rfl
  | response ms => simp only [step]; split <;> rfl
  | mission m => simp only [step]; split <;> rfl
  | speedOverride id speed => simp only [step]; split <;> rfl
  | command id actions => simp only [step]; split <;> rfl
  | state st =>
    simp only [step]
    split
    · cases h : s.mission.bind (·.find s.nav.cur) with
      | none => rw [observe_none h]; rfl
      | some w =>
        obtain ⟨m, hm, hw⟩ := Option.bind_eq_some_iff.mp h
        obtain ⟨n, q, v, h1, _⟩ := observe_spec hm hw now st
        rw [h1]; rfl
    · rfl
  | other => rfl

/-- A message that brings no state of the vehicle sends nothing, and changes mission and place only if it brings a mission. -/
theorem step_other {s : S} {i : ℤ × Msg} (h : ownState s.cfg.vehicle i.2 = none) :
    (step s i).2 = [] ∧
    match newMission s.cfg.vehicle i.2 with
    | none => (step s i).1.mission = s.mission ∧ (step s i).1.nav = s.nav
    | some m => (step s i).1 = s.assign i.1 m := by
  rcases i with ⟨now, i⟩
  cases i with
  | config id speed bank => simp only [step, newMission]; split <;> exact ⟨by trivial, by trivial, by trivial⟩
  | request id sandbox region =>
    simp only [step, newMission]; split <;> [cases region; skip] <;> exact ⟨by trivial, by trivial, by trivial⟩
  | uniqueResponse id ms => cases ms <;> exact ⟨by trivial, by trivial, by trivial⟩
  | response ms =>
    simp only [step, newMission]
    cases ms.find? (·.vehicle == s.cfg.vehicle) with
    | none => exact ⟨by trivial, by trivial, by trivial⟩
    | some m => exact ⟨by trivial, by trivial⟩
  | mission m =>
    simp only [step, newMission]
    by_cases hm : m.vehicle = s.cfg.vehicle
    · simp only [if_pos hm]; exact ⟨trivial, trivial⟩
    · simp only [if_neg hm]; exact ⟨trivial, trivial, trivial⟩
  | speedOverride id speed => simp only [step, newMission]; split <;> exact ⟨by trivial, by trivial, by trivial⟩
  | command id actions => simp only [step, newMission]; split <;> exact ⟨by trivial, by trivial, by trivial⟩
  | state st =>
    have hid : st.id ≠ s.cfg.vehicle := by
      intro hid; simp [ownState, hid] at h
    simp only [step, if_neg hid, newMission]; exact ⟨trivial, trivial, trivial⟩
  | other => exact ⟨by trivial, by trivial, by trivial⟩

theorem ownState_some {v : ℤ} {i : Msg} {st : AvState} (h : ownState v i = some st) : i = .state st ∧ st.id = v := by
  cases i with
  | state st' =>
    simp only [ownState] at h
    split at h
    · next hid => cases h; exact ⟨rfl, hid⟩
    · cases h
  | _ => simp [ownState] at h

theorem step_own {s : S} {i : ℤ × Msg} {st : AvState} (h : ownState s.cfg.vehicle i.2 = some st) :
    step s i = (s.observe i.1 st).getD (s, []) ∧ newMission s.cfg.vehicle i.2 = none := by
  obtain ⟨h1, h2⟩ := ownState_some h
  rcases i with ⟨now, i⟩
  simp only at h1
  subst h1
  exact ⟨by simp only [step, if_pos h2], rfl⟩

theorem after_cfg (cfg : Config) (t0 : ℤ) (l0 : Bool) (is : List (ℤ × Msg)) : (after cfg t0 l0 is).cfg = cfg := by
  unfold after
  refine runM_induction (P := fun _ (s : S) _ => s.cfg = cfg) rfl ?_ is
  intro is i h
  rw [step_cfg]; exact h

theorem after_snoc (cfg : Config) (t0 : ℤ) (l0 : Bool) (is : List (ℤ × Msg)) (i : ℤ × Msg) :
    after cfg t0 l0 (is ++ [i]) = (step (after cfg t0 l0 is) i).1 ∧
    sent cfg t0 l0 (is ++ [i]) = sent cfg t0 l0 is ++ [(step (after cfg t0 l0 is) i).2] := by
  unfold after sent
  rw [runM_snoc]
  exact ⟨rfl, rfl⟩

/-- What holds between a mission and the next. -/
structure On (m : Mission) (s : S) : Prop where
  mission : s.mission = some m
  along : Along m m.first s.nav.cur
  prev : s.nav.isLast = false → (s.nav.prev = none ∧ s.nav.cur = m.first ∧ ∀ u ∈ m.wps, u.next ≠ m.first) ∨
    ∃ u ∈ m.wps, u.next = s.nav.cur ∧ s.nav.prev = some u.loc

theorem on_assign (s : S) (now : ℤ) (m : Mission) : On m (s.assign now m) := by
  refine ⟨rfl, .refl, fun _ => ?_⟩
  simp only [S.assign, S.reset]
  cases h : m.wps.find? (·.next == m.first) with
  | none =>
    refine .inl ⟨rfl, by trivial, fun u hu hn => ?_⟩
    have := List.find?_eq_none.mp h u hu
    simp [hn] at this
  | some u =>
    have h1 := List.find?_some h
    exact .inr ⟨u, List.mem_of_find?_eq_some h, by simpa using h1, rfl⟩

theorem on_observe {m : Mission} {s : S} (h : On m s) (now : ℤ) (st : AvState) :
    ∃ s' d st', s.observe now st = some (s', d ++ [.report st']) ∧ On m s' ∧ d.length ≤ 1 ∧ (∀ o ∈ d, ∀ x, o ≠ .report x) ∧
      st'.current = s'.nav.cur ∧ st'.tasks = (m.find s'.nav.cur).elim [] (·.tasks) ∧
      st' = { st with current := st'.current, tasks := st'.tasks } ∧ Along m s.nav.cur s'.nav.cur ∧
      s' = { s with nav := s'.nav } := by
  cases hw : m.find s.nav.cur with
  | none =>
    have : s.mission.bind (·.find s.nav.cur) = none := by rw [h.mission, Option.bind_some, hw]
    refine ⟨s, [], _, observe_none this now st, h, by simp, by simp, rfl, ?_, rfl, .refl, rfl⟩
    rw [hw]; rfl
  | some w =>
    obtain ⟨n, q, v, h1, h2⟩ := observe_spec h.mission hw now st
    have hd : ∀ g, (s.direct st.id v g).length ≤ 1 ∧ ∀ o ∈ s.direct st.id v g, ∀ x, o ≠ .report x := by
      intro g
      unfold S.direct
      split
      · simp
      · split <;> simp
    have hnum := find_number hw
    have main : On m { s with nav := n } ∧ (m.find n.cur) = some v ∧ Along m s.nav.cur n.cur := by
      rcases h2 with ⟨hl, rfl, _, rfl⟩ | ⟨hl, acc, t, q0, hwalk, hend⟩
      · exact ⟨h, hw, .refl⟩
      · obtain ⟨k1, k2, k3, k4⟩ := hwalk.link (hnum ▸ hw)
        have hf : m.find n.cur = some v := by rw [hend.cur]; exact hend.found
        have ha : Along m s.nav.cur n.cur := by rw [hend.cur, ← hnum]; exact k1
        refine ⟨⟨h.mission, h.along.trans ha, fun hl' => ?_⟩, hf, ha⟩
        rcases hend.how with ⟨a, b, c, d⟩ | ⟨a, _⟩ | ⟨a, _⟩
        · cases acc with
          | nil =>
            obtain ⟨rfl, rfl, rfl⟩ := k4 rfl
            have hc : n.cur = s.nav.cur := by rw [hend.cur, hnum]
            have hp : n.prev = s.nav.prev := by simpa using d
            simp only [hc, hp]
            exact h.prev hl
          | cons x xs =>
            obtain ⟨_, u, e1, e2, e3, e4⟩ := k3 (by simp)
            refine .inr ⟨u, e2, ?_, ?_⟩
            · rw [e3]; exact hend.cur.symm
            · simp only [d, e1]; rfl
        · rw [a] at hl'; cases hl'
        · rw [a] at hl'; cases hl'
    refine ⟨_, _, _, h1, main.1, (hd _).1, (hd _).2, rfl, ?_, rfl, main.2.2, rfl⟩
    rw [main.2.1]; rfl

theorem on_step {m : Mission} {s : S} (h : On m s) {i : ℤ × Msg} (hi : newMission s.cfg.vehicle i.2 = none) :
    On m (step s i).1 ∧ ((step s i).2 = [] ∨ ∃ d st', (step s i).2 = d ++ [.report st'] ∧ (∀ o ∈ d, ∀ x, o ≠ .report x) ∧
      st'.current = (step s i).1.nav.cur) ∧ Along m s.nav.cur (step s i).1.nav.cur := by
  cases hs : ownState s.cfg.vehicle i.2 with
  | none =>
    have h1 := step_other hs
    rw [hi] at h1
    obtain ⟨a, b, c⟩ := h1
    exact ⟨⟨by rw [b]; exact h.mission, by rw [c]; exact h.along, by rw [c]; exact h.prev⟩, .inl a, by rw [c]; exact .refl⟩
  | some st =>
    obtain ⟨h1, _⟩ := step_own hs
    obtain ⟨s', d, st', k1, k2, _, k4, k5, _, _, k7, _⟩ := on_observe h i.1 st
    rw [k1] at h1
    simp only [Option.getD_some] at h1
    rw [h1]
    exact ⟨k2, .inr ⟨d, st', rfl, k4, k5⟩, k7⟩

theorem reported_report {d : List Out} (h : ∀ o ∈ d, ∀ x, o ≠ .report x) (st : AvState) :
    reported (d ++ [.report st]) = [st.current] := by
  unfold reported
  rw [List.filterMap_append, List.filterMap_eq_nil_iff.mpr]
  · rfl
  · intro o ho
    cases o with
    | report x => exact absurd rfl (h _ ho x)
    | _ => rfl

/-- A mission is what counts from its arrival to the next. -/
theorem on_after {cfg : Config} {t0 : ℤ} {l0 : Bool} {hist later : List (ℤ × Msg)} {i : ℤ × Msg} {m : Mission}
    (hm : newMission cfg.vehicle i.2 = some m) (hq : Quiet cfg.vehicle later) :
    On m (after cfg t0 l0 (hist ++ i :: later)) ∧
    ∃ outs, sent cfg t0 l0 (hist ++ i :: later) = sent cfg t0 l0 hist ++ [] :: outs ∧
      List.IsChain (Along m) (m.first :: (outs.map reported).flatten) ∧
      ((m.first :: (outs.map reported).flatten).getLast? = some (after cfg t0 l0 (hist ++ i :: later)).nav.cur) := by
  induction later using List.reverseRecOn with
  | nil =>
    have hc := after_cfg cfg t0 l0 hist
    have ho : ownState (after cfg t0 l0 hist).cfg.vehicle i.2 = none := by
      rcases i with ⟨now, i⟩
      cases i <;> simp [newMission] at hm <;> rfl
    have h1 := step_other ho
    rw [hc] at h1
    rw [hm] at h1
    obtain ⟨a, b⟩ := h1
    rw [(after_snoc cfg t0 l0 hist i).1, (after_snoc cfg t0 l0 hist i).2, b, a]
    exact ⟨on_assign _ _ _, [], rfl, by simp, rfl⟩
  | append_singleton later j ih =>
    obtain ⟨h1, outs, h2, h3, h4⟩ := ih fun k hk => hq k (List.mem_append_left _ hk)
    have hj : newMission (after cfg t0 l0 (hist ++ i :: later)).cfg.vehicle j.2 = none := by
      rw [after_cfg]; exact hq j (by simp)
    obtain ⟨k1, k2, k3⟩ := on_step h1 hj
    rw [show hist ++ i :: (later ++ [j]) = (hist ++ i :: later) ++ [j] from by simp,
      (after_snoc cfg t0 l0 _ j).1, (after_snoc cfg t0 l0 _ j).2, h2]
    refine ⟨k1, outs ++ [(step (after cfg t0 l0 (hist ++ i :: later)) j).2], by simp, ?_⟩
    rcases k2 with k2 | ⟨d, st', k2, k4, k5⟩
    · have ho : ownState (after cfg t0 l0 (hist ++ i :: later)).cfg.vehicle j.2 = none := by
        cases ho : ownState (after cfg t0 l0 (hist ++ i :: later)).cfg.vehicle j.2 with
        | none => rfl
        | some st =>
          obtain ⟨e1, _⟩ := step_own ho
          obtain ⟨s', d, st', e2, _⟩ := on_observe h1 j.1 st
          rw [e2] at e1
          rw [e1] at k2
          simp at k2
      have e := step_other ho
      rw [hj] at e
      rw [k2, e.2.2]
      simpa [reported] using ⟨h3, h4⟩
    · rw [k2]
      have e : ((outs ++ [d ++ [Out.report st']]).map reported).flatten = (outs.map reported).flatten ++ [st'.current] := by
        simp [reported_report k4]
      rw [e, k5]
      refine ⟨?_, by rw [← List.cons_append, List.getLast?_append]; rfl⟩
      rw [← List.cons_append]
      refine List.isChain_append.mpr ⟨h3, by simp, ?_⟩
      intro x hx y hy
      rw [h4] at hx
      simp at hx hy
      subst hx hy
      exact k3

/-! ## C132 -/

/-- **C132.**  Every state of the vehicle is answered with exactly one report: the state itself, with the number of the
current waypoint and with the tasks of the waypoint that has this number; at most one command comes before it.  Other
messages are not answered. -/
theorem C132_report (cfg : Config) (t0 : ℤ) (l0 : Bool) (hist : List (ℤ × Msg)) (i : ℤ × Msg) :
    match ownState cfg.vehicle i.2 with
    | none => sent cfg t0 l0 (hist ++ [i]) = sent cfg t0 l0 hist ++ [[]]
    | some st => ∃ d k tasks, sent cfg t0 l0 (hist ++ [i]) = sent cfg t0 l0 hist ++
        [d ++ [.report { id := st.id, loc := st.loc, current := k, tasks := tasks, rest := st.rest }]] ∧
      d.length ≤ 1 ∧ (∀ o ∈ d, ∀ x, o ≠ .report x) ∧ k = (after cfg t0 l0 (hist ++ [i])).nav.cur ∧
      (∀ m, (after cfg t0 l0 hist).mission = some m → tasks = (m.find k).elim [] (·.tasks)) := by
  have hc := after_cfg cfg t0 l0 hist
  rw [(after_snoc cfg t0 l0 hist i).2, (after_snoc cfg t0 l0 hist i).1]
  cases ho : ownState cfg.vehicle i.2 with
  | none => rw [(step_other (s := after cfg t0 l0 hist) (by rw [hc]; exact ho)).1]
  | some st =>
    rw [(step_own (s := after cfg t0 l0 hist) (by rw [hc]; exact ho)).1]
    generalize after cfg t0 l0 hist = s
    cases hb : s.mission.bind (·.find s.nav.cur) with
    | none =>
      rw [observe_none hb]
      refine ⟨[], s.nav.cur, [], rfl, by simp, by simp, rfl, fun m hm => ?_⟩
      rw [hm, Option.bind_some] at hb
      rw [hb]; rfl
    | some w =>
      obtain ⟨m, hm, hw⟩ := Option.bind_eq_some_iff.mp hb
      obtain ⟨n, q, v, h1, h2⟩ := observe_spec hm hw i.1 st
      rw [h1]
      refine ⟨_, n.cur, v.tasks, rfl, ?_, ?_, rfl, fun m' hm' => ?_⟩
      · unfold S.direct; split
        · simp
        · split <;> simp
      · unfold S.direct; split
        · simp
        · split <;> simp
      · rw [hm] at hm'; cases hm'
        rcases h2 with ⟨_, rfl, _, rfl⟩ | ⟨_, acc, t, q0, _, hend⟩
        · rw [hw]; rfl
        · rw [hend.cur, show m.find v.number = some v from hend.found]; rfl

/-- **C132.**  From the arrival of a mission to the next, the reported waypoints follow the links of the mission, starting
from its first waypoint: each reported number is that of the report before or is reached from it along links. -/
theorem C132_route {cfg : Config} {t0 : ℤ} {l0 : Bool} {hist later : List (ℤ × Msg)} {i : ℤ × Msg} {m : Mission}
    (hm : newMission cfg.vehicle i.2 = some m) (hq : Quiet cfg.vehicle later) :
    ∃ outs, sent cfg t0 l0 (hist ++ i :: later) = sent cfg t0 l0 hist ++ [] :: outs ∧
      List.IsChain (Along m) (m.first :: (outs.map reported).flatten) := by
  obtain ⟨_, outs, h1, h2, _⟩ := on_after (t0 := t0) (l0 := l0) (hist := hist) hm hq
  exact ⟨outs, h1, h2⟩

end Verif.Steering
