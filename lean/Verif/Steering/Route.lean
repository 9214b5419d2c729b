import Verif.Steering.Props

/-!
# C132, continued: how far the vehicle is on its route

Which waypoint is the current one after a state of the vehicle; routes that close on themselves; loiters.
-/

namespace Verif.Steering

open Real

/-! ## Specification -/

/-- A route without loiters on which every waypoint links to another one. -/
structure Patrol (m : Mission) : Prop where
  first : (m.find m.first).isSome
  goesOn : ∀ w ∈ m.wps, w.loiter = none ∧ w.next ≠ w.number ∧ (m.find w.next).isSome

/-- Seen from `o`, every leg is longer than a metre. -/
def LongLegs (m : Mission) (o : Loc) : Prop := ∀ u ∈ m.wps, ∀ w, m.find u.next = some w →
  1 < ((toNE o u.loc).1 - (toNE o w.loc).1) ^ 2 + ((toNE o u.loc).2 - (toNE o w.loc).2) ^ 2

/-- No waypoint is accepted from a distance. -/
def NoShortcut (cfg : Config) (m : Mission) : Prop := cfg.acceptTime = 0 ∨ ∀ w ∈ m.wps, w.turnShort = false

/-- Seen from `o`, where the vehicle is, waypoint `w` lies ahead on the leg from waypoint `u`: the vehicle has not crossed the
line through `w` at right angles to the leg. -/
def Ahead (o : Loc) (u w : Wp) : Prop :=
  0 < ((toNE o u.loc).1 - (toNE o w.loc).1) * (0 - (toNE o w.loc).1) +
    ((toNE o u.loc).2 - (toNE o w.loc).2) * (0 - (toNE o w.loc).2)

/-! ## One state of the vehicle -/

/-- **C132.**  A state of a vehicle that is under way takes the current waypoint along the links over waypoints that are all
reached, none of them twice, to one that is not reached; or to one that is reached, when the route ends there or leads back
to a waypoint already passed because of this state. -/
theorem C132_forward (cfg : Config) (t0 : ℤ) (l0 : Bool) (hist : List (ℤ × Msg)) {m : Mission} {w : Wp} {st : AvState}
    (now : ℤ) (hm : (after cfg t0 l0 hist).mission = some m) (hw : m.find (after cfg t0 l0 hist).nav.cur = some w)
    (hl : (after cfg t0 l0 hist).nav.isLast = false) (hst : st.id = cfg.vehicle) :
    ∃ acc t q v,
      Walk (env (after cfg t0 l0 hist) m now st) (after cfg t0 l0 hist).nav.start (legStart (after cfg t0 l0 hist) st) w
        acc t q v ∧
      (acc.map (·.number)).Nodup ∧
      (after cfg t0 l0 (hist ++ [(now, .state st)])).nav.cur = v.number ∧ m.find v.number = some v ∧
      (after cfg t0 l0 (hist ++ [(now, .state st)])).nav.start = t ∧
      (((after cfg t0 l0 (hist ++ [(now, .state st)])).nav.isLast = false ∧
          ¬Reached (env (after cfg t0 l0 hist) m now st) t q v) ∨
        ((after cfg t0 l0 (hist ++ [(now, .state st)])).nav.isLast = true ∧
          Reached (env (after cfg t0 l0 hist) m now st) t q v ∧
          (m.find v.next = none ∨ v.next = v.number ∨ v.number ∈ acc.map (·.number)))) := by
  rw [(after_snoc cfg t0 l0 hist _).1]
  have hs : ownState (after cfg t0 l0 hist).cfg.vehicle (Msg.state st) = some st := by
    rw [after_cfg]; simp [ownState, hst]
  rw [(step_own (i := (now, Msg.state st)) hs).1]
  obtain ⟨n, q, v, h1, h2⟩ := observe_spec hm hw now st
  rw [h1]
  rcases h2 with ⟨h, _⟩ | ⟨_, acc, t, q0, hwalk, hend⟩
  · rw [h] at hl; cases hl
  refine ⟨acc, t, q0, v, hwalk, ?_, hend.cur, hend.found, hend.time, ?_⟩
  · have := hend.nodup
    simpa [List.nodup_reverse] using this
  · rcases hend.how with ⟨a, b, _⟩ | ⟨a, b, c, _⟩ | ⟨a, b, c⟩
    · exact .inl ⟨a, b⟩
    · exact .inr ⟨a, b, c.elim .inl fun c => .inr (.inl c)⟩
    · exact .inr ⟨a, b, .inr (.inr (by simpa using c))⟩

/-- Once the route has ended the place on it stays. -/
theorem last_step {s : S} (hl : s.nav.isLast = true) {i : ℤ × Msg} (hi : newMission s.cfg.vehicle i.2 = none) :
    (step s i).1.nav = s.nav ∧ (step s i).1.mission = s.mission := by
  cases ho : ownState s.cfg.vehicle i.2 with
  | none =>
    have := step_other ho
    rw [hi] at this
    exact ⟨this.2.2, this.2.1⟩
  | some st =>
    rw [(step_own ho).1]
    cases hb : s.mission.bind (·.find s.nav.cur) with
    | none => rw [observe_none hb]; exact ⟨rfl, rfl⟩
    | some w =>
      obtain ⟨m, hm, hw⟩ := Option.bind_eq_some_iff.mp hb
      obtain ⟨n, q, v, h1, h2⟩ := observe_spec hm hw i.1 st
      rw [h1]
      rcases h2 with ⟨_, rfl, _, _⟩ | ⟨h, _⟩
      · exact ⟨rfl, rfl⟩
      · rw [hl] at h; cases h

theorem last_after {cfg : Config} {t0 : ℤ} {l0 : Bool} {hist later : List (ℤ × Msg)}
    (hl : (after cfg t0 l0 hist).nav.isLast = true) (hq : Quiet cfg.vehicle later) :
    (after cfg t0 l0 (hist ++ later)).nav = (after cfg t0 l0 hist).nav := by
  induction later using List.reverseRecOn with
  | nil => simp
  | append_singleton later j ih =>
    have h := ih fun k hk => hq k (List.mem_append_left _ hk)
    rw [← List.append_assoc, (after_snoc cfg t0 l0 _ j).1, (last_step (by rw [h]; exact hl) (by
      rw [after_cfg]; exact hq j (by simp))).1, h]

/-! ## Routes that close on themselves -/

theorem target_of_none {w : Wp} (h : w.loiter = none) : w.target = w.loc := by simp [Wp.target, h]

/-- Reaching a waypoint by crossing its line brings one nearer. -/
theorem reached_nearer {e : Env} {s : ℤ} {p : Pt} {w : Wp} (hl : w.loiter = none)
    (hs : e.acceptTime = 0 ∨ w.turnShort = false)
    (hd : 1 < (p.1 - (e.pt w).1) ^ 2 + (p.2 - (e.pt w).2) ^ 2) (h : Reached e s p w) :
    (e.pt w).1 ^ 2 + (e.pt w).2 ^ 2 < p.1 ^ 2 + p.2 ^ 2 := by
  unfold Reached at h
  rw [hl] at h
  rcases h with h | h | ⟨h1, h2, _⟩
  · nlinarith
  · nlinarith
  · rcases hs with hs | hs
    · omega
    · rw [hs] at h2; cases h2

theorem walk_nearer {e : Env} (hm : ∀ w ∈ e.mission.wps, w.loiter = none) (hlegs : LongLegs e.mission e.pos)
    (hshort : e.acceptTime = 0 ∨ ∀ w ∈ e.mission.wps, w.turnShort = false) {s t : ℤ} {p q : Pt} {w v : Wp} {acc : List Wp}
    (h : Walk e s p w acc t q v) : ∀ u ∈ e.mission.wps, p = e.pt u → e.mission.find u.next = some w → Reached e t q v →
    (e.pt v).1 ^ 2 + (e.pt v).2 ^ 2 < p.1 ^ 2 + p.2 ^ 2 := by
  have key : ∀ (s : ℤ) (u w : Wp), u ∈ e.mission.wps → e.mission.find u.next = some w → Reached e s (e.pt u) w →
      (e.pt w).1 ^ 2 + (e.pt w).2 ^ 2 < (e.pt u).1 ^ 2 + (e.pt u).2 ^ 2 := by
    intro s u w hu hw hr
    have hwm := find_mem hw
    refine reached_nearer (hm w hwm) (hshort.imp id fun h => h w hwm) ?_ hr
    have := hlegs u hu w hw
    simp only [Env.pt, target_of_none (hm w hwm), target_of_none (hm u hu)]
    exact this
  induction h with
  | here s p w =>
    rintro u hu rfl hw hr
    exact key _ u w hu hw hr
  | @on start prev w w' acc t q v hr hn hne hwk ih =>
    rintro u hu rfl hw hrv
    exact (ih w (find_mem hw) rfl hn hrv).trans (key _ u w hu hw hr)

theorem patrol_observe {cfg : Config} {m : Mission} (hp : Patrol m) (hs : NoShortcut cfg m) {s : S} (hc : s.cfg = cfg)
    (hon : On m s) (hl : s.nav.isLast = false) (hf : (m.find s.nav.cur).isSome) (now : ℤ) {st : AvState}
    (hlegs : LongLegs m st.loc) :
    ∃ s' d st' v, s.observe now st = some (s', d ++ [.report st']) ∧ (∀ o ∈ d, ∀ x, o ≠ .report x) ∧
      s'.nav.isLast = false ∧ st'.current = v.number ∧ s'.nav.cur = v.number ∧ m.find v.number = some v ∧
      ((∃ u ∈ m.wps, u.next = v.number ∧ Ahead st.loc u v) ∨
        (v.number = m.first ∧ (∀ u ∈ m.wps, u.next ≠ m.first) ∧
          1 < (toNE st.loc v.loc).1 ^ 2 + (toNE st.loc v.loc).2 ^ 2)) := by
  obtain ⟨w, hw⟩ := Option.isSome_iff_exists.mp hf
  obtain ⟨n, q, v, h1, h2⟩ := observe_spec hon.mission hw now st
  have hnum := find_number hw
  have hd : ∀ g, ∀ o ∈ s.direct st.id v g, ∀ x, o ≠ .report x := by
    intro g
    unfold S.direct
    split
    · simp
    · split <;> simp
  rcases h2 with ⟨h, _⟩ | ⟨_, acc, t, q0, hwalk, hend⟩
  · rw [hl] at h; cases h
  obtain ⟨k1, k2, k3, k4⟩ := hwalk.link (hnum ▸ hw)
  have hvm : v ∈ m.wps := find_mem hend.found
  have hvl := (hp.goesOn v hvm).1
  have hno : ∀ w ∈ m.wps, w.loiter = none := fun w hw => (hp.goesOn w hw).1
  refine ⟨_, _, _, v, h1, hd _, ?_, hend.cur, hend.cur, hend.found, ?_⟩
  · show n.isLast = false
    rcases hend.how with ⟨a, _⟩ | ⟨_, _, c, _⟩ | ⟨_, b, c⟩
    · exact a
    · obtain ⟨_, g1, g2⟩ := hp.goesOn v hvm
      rcases c with c | c
      · simp only [env] at c; rw [c] at g2; cases g2
      · exact absurd c g1
    · exfalso
      simp only [List.append_nil, List.mem_reverse, List.mem_map] at c
      obtain ⟨u, hu, hun⟩ := c
      have huv : u = v := by
        have e1 := k2 u hu
        have e2 := hend.found
        rw [hun] at e1
        rw [e1] at e2
        exact Option.some.inj e2
      subst huv
      obtain ⟨a, b', t', q', _, hw2⟩ := hwalk.split hu
      cases hw2 with
      | on hr hn hne hw3 =>
        have := walk_nearer (e := env s m now st) hno hlegs
          (by rw [← hc] at hs; exact hs) hw3 u hvm rfl hn b
        exact lt_irrefl _ this
  · have hnr : ¬Reached (env s m now st) t q0 v := by
      rcases hend.how with ⟨_, b, _⟩ | ⟨_, _, c, _⟩ | ⟨_, b, c⟩
      · exact b
      · obtain ⟨_, g1, g2⟩ := hp.goesOn v hvm
        rcases c with c | c
        · simp only [env] at c; rw [c] at g2; cases g2
        · exact absurd c g1
      · exfalso
        simp only [List.append_nil, List.mem_reverse, List.mem_map] at c
        obtain ⟨u, hu, hun⟩ := c
        have huv : u = v := by
          have e1 := k2 u hu
          have e2 := hend.found
          rw [hun] at e1
          rw [e1] at e2
          exact Option.some.inj e2
        subst huv
        obtain ⟨a, b', t', q', _, hw2⟩ := hwalk.split hu
        cases hw2 with
        | on hr hn hne hw3 =>
          have := walk_nearer (e := env s m now st) hno hlegs
            (by rw [← hc] at hs; exact hs) hw3 u hvm rfl hn b
          exact lt_irrefl _ this
    unfold Reached at hnr
    rw [hvl] at hnr
    simp only [not_or, not_le] at hnr
    have hpt : (env s m now st).pt v = toNE st.loc v.loc := by simp only [Env.pt, target_of_none hvl]; rfl
    rw [hpt] at hnr
    cases acc with
    | nil =>
      obtain ⟨rfl, rfl, rfl⟩ := k4 rfl
      rcases hon.prev hl with ⟨p1, p2, p3⟩ | ⟨u, p1, p2, p3⟩
      · refine .inr ⟨by rw [hnum]; exact p2, p3, ?_⟩
        have e := hnr.2.1
        simp only [legStart, p1, sub_zero] at e
        exact e
      · refine .inl ⟨u, p1, by rw [hnum]; exact p2, ?_⟩
        have e := hnr.1
        simp only [legStart, p3] at e
        exact e
    | cons x xs =>
      obtain ⟨_, u, _, e2, e3, e4⟩ := k3 (by simp)
      refine .inl ⟨u, e2, e3, ?_⟩
      have e := hnr.1
      have hu : (env s m now st).pt u = toNE st.loc u.loc := by
        simp only [Env.pt, target_of_none (hno u e2)]; rfl
      rw [e4, hu] at e
      exact e

theorem patrol_after {cfg : Config} {t0 : ℤ} {l0 : Bool} {hist later : List (ℤ × Msg)} {i : ℤ × Msg} {m : Mission}
    (hm : newMission cfg.vehicle i.2 = some m) (hq : Quiet cfg.vehicle later) (hp : Patrol m) (hs : NoShortcut cfg m)
    (hlegs : ∀ j ∈ later, ∀ st, ownState cfg.vehicle j.2 = some st → LongLegs m st.loc) :
    (after cfg t0 l0 (hist ++ i :: later)).nav.isLast = false ∧
    (m.find (after cfg t0 l0 (hist ++ i :: later)).nav.cur).isSome := by
  induction later using List.reverseRecOn with
  | nil =>
    have ho : ownState (after cfg t0 l0 hist).cfg.vehicle i.2 = none := by
      rcases i with ⟨now, i⟩
      cases i <;> simp [newMission] at hm <;> rfl
    have h1 := step_other ho
    rw [after_cfg, hm] at h1
    rw [(after_snoc cfg t0 l0 hist i).1, h1.2]
    refine ⟨?_, hp.first⟩
    simp only [S.assign, S.reset]
    rw [beq_eq_false_iff_ne]
    intro hlen
    obtain ⟨w, hwl⟩ := List.length_eq_one_iff.mp hlen
    obtain ⟨_, g1, g2⟩ := hp.goesOn w (by simp [hwl])
    obtain ⟨w', hw'⟩ := Option.isSome_iff_exists.mp g2
    have e := find_mem hw'
    rw [hwl, List.mem_singleton] at e
    subst e
    exact g1 (find_number hw').symm
  | append_singleton later j ih =>
    have hq' : Quiet cfg.vehicle later := fun k hk => hq k (List.mem_append_left _ hk)
    obtain ⟨h1, h2⟩ := ih hq' fun k hk => hlegs k (List.mem_append_left _ hk)
    have hon := (on_after (t0 := t0) (l0 := l0) (hist := hist) hm hq').1
    rw [show hist ++ i :: (later ++ [j]) = (hist ++ i :: later) ++ [j] from by simp, (after_snoc cfg t0 l0 _ j).1]
    have hc := after_cfg cfg t0 l0 (hist ++ i :: later)
    generalize after cfg t0 l0 (hist ++ i :: later) = s at *
    cases ho : ownState s.cfg.vehicle j.2 with
    | none =>
      have := step_other ho
      rw [hc, hq j (by simp)] at this
      rw [this.2.2]; exact ⟨h1, h2⟩
    | some st =>
      obtain ⟨s', d, st', v, k1, _, k2, k3, k4, k5, _⟩ := patrol_observe hp hs hc hon h1 h2 j.1
        (hlegs j (by simp) st (by rw [← hc]; exact ho))
      rw [(step_own ho).1, k1]
      exact ⟨k2, by rw [Option.getD_some, k4, k5]; rfl⟩

/-- **C132.**  A route without loiters on which every waypoint links to another one is flown on and on: as long as no leg
looks shorter than a metre and nothing is accepted from a distance, every state of the vehicle is answered with a waypoint
that is still ahead on the leg that leads to it (if nothing leads to the first waypoint, with the first one, more than a
metre away), however long the history is. -/
theorem C132_patrol {cfg : Config} {t0 : ℤ} {l0 : Bool} {hist later : List (ℤ × Msg)} {i : ℤ × Msg} {m : Mission}
    (hm : newMission cfg.vehicle i.2 = some m) (hq : Quiet cfg.vehicle later) (hp : Patrol m) (hs : NoShortcut cfg m)
    (now : ℤ) (st : AvState) (hst : st.id = cfg.vehicle)
    (hlegs : ∀ j ∈ later ++ [(now, Msg.state st)], ∀ st, ownState cfg.vehicle j.2 = some st → LongLegs m st.loc) :
    ∃ d st' v, sent cfg t0 l0 (hist ++ i :: later ++ [(now, .state st)]) =
        sent cfg t0 l0 (hist ++ i :: later) ++ [d ++ [.report st']] ∧ (∀ o ∈ d, ∀ x, o ≠ .report x) ∧
      st'.current = v.number ∧ v ∈ m.wps ∧
      ((∃ u ∈ m.wps, u.next = v.number ∧ Ahead st.loc u v) ∨
        (v.number = m.first ∧ (∀ u ∈ m.wps, u.next ≠ m.first) ∧
          1 < (toNE st.loc v.loc).1 ^ 2 + (toNE st.loc v.loc).2 ^ 2)) := by
  obtain ⟨h1, h2⟩ := patrol_after (t0 := t0) (l0 := l0) (hist := hist) hm hq hp hs fun k hk =>
    hlegs k (List.mem_append_left _ hk)
  have hon := (on_after (t0 := t0) (l0 := l0) (hist := hist) hm hq).1
  have hc := after_cfg cfg t0 l0 (hist ++ i :: later)
  rw [(after_snoc cfg t0 l0 _ _).2]
  generalize after cfg t0 l0 (hist ++ i :: later) = s at *
  have ho : ownState cfg.vehicle (Msg.state st) = some st := by simp [ownState, hst]
  obtain ⟨s', d, st', v, k1, k2, _, k3, _, k5, k6⟩ := patrol_observe hp hs hc hon h1 h2 now
    (hlegs (now, Msg.state st) (by simp) st ho)
  rw [(step_own (s := s) (i := (now, Msg.state st)) (by rw [hc]; exact ho)).1, k1]
  exact ⟨d, st', v, rfl, k2, k3, find_mem k5, k6⟩

/-! ## Loiters -/

theorem loiter_step {s : S} {m : Mission} (hm : s.mission = some m) {w : Wp} (hw : m.find s.nav.cur = some w) {l : Loiter}
    (hl : w.loiter = some l) {i : ℤ × Msg} (hi : newMission s.cfg.vehicle i.2 = none)
    (ht : l.duration = -1 ∨ i.1 < s.nav.start + l.duration) :
    (step s i).1.nav = s.nav ∧ (step s i).1.mission = some m := by
  cases ho : ownState s.cfg.vehicle i.2 with
  | none =>
    have := step_other ho
    rw [hi] at this
    exact ⟨this.2.2, this.2.1.trans hm⟩
  | some st =>
    rw [(step_own ho).1]
    obtain ⟨n, q, v, h1, h2⟩ := observe_spec hm hw i.1 st
    rw [h1]
    rcases h2 with ⟨_, rfl, _, _⟩ | ⟨_, acc, t, q0, hwalk, hend⟩
    · exact ⟨rfl, hm⟩
    have hnr : ¬Reached (env s m i.1 st) s.nav.start (legStart s st) w := by
      unfold Reached
      rw [hl]
      rintro ⟨a, b⟩
      simp only [env] at b
      rcases ht with ht | ht
      · exact a ht
      · omega
    cases hwalk with
    | on hr _ _ _ => exact absurd hr hnr
    | here =>
      refine ⟨?_, hm⟩
      show n = s.nav
      rcases hend.how with ⟨a, b, c, d⟩ | ⟨_, b, _⟩ | ⟨_, b, _⟩
      · have h1 := hend.cur
        have h2 := hend.time
        rw [find_number hw] at h1
        have h3 : s.nav.isLast = false := by assumption
        cases n
        cases hsn : s.nav
        simp_all
      · exact absurd b hnr
      · exact absurd b hnr

/-- **C132.**  A loiter that becomes the current waypoint at some time stays so for its duration, for ever with duration -1:
as long as no new mission comes, every report before its duration has passed has its number. -/
theorem C132_loiter {cfg : Config} {t0 : ℤ} {l0 : Bool} {hist later : List (ℤ × Msg)} {i : ℤ × Msg} {m : Mission} {w : Wp}
    {l : Loiter} (hm : (after cfg t0 l0 (hist ++ [i])).mission = some m)
    (hw : m.find (after cfg t0 l0 (hist ++ [i])).nav.cur = some w) (hl : w.loiter = some l)
    (hnew : (newMission cfg.vehicle i.2).isSome ∨
      (after cfg t0 l0 hist).nav.cur ≠ (after cfg t0 l0 (hist ++ [i])).nav.cur)
    (hq : Quiet cfg.vehicle later) (ht : l.duration = -1 ∨ ∀ j ∈ later, j.1 < i.1 + l.duration) :
    (after cfg t0 l0 (hist ++ i :: later)).nav.cur = w.number := by
  have hstart : (after cfg t0 l0 (hist ++ [i])).nav.start = i.1 := by
    have hc := after_cfg cfg t0 l0 hist
    rw [(after_snoc cfg t0 l0 hist i).1] at hnew ⊢
    generalize after cfg t0 l0 hist = s at *
    cases ho : ownState s.cfg.vehicle i.2 with
    | none =>
      have h1 := step_other ho
      rw [hc] at h1
      cases hn : newMission cfg.vehicle i.2 with
      | none =>
        rw [hn] at h1 hnew
        rcases hnew with h | h
        · cases h
        · rw [h1.2.2] at h; exact absurd rfl h
      | some m' =>
        rw [hn] at h1
        rw [h1.2]; rfl
    | some st =>
      have hn := (step_own ho).2
      rw [hc] at hn
      rw [hn] at hnew
      rcases hnew with h | h
      · cases h
      rw [(step_own ho).1] at h ⊢
      cases hb : s.mission.bind (·.find s.nav.cur) with
      | none => rw [observe_none hb] at h; exact absurd rfl h
      | some w0 =>
        obtain ⟨m0, hm0, hw0⟩ := Option.bind_eq_some_iff.mp hb
        obtain ⟨n, q, v, h1, h2⟩ := observe_spec hm0 hw0 i.1 st
        rw [h1] at h ⊢
        rcases h2 with ⟨_, rfl, _, _⟩ | ⟨_, acc, t, q0, hwalk, hend⟩
        · exact absurd rfl h
        · obtain ⟨_, _, k3, k4⟩ := hwalk.link (find_number hw0 ▸ hw0)
          show n.start = i.1
          rw [hend.time]
          cases acc with
          | nil =>
            obtain ⟨rfl, _, _⟩ := k4 rfl
            refine absurd ?_ h
            show s.nav.cur = n.cur
            rw [hend.cur, find_number hw0]
          | cons x xs => exact (k3 (by simp)).1
  have key : (after cfg t0 l0 (hist ++ i :: later)).nav = (after cfg t0 l0 (hist ++ [i])).nav ∧
      (after cfg t0 l0 (hist ++ i :: later)).mission = some m := by
    induction later using List.reverseRecOn with
    | nil => exact ⟨rfl, hm⟩
    | append_singleton later j ih =>
      obtain ⟨h1, h2⟩ := ih (fun k hk => hq k (List.mem_append_left _ hk))
        (ht.imp id fun h k hk => h k (List.mem_append_left _ hk))
      rw [show hist ++ i :: (later ++ [j]) = (hist ++ i :: later) ++ [j] from by simp, (after_snoc cfg t0 l0 _ j).1]
      have := loiter_step (s := after cfg t0 l0 (hist ++ i :: later)) (i := j) h2 (by rw [h1]; exact hw) hl
        (by rw [after_cfg]; exact hq j (by simp)) (by rw [h1, hstart]; exact ht.imp id fun h => h j (by simp))
      rw [← h1]
      exact this
  rw [key.1]
  exact (find_number hw).symm

end Verif.Steering
