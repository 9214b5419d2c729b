import Verif.Services.StatusProps
import Verif.Timer.Model

/-!
# Examples for C126
-/

namespace Verif.Status

open Verif

/-- For the examples: reports each 300 ms, states stale after 200 ms, authorisations after a second. -/
def c0 : Cfg := configure 4 none (some 300) (some 200) (some 10)

/-- For the examples: whether the timers are timely, computed. -/
def timelyB (c : Cfg) (L : Nat) : State → List (Nat × Ev) → Bool
  | _, [] => true
  | s, e :: q =>
    ([Kind.report, .alive, .stale].all fun k => (s.due k).all fun d => e.1 ≤ d + L) &&
      (s.running.all fun x => e.1 ≤ x.2.1 + L) && timelyB c L (step c s e).1 q

theorem timelyB_sound {c : Cfg} {L : Nat} {h : List (Nat × Ev)} (hb : timelyB c L (init c) h = true) : Timely c L h := by
  have key : ∀ (p : List (Nat × Ev)) (s : State) (e : Nat × Ev) (q : List (Nat × Ev)), timelyB c L s (p ++ e :: q) = true →
      (∀ k d, (runM (step c) s p).1.due k = some d → e.1 ≤ d + L) ∧
        ∀ k d b, (runM (step c) s p).1.running = some (k, d, b) → e.1 ≤ d + L := by
    intro p
    induction p with
    | nil =>
      intro s e q h
      simp only [List.nil_append, timelyB, Bool.and_eq_true, List.all_eq_true] at h
      refine ⟨fun k d hd => ?_, fun k d b hd => ?_⟩
      · have := h.1.1 k (by cases k <;> simp)
        rw [show s.due k = some d from hd] at this
        simpa using this
      · have := h.1.2
        rw [show s.running = some (k, d, b) from hd] at this
        simpa using this
    | cons x p ih =>
      intro s e q h
      simp only [List.cons_append, timelyB, Bool.and_eq_true] at h
      rw [runM_cons]
      exact ih _ e q h.2
  rintro p e q rfl
  exact key p _ e q hb

/-- For the examples: states at 150, a keep-alive, and a join. -/
def h0 : List (Nat × Ev) :=
  [(20, .recv (.join 9)), (30, .recv (.join 7)), (40, .recv (.keepAlive true false true)), (50, .recv (.exit 9)),
    (60, .recv (.state 5 1 [3])), (150, .recv (.state 4 148 [11, 12])), (301, .fire .report)]

/-- C126_contents, C126_stale, C126_authorised, C126_period_partial: a report is sent at 302, with timers 5 ms late at most. -/
example : (step c0 (run c0 h0) (302, .body)).2 =
      some { vehicle := 4, connected := [7], tasks := [11, 12], validState := true, auth := true, gimbal := true, time := 148 } ∧
    Timely c0 5 (h0 ++ [(302, .body)]) ∧ (run c0 h0).ub = false ∧ ∀ x ∈ h0, x.1 ≤ 302 :=
  ⟨by decide +kernel, timelyB_sound (by decide +kernel), by decide +kernel, by decide +kernel⟩

/-- C126_fresh_partial: its hypotheses are met in that history. -/
example : (∀ d, (run c0 (h0.take 5)).running ≠ some (.stale, d, false)) ∧
    h0 = h0.take 5 ++ (150, .recv (.state c0.vehicle 148 [11, 12])) :: [(301, .fire .report)] ∧
    (∀ x ∈ [((301 : Nat), Ev.fire .report)], x.1 < 150 + c0.staleTime) ∧
    ∀ x ∈ [((301 : Nat), Ev.fire .report)], ownState c0.vehicle x = none := by
  refine ⟨?_, by decide +kernel, by decide +kernel, by decide +kernel⟩
  intro d h
  have : (run c0 (h0.take 5)).running = none := by decide +kernel
  rw [this] at h; cases h

/-- C126_stale, C126_authorised: later both have run out, and the report says so. -/
example : (step c0 (run c0 (h0 ++ [(302, .body), (302, .finish), (351, .fire .stale), (351, .body), (352, .finish),
      (600, .fire .report), (600, .body), (600, .finish), (900, .fire .report), (900, .body), (900, .finish),
      (1041, .fire .alive), (1041, .body), (1041, .finish), (1200, .fire .report)])) (1200, .body)).2 =
    some { vehicle := 4, connected := [7], tasks := [11, 12], time := 148 } := by decide +kernel

/-- **C126.**  A state that arrives while the handler of the stale timer waits for the lock is reported invalid, though it is fresh:
the handler for the previous state is called after it. -/
theorem C126_fresh_violated :
    let h : List (Nat × Ev) := [(0, .recv (.state 4 1 [])), (200, .fire .stale), (200, .recv (.state 4 2 [])), (201, .body),
      (201, .finish), (300, .fire .report)]
    c0.vehicle = 4 ∧ c0.staleTime = 200 ∧ lastOf (ownState 4) h = some (200, 2, []) ∧
      (step c0 (run c0 h) (300, .body)).2 = some { vehicle := 4, validState := false, time := 2 } := by decide +kernel

/-- C126_restart_violated: a report is being sent. -/
example : (run c0 (h0 ++ [(302, .body)])).ub = false ∧ (run c0 (h0 ++ [(302, .body)])).running = some (.report, 300, true) := by
  decide +kernel

/-- C126_restart_violated with the model of the `TimerManager` (C44): the report timer is not found active while its handler is
called, is started again, and put in the queue a second time. -/
example :
    (∃ s, Timer.run {} [.create, .create, .create, .startPeriodic 1 0 300 300, .fire 300, .isActive 1,
      .startPeriodic 1 303 300 300] = .ok (s, [.created 1, .created 2, .created 3, .result true, .fired 1, .result false,
        .result true])) ∧
    (match Timer.run {} [.create, .create, .create, .startPeriodic 1 0 300 300, .fire 300, .isActive 1,
      .startPeriodic 1 303 300 300, .finish] with | .ub => True | _ => False) := by
  exact ⟨⟨_, rfl⟩, trivial⟩

end Verif.Status
