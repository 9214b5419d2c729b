import Verif.Timer.Model

/-!
Specification of one timer, independent of the queue of the timer manager: the phases a timer
goes through, as a function of the calls that name it and of the worker's callbacks.
-/

namespace Verif.Timer

/-- The life of one timer as its owner sees it. -/
inductive Phase where
  /-- Not created yet, or destroyed. -/
  | gone
  /-- Exists, not started. -/
  | idle
  /-- Started: fires when the time `due` has come; period 0 for a single shot. -/
  | armed (due period : Int)
  /-- Its handler is running; `disabled`, `destroyed`: requests made meanwhile. -/
  | running (due period : Int) (disabled destroyed : Bool)
deriving Repr, DecidableEq

/-- Disabling or destroying. -/
def Phase.cancel (destroy : Bool) : Phase → Phase
  | .gone => .gone
  | .idle => if destroy then .gone else .idle
  | .armed _ _ => if destroy then .gone else .idle
  | .running d p _ x => .running d p true (x || destroy)

/-- Starting. -/
def Phase.start (due period : Int) : Phase → Phase
  | .gone => .gone
  | _ => .armed due period

/-- The handler is called. -/
def Phase.fire : Phase → Phase
  | .armed d p => .running d p false false
  | ph => ph

/-- The handler has returned: a periodic timer is due again one period after it was due. -/
def Phase.finish : Phase → Phase
  | .running d p disabled destroyed =>
    if destroyed then .gone else if disabled then .idle
    else if p > 0 then .armed (d + p) p else .idle
  | ph => ph

/-- The next phase of timer `id` after an operation with a given output.  Operations that do not
name the timer do not change it. -/
def Phase.next (id : Nat) (ph : Phase) : Op → Out → Phase
  | .create, o => if o = .created id then .idle else ph
  | .startSingleShot k now delay, _ => if k = id then ph.start (now + delay) 0 else ph
  | .startPeriodic k now delay period, _ =>
    if k = id ∧ period > 0 then ph.start (now + delay) period else ph
  | .startInHandler _, _ => ph
  | .disable k, _ => if k = id then ph.cancel false else ph
  | .destroy k, _ => if k = id then ph.cancel true else ph
  | .destroyMany ks _, _ => if id ∈ ks then ph.cancel true else ph
  | .isActive _, _ => ph
  | .fire _, o => if o = .fired id then ph.fire else ph
  | .finish, o => if o = .finished id then ph.finish else ph

/-- Disabling and destroying succeed except while the handler is running. -/
def Phase.droppable : Phase → Bool
  | .running .. => false
  | _ => true

/-- Is the timer started? -/
def Phase.active : Phase → Bool
  | .armed .. => true
  | _ => false

/-- The answers that the owner of timer `id` may expect in a given phase. -/
def Phase.answers (id : Nat) (ph : Phase) : Op → Out → Prop
  | .create, o => ph ≠ .gone → o ≠ .created id
  | .startSingleShot k _ _, o => k = id → o = .result (ph != .gone)
  | .startPeriodic k _ _ period, o => k = id → o = .result (ph != .gone && decide (period > 0))
  | .startInHandler k, o => k = id → o = .result false
  | .disable k, o => k = id → ph ≠ .gone → o = .result ph.droppable
  | .destroy k, o => k = id → ph ≠ .gone → o = .result ph.droppable
  | .isActive k, o => k = id → o = .result ph.active
  | .fire now, o => o = .fired id → ∃ d p, ph = .armed d p ∧ d ≤ now
  | _, _ => True

/-- The phase of a timer along a history with its outputs. -/
def Phase.after (id : Nat) : Phase → List Op → List Out → Phase
  | ph, op :: ops, o :: os => (ph.next id op o).after id ops os
  | ph, _, _ => ph

/-- The answers along a history. -/
def Phase.allAnswers (id : Nat) : Phase → List Op → List Out → Prop
  | ph, op :: ops, o :: os => ph.answers id op o ∧ (ph.next id op o).allAnswers id ops os
  | _, _, _ => True

/-- The operation is a call that names timer `id`. -/
def Op.names (id : Nat) : Op → Prop
  | .startSingleShot k _ _ => k = id
  | .startPeriodic k _ _ _ => k = id
  | .startInHandler k => k = id
  | .disable k => k = id
  | .destroy k => k = id
  | .destroyMany ks _ => id ∈ ks
  | _ => False

/-- How often the handler of a timer was called. -/
def firings (id : Nat) (os : List Out) : Nat := os.countP fun o => o == .fired id

end Verif.Timer
