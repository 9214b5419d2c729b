import Verif.Trace

/-!
# The service that hands on automation requests one at a time

`src/cpp/Services/SerialAutomationRequestTestService.cpp` 90-131.  A request is identified by the place it was given in the
history, its name.  The timer runs in a thread of its own, without a lock on the queue: here its firing is one more input
between two messages, so a firing during a message, which is a data race, is not modelled.
-/

namespace Verif.Serial

open Verif

/-- SerialAutomationRequestTestService.cpp 90-114: a request of the name, one of the two
kinds of response, and the firing of the timer. -/
inductive In where
  | request (r : Int)
  | response
  | timeout
deriving DecidableEq, Repr

/-- SerialAutomationRequestTestService.cpp 99, 102, 126, 129: what the service does: the
request handed on to `UniqueAutomationRequest`, and the start of the timer. -/
inductive Out where
  | forward (r : Int)
  | startTimer
deriving DecidableEq, Repr

/-- SerialAutomationRequestTestService.h 136-137: `m_waitingRequests`, `m_isAllClear`. -/
structure St where
  waiting : List Int := []
  clear : Bool := true
deriving DecidableEq, Repr

/-- `OnResponseTimeout`, SerialAutomationRequestTestService.cpp 116-131. -/
def St.next (s : St) : St × List Out :=
  match s.waiting with
  | [] => ({ s with clear := true }, [])
  | r :: l => ({ s with waiting := l }, [.forward r, .startTimer])

/-- `processReceivedLmcpMessage`, SerialAutomationRequestTestService.cpp 90-114, and the
timer. -/
def step (s : St) : In → St × List Out
  | .request r =>
    if s.waiting.isEmpty && s.clear then ({ s with clear := false }, [.forward r, .startTimer])
    else ({ s with waiting := s.waiting ++ [r] }, [])
  | .response => s.next
  | .timeout => s.next

/-! ### What is said of it -/

/-- Not in the code: the state after a history. -/
def after (h : List In) : St := (runM step {} h).1

/-- Not in the code: what is done for each input of a history. -/
def sent (h : List In) : List (List Out) := (runM step {} h).2

/-- Specification: the requests received. -/
def requests : List In → List Int
  | [] => []
  | .request r :: l => r :: requests l
  | _ :: l => requests l

/-- Specification: the requests handed on. -/
def forwards : List Out → List Int
  | [] => []
  | .forward r :: l => r :: forwards l
  | .startTimer :: l => forwards l

/-- Specification: the number of responses and timeouts. -/
def ends : List In → Nat
  | [] => 0
  | .request _ :: l => ends l
  | _ :: l => ends l + 1

theorem requests_append (l m : List In) : requests (l ++ m) = requests l ++ requests m := by
  induction l with
  | nil => rfl
  | cons i l ih => cases i <;> simp [requests, ih]

theorem forwards_append (l m : List Out) : forwards (l ++ m) = forwards l ++ forwards m := by
  induction l with
  | nil => rfl
  | cons i l ih => cases i <;> simp [forwards, ih]

theorem after_snoc (h : List In) (i : In) : after (h ++ [i]) = (step (after h) i).1 := by
  rw [after, runM_snoc]; rfl

theorem sent_snoc (h : List In) (i : In) : sent (h ++ [i]) = sent h ++ [(step (after h) i).2] := by
  rw [sent, runM_snoc]; rfl

theorem forwards_sent_snoc (h : List In) (i : In) :
    forwards (sent (h ++ [i])).flatten = forwards (sent h).flatten ++ forwards (step (after h) i).2 := by
  rw [sent_snoc, List.flatten_append, forwards_append]; simp

/-- The requests handed on and those that wait are those received; requests wait only behind one that is outstanding. -/
theorem keeps (h : List In) :
    forwards (sent h).flatten ++ (after h).waiting = requests h ∧ ((after h).clear = true → (after h).waiting = []) := by
  induction h using snocRec with
  | nil => exact ⟨rfl, fun _ => rfl⟩
  | append_singleton h i ih =>
    rw [forwards_sent_snoc, after_snoc, requests_append, ← ih.1]
    have hn : forwards (sent h).flatten ++ forwards (after h).next.2 ++ (after h).next.1.waiting =
        forwards (sent h).flatten ++ (after h).waiting ++ [] ∧
        ((after h).next.1.clear = true → (after h).next.1.waiting = []) := by
      rw [St.next]
      cases hw : (after h).waiting with
      | nil => simp [forwards, hw]
      | cons r l =>
        refine ⟨by simp [forwards], fun hc => ?_⟩
        have := ih.2 hc
        rw [hw] at this; cases this
    cases i with
    | response => exact hn
    | timeout => exact hn
    | request r =>
      rw [step]
      cases hc : (after h).waiting.isEmpty && (after h).clear with
      | true =>
        rw [if_pos rfl]
        simp only [Bool.and_eq_true, List.isEmpty_iff] at hc
        exact ⟨by simp [forwards, hc.1, requests], fun h => by cases h⟩
      | false =>
        rw [if_neg (by simp)]
        refine ⟨by simp [forwards, requests], fun h1 => ?_⟩
        have := ih.2 h1
        simp [this, h1] at hc
        exact absurd h1 (by simp [hc])

/-! ### C47 -/

/-- The requests are handed on in the order they were received, each at most once, and none is lost: what was not handed on
yet is the end of what was received, and it is handed on by as many responses or timeouts. -/
theorem C47_order (h : List In) :
    ∃ w, forwards (sent h).flatten ++ w = requests h ∧
      ∀ g, (∀ i ∈ g, i = .response ∨ i = .timeout) → w.length ≤ g.length → forwards (sent (h ++ g)).flatten = requests h := by
  refine ⟨(after h).waiting, (keeps h).1, ?_⟩
  intro g hg hl
  have key : ∀ (g : List In) (h : List In), (∀ i ∈ g, i = .response ∨ i = .timeout) → (after h).waiting.length ≤ g.length →
      forwards (sent (h ++ g)).flatten = requests h := by
    intro g
    induction g with
    | nil =>
      intro h _ hl
      have := (keeps h).1
      rw [List.length_eq_zero_iff.mp (Nat.le_zero.mp hl)] at this
      rw [List.append_nil]; simpa using this
    | cons i g ih =>
      intro h hg hl
      have e : h ++ i :: g = (h ++ [i]) ++ g := by simp
      have hs : step (after h) i = (after h).next := by
        rcases hg i List.mem_cons_self with rfl | rfl <;> rfl
      have hr : requests (h ++ [i]) = requests h := by
        rw [requests_append]
        rcases hg i List.mem_cons_self with rfl | rfl <;> simp [requests]
      rw [e, ih (h ++ [i]) (fun j hj => hg j (List.mem_cons_of_mem _ hj)) ?_, hr]
      rw [after_snoc, hs, St.next]
      rw [List.length_cons] at hl
      cases hw : (after h).waiting with
      | nil => simp [hw]
      | cons r l => rw [hw, List.length_cons] at hl; simp; omega
  exact key g h hg hl

/-- At most one request is handed on for an input, and then the timer is started. -/
theorem C47_one (h : List In) (i : In) :
    (step (after h) i).2 = [] ∨ ∃ r, (step (after h) i).2 = [.forward r, .startTimer] := by
  have hn : (after h).next.2 = [] ∨ ∃ r, (after h).next.2 = [.forward r, .startTimer] := by
    rw [St.next]
    cases (after h).waiting with
    | nil => exact Or.inl rfl
    | cons r l => exact Or.inr ⟨r, rfl⟩
  cases i with
  | response => exact hn
  | timeout => exact hn
  | request r =>
    rw [step]
    split
    · exact Or.inr ⟨r, rfl⟩
    · exact Or.inl rfl

theorem clear_false (h g : List In) (i : In) (hi : (step (after h) i).2 ≠ []) (hg : ∀ j ∈ g, ∃ r, j = .request r) :
    (after (h ++ i :: g)).clear = false ∧ (sent (h ++ i :: g)) = sent h ++ (step (after h) i).2 :: g.map fun _ => [] := by
  induction g using snocRec with
  | nil =>
    constructor
    · rw [after_snoc]
      have hn : (after h).next.2 ≠ [] → (after h).next.1.clear = false := by
        rw [St.next]
        have := (keeps h).2
        cases hw : (after h).waiting with
        | nil => simp
        | cons r l =>
          intro _
          cases hc : (after h).clear with
          | false => rfl
          | true => rw [this hc] at hw; cases hw
      cases i with
      | response => exact hn hi
      | timeout => exact hn hi
      | request r =>
        rw [step] at hi ⊢
        split
        · rfl
        · rename_i hc; rw [if_neg hc] at hi; exact absurd rfl hi
    · rw [sent_snoc]; rfl
  | append_singleton g j ih =>
    obtain ⟨h1, h2⟩ := ih fun j hj => hg j (List.mem_append_left _ hj)
    obtain ⟨r, rfl⟩ := hg j (List.mem_append_right _ List.mem_cons_self)
    have e : h ++ i :: (g ++ [.request r]) = (h ++ i :: g) ++ [.request r] := by simp
    rw [e, after_snoc, sent_snoc, h2, step, h1]
    simp

/-- Between two requests that are handed on there is a response or a timeout, the one that hands on the second being one. -/
theorem C47_serial (h g : List In) (i j : In) (hi : (step (after h) i).2 ≠ []) (hj : (step (after (h ++ i :: g)) j).2 ≠ []) :
    ∃ k ∈ g ++ [j], k = .response ∨ k = .timeout := by
  by_cases hc : ∃ k ∈ g ++ [j], k = .response ∨ k = .timeout
  · exact hc
  · have hall : ∀ k ∈ g ++ [j], ∃ r, k = .request r := by
      intro k hk
      cases k with
      | request r => exact ⟨r, rfl⟩
      | response => exact absurd ⟨_, hk, Or.inl rfl⟩ hc
      | timeout => exact absurd ⟨_, hk, Or.inr rfl⟩ hc
    have h1 := clear_false h g i hi fun k hk => hall k (List.mem_append_left _ hk)
    obtain ⟨r, rfl⟩ := hall j (List.mem_append_right _ List.mem_cons_self)
    rw [step, h1.1] at hj
    simp at hj

/-- Never more than one more request is handed on than there were responses and timeouts. -/
theorem C47_outstanding (h : List In) : (forwards (sent h).flatten).length ≤ ends h + 1 := by
  have key : ∀ h : List In, (forwards (sent h).flatten).length + (if (after h).clear then 1 else 0) ≤ ends h + 1 := by
    intro h
    induction h using snocRec with
    | nil => simp [sent, after, runM, forwards, ends]
    | append_singleton h i ih =>
      have he : ends (h ++ [i]) = ends h + ends [i] := by
        clear ih
        induction h with
        | nil => simp [ends]
        | cons a l ih => cases a <;> simp [ends, ih] <;> omega
      rw [forwards_sent_snoc, after_snoc, he, List.length_append]
      have hn : (forwards (sent h).flatten).length + (forwards (after h).next.2).length +
          (if (after h).next.1.clear then 1 else 0) ≤ ends h + 1 + 1 := by
        rw [St.next]
        cases hw : (after h).waiting with
        | nil => simp [forwards]; split at ih <;> omega
        | cons r l => simp [forwards]; split at ih <;> simp_all <;> omega
      cases i with
      | response => exact hn
      | timeout => exact hn
      | request r =>
        rw [step]
        cases hc : (after h).waiting.isEmpty && (after h).clear with
        | true =>
          rw [if_pos rfl]
          simp only [Bool.and_eq_true] at hc
          rw [hc.2] at ih
          simpa [forwards, ends] using ih
        | false =>
          rw [if_neg (by simp)]
          simpa [forwards, ends] using ih
  have := key h
  omega

/-- A request that arrives when none is outstanding, that is after the beginning or after a response or timeout that found no
request waiting, is handed on at once. -/
theorem C47_idle (h : List In) (i : In) (hi : i = .response ∨ i = .timeout)
    (hw : forwards (sent h).flatten = requests h) (r : Int) :
    (step (after (h ++ [i])) (.request r)).2 = [.forward r, .startTimer] := by
  have h1 := (keeps h).1
  rw [hw] at h1
  have h2 : (after h).waiting = [] := by simpa using h1
  have h3 : after (h ++ [i]) = { waiting := [], clear := true } := by
    rw [after_snoc]
    have : step (after h) i = (after h).next := by rcases hi with rfl | rfl <;> rfl
    rw [this, St.next, h2]
  rw [h3]; rfl

/-- Three requests; the second waits for the response, the third for the timeout. -/
example : sent [.request 1, .request 2, .request 3, .response, .timeout, .response, .request 4] =
    [[.forward 1, .startTimer], [], [], [.forward 2, .startTimer], [.forward 3, .startTimer], [],
     [.forward 4, .startTimer]] := by decide

/-- The response to a request that timed out is taken for the response to the next one: three requests are then handed on though
the second has had neither its response nor its timeout. -/
theorem C47_violated :
    sent [.request 1, .request 2, .request 3, .timeout, .response] =
      [[.forward 1, .startTimer], [], [], [.forward 2, .startTimer], [.forward 3, .startTimer]] := by decide

end Verif.Serial
