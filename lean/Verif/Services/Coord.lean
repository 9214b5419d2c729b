import Verif.AMap
import Verif.Trace

/-!
# The coordination of the participants of an assignment

`src/cpp/Tasks/AssignmentCoordinatorTaskService.cpp` 127-302.  A planning state is the entity and the place where it plans
from (position and heading); the tasks and the other contents of the original request are one opaque value.  The timer runs in a
thread of its own under the lock `m_timerThreadLock`, so its firing is one more input.  The message of a response is sent on
before the lock is taken (lines 200-204), which makes no difference here.
-/

namespace Verif.Coord

open Verif

/-- mdms/UXTASK.xml 76-94: `CoordinatedAutomationRequest`; the defaults are those of the
message. -/
structure Req where
  id : Int := 0
  /-- the original request except for its entities -/
  body : Int := 0
  entities : List Int := []
  /-- `MaximumResponseTime` -/
  wait : Int := 0
deriving DecidableEq, Repr

/-- `CoordinationElements`, `AssignmentCoordinatorTaskService.h` 140-144: the request is a default one until it arrives. -/
structure Elem where
  req : Req := {}
  /-- `entityIdVsPlanningState` -/
  states : Map Int := []
deriving DecidableEq, Repr

/-- AssignmentCoordinatorTaskService.cpp 127-208, 254-265: what the service receives, and
its timer. -/
inductive In where
  /-- an `AirVehicleState` -/
  | vehicle (id place : Int)
  /-- an `AssignmentCoordination` -/
  | coordination (id entity place : Int)
  | request (r : Req) (now : Int)
  /-- a `TaskAutomationResponse` -/
  | response (id : Int)
  /-- the timer -/
  | tick (now : Int)
deriving DecidableEq, Repr

/-- AssignmentCoordinatorTaskService.cpp 179, 198, 248, 295: what the service sends. -/
inductive Out where
  | coordination (id entity place : Int)
  /-- a `TaskAutomationRequest` -/
  | release (id body : Int) (entities : List Int) (states : List (Int × Int))
  /-- the `AutomationResponse` in a response -/
  | response (id : Int)
deriving DecidableEq, Repr

/-- AssignmentCoordinatorTaskService.h 135-148: the members of the service. -/
structure St where
  /-- `m_entityId` -/
  me : Int
  /-- `m_lastLocalEntityState` -/
  place : Option Int := none
  /-- `m_requestIdVsCoordinationElements` -/
  elems : Map Elem := []
  /-- `m_maxTimeVsCoordinatedAutomationRequestId`, a multimap: by time, and among equals in the order of insertion -/
  dues : List (Int × Int) := []
deriving DecidableEq, Repr

/-- AssignmentCoordinatorTaskService.cpp 165: `multimap::insert`. -/
def insert (d : Int × Int) (l : List (Int × Int)) : List (Int × Int) :=
  l.takeWhile (fun x => x.1 ≤ d.1) ++ d :: l.dropWhile (fun x => x.1 ≤ d.1)

/-- AssignmentCoordinatorTaskService.cpp 141-147, 157-162: the elements of a request, made
if there are none. -/
def St.elem (s : St) (id : Int) : Elem := (s.elems.get id).getD {}

/-- All entities of the request have a planning state,
AssignmentCoordinatorTaskService.cpp 219-236. -/
def Elem.ready (e : Elem) (id : Int) : Bool := id == e.req.id && e.req.entities.all fun x => (e.states.get x).isSome

/-- `CheckAssignmentReady`, AssignmentCoordinatorTaskService.cpp 210-252. -/
def St.check (s : St) (id : Int) : St × List Out :=
  match s.elems.get id with
  | none => (s, [])
  | some e =>
    if e.ready id then ({ s with elems := s.elems.del id }, [.release id e.req.body e.req.entities e.states]) else (s, [])

/-- AssignmentCoordinatorTaskService.cpp 137-150. -/
def St.coordination (s : St) (id x p : Int) : St × List Out :=
  let e := s.elem id
  ({ s with elems := s.elems.put id { e with states := e.states.put x p } } : St).check id

/-- The own planning state, AssignmentCoordinatorTaskService.cpp 168-184. -/
def Elem.own (e : Elem) (me : Int) : Option Int → Elem
  | none => e
  | some p => if (e.states.get me).isSome then e else { e with states := e.states.put me p }

/-- AssignmentCoordinatorTaskService.cpp 151-192. -/
def St.request (s : St) (r : Req) (now : Int) : St × List Out :=
  let e := { s.elem r.id with req := r }
  let x := ({ s with elems := s.elems.put r.id (e.own s.me s.place), dues := insert (now + r.wait, r.id) s.dues } : St).check r.id
  (x.1, (s.place.toList.map fun p => .coordination r.id s.me p) ++ x.2)

/-- What the timer sends for a request that is due, AssignmentCoordinatorTaskService.cpp
285-295. -/
def Elem.timeout (e : Elem) (id : Int) : Out := .release id e.req.body (e.states.map (·.1)) e.states

/-- `CheckForAssignmentTimeMax`, AssignmentCoordinatorTaskService.cpp 267-302: the
requests with a time before the current one. -/
def St.tick (s : St) (now : Int) : St × List Out :=
  ({ s with dues := s.dues.dropWhile fun d => d.1 < now },
   (s.dues.takeWhile fun d => d.1 < now).filterMap fun d => (s.elems.get d.2).map fun e => e.timeout d.2)

/-- `processReceivedLmcpMessageTask`, AssignmentCoordinatorTaskService.cpp 127-208, and
the timer. -/
def step (s : St) : In → St × List Out
  | .vehicle id p => (if id = s.me then { s with place := some p } else s, [])
  | .coordination id x p => s.coordination id x p
  | .request r now => s.request r now
  | .response id => ({ s with elems := s.elems.del id }, [.response id])
  | .tick now => s.tick now

/-! ### What is said of it -/

/-- Not in the code: the state after a history, from the one of the constructor. -/
def after (me : Int) (h : List In) : St := (runM step { me := me } h).1

/-- Not in the code: what is sent in a history. -/
def sent (me : Int) (h : List In) : List Out := (runM step { me := me } h).2.flatten

/-- Not in the code: what is sent for one more input. -/
def sends (me : Int) (h : List In) (i : In) : List Out := (step (after me h) i).2

/-- Specification: it is a release of the request. -/
def Out.releases (id : Int) : Out → Bool
  | .release k _ _ _ => k == id
  | _ => false

/-- Specification: the number of releases of a request. -/
def releases (id : Int) (l : List Out) : Nat := l.countP (Out.releases id)

/-- Specification: the latest coordination of an entity for a request. -/
def coordinated (id x : Int) (h : List In) : Option Int :=
  h.reverse.findSome? fun i =>
    match i with
    | .coordination k y p => if k = id ∧ y = x then some p else none
    | _ => none

/-- Specification: the latest state of a vehicle. -/
def place (x : Int) (h : List In) : Option Int :=
  h.reverse.findSome? fun i =>
    match i with
    | .vehicle y p => if y = x then some p else none
    | _ => none

/-- Specification: it is a request with the id. -/
def In.requests (id : Int) : In → Bool
  | .request r _ => r.id == id
  | _ => false

/-- Specification: it is a response with the id. -/
def In.answers (id : Int) : In → Bool
  | .response k => k == id
  | _ => false

/-- Specification: it is a coordination for the request with the id. -/
def In.coordinates (id : Int) : In → Bool
  | .coordination k _ _ => k == id
  | _ => false

/-- Specification: where an entity plans from, for the request received after `a` and
followed by `g`: its latest coordination, and for the own vehicle, without one, its state
at the request. -/
def known (me : Int) (id : Int) (a g : List In) (x : Int) : Option Int :=
  (coordinated id x (a ++ g)).or (if x = me then place me a else none)

/-- Specification: all entities of the request are known. -/
def Ready (me : Int) (r : Req) (a g : List In) : Prop := ∀ x ∈ r.entities, (known me r.id a g x).isSome = true

/-- Specification: the timer fired after the waiting time. -/
def Late (r : Req) (now : Int) (g : List In) : Prop := ∃ t, .tick t ∈ g ∧ now + r.wait < t

/-- Specification: the request is the only one with its id, and is not answered. -/
structure Only (r : Req) (l : List In) : Prop where
  requests : ∀ i ∈ l, i.requests r.id = false
  answers : ∀ i ∈ l, i.answers r.id = false

/-! ### Sorted multimap -/

/-- For the proofs: the times are in order. -/
def Sorted (l : List (Int × Int)) : Prop := l.Pairwise fun x y => x.1 ≤ y.1

theorem takeWhile_filter {p : Int × Int → Bool} (hp : ∀ x y : Int × Int, x.1 ≤ y.1 → p y = true → p x = true)
    {l : List (Int × Int)} (h : Sorted l) : l.takeWhile p = l.filter p ∧ l.dropWhile p = l.filter (fun x => ! p x) := by
  induction l with
  | nil => exact ⟨rfl, rfl⟩
  | cons d l ih =>
    have h' := List.pairwise_cons.mp h
    rw [List.takeWhile_cons, List.dropWhile_cons, List.filter_cons, List.filter_cons]
    cases hd : p d with
    | true => simpa using ih h'.2
    | false =>
      have hall : ∀ x ∈ l, p x = false := by
        intro x hx
        cases hpx : p x with
        | false => rfl
        | true => rw [hp d x (h'.1 x hx) hpx] at hd; cases hd
      have h1 : l.filter p = [] := List.filter_eq_nil_iff.mpr fun x hx => by simp [hall x hx]
      have h2 : l.filter (fun x => ! p x) = l := List.filter_eq_self.mpr fun x hx => by simp [hall x hx]
      simp [h1, h2]

theorem lt_mono (now : Int) (x y : Int × Int) (h : x.1 ≤ y.1) (hy : decide (y.1 < now) = true) : decide (x.1 < now) = true := by
  simp at hy ⊢; omega

theorem le_mono (t : Int) (x y : Int × Int) (h : x.1 ≤ y.1) (hy : decide (y.1 ≤ t) = true) : decide (x.1 ≤ t) = true := by
  simp at hy ⊢; omega

theorem sorted_insert (d : Int × Int) {l : List (Int × Int)} (h : Sorted l) : Sorted (insert d l) := by
  rw [insert, (takeWhile_filter (le_mono d.1) h).1, (takeWhile_filter (le_mono d.1) h).2, Sorted, List.pairwise_append]
  refine ⟨h.filter _, List.pairwise_cons.mpr ⟨?_, h.filter _⟩, ?_⟩
  · intro x hx
    have := (List.mem_filter.mp hx).2
    simp at this; omega
  · intro x hx y hy
    have h1 := (List.mem_filter.mp hx).2
    rcases List.mem_cons.mp hy with rfl | hy
    · simpa using h1
    · have h2 := (List.mem_filter.mp hy).2
      simp at h1 h2; omega

/-- For the proofs: the times of one request. -/
def duesOf (s : St) (id : Int) : List (Int × Int) := s.dues.filter fun d => d.2 == id

theorem filter_insert (d : Int × Int) (l : List (Int × Int)) (id : Int) (h : d.2 ≠ id) :
    (insert d l).filter (fun x => x.2 == id) = l.filter fun x => x.2 == id := by
  rw [insert, List.filter_append, List.filter_cons]
  have : (d.2 == id) = false := by simpa using h
  rw [this]
  conv => rhs; rw [← List.takeWhile_append_dropWhile (p := fun x : Int × Int => decide (x.1 ≤ d.1)) (l := l), List.filter_append]
  simp

theorem filter_insert_self (d : Int × Int) (l : List (Int × Int)) (h : l.filter (fun x => x.2 == d.2) = []) :
    (insert d l).filter (fun x => x.2 == d.2) = [d] := by
  rw [insert, List.filter_append, List.filter_cons]
  rw [← List.takeWhile_append_dropWhile (p := fun x : Int × Int => decide (x.1 ≤ d.1)) (l := l), List.filter_append,
    List.append_eq_nil_iff] at h
  rw [h.1, h.2]
  simp

/-! ### One request -/

theorem after_snoc (me : Int) (h : List In) (i : In) : after me (h ++ [i]) = (step (after me h) i).1 := by
  rw [after, runM_snoc]; rfl

theorem sent_snoc (me : Int) (h : List In) (i : In) : sent me (h ++ [i]) = sent me h ++ sends me h i := by
  rw [sent, runM_snoc]
  show (_ ++ [(step (after me h) i).2]).flatten = _
  rw [List.flatten_append]
  simp [sent, sends]

theorem releases_append (id : Int) (l m : List Out) : releases id (l ++ m) = releases id l + releases id m := by
  rw [releases, List.countP_append]; rfl

theorem releases_snoc (me id : Int) (h : List In) (i : In) :
    releases id (sent me (h ++ [i])) = releases id (sent me h) + releases id (sends me h i) := by
  rw [sent_snoc, releases_append]

/-- What the check does with the elements of a request. -/
theorem check_get (s : St) (k id : Int) :
    (s.check k).1.elems.get id =
      (if id = k then (s.elems.get id).bind (fun e => if e.ready id then none else some e) else s.elems.get id) := by
  rw [St.check]
  by_cases h : id = k
  · subst h
    rw [if_pos rfl]
    cases hg : s.elems.get id with
    | none => simpa using hg
    | some e =>
      dsimp only
      by_cases hr : e.ready id = true
      · rw [if_pos hr]
        show (Map.del s.elems id).get id = _
        rw [Map.get_del]; simp [hr]
      · rw [if_neg hr]; simp [hr, hg]
  · rw [if_neg h]
    cases hg : s.elems.get k with
    | none => rfl
    | some e =>
      dsimp only
      split
      · show (Map.del s.elems k).get id = _
        rw [Map.get_del, if_neg h]
      · rfl

theorem check_frame (s : St) (k : Int) :
    (s.check k).1.me = s.me ∧ (s.check k).1.place = s.place ∧ (s.check k).1.dues = s.dues := by
  rw [St.check]
  split
  · exact ⟨rfl, rfl, rfl⟩
  · split <;> exact ⟨rfl, rfl, rfl⟩

theorem check_out (s : St) (k id : Int) :
    (s.check k).2.filter (Out.releases id) =
      if id = k then ((s.elems.get id).toList.filter fun e => e.ready id).map fun e => .release id e.req.body e.req.entities e.states
      else [] := by
  rw [St.check]
  by_cases h : id = k
  · subst h
    rw [if_pos rfl]
    cases hg : s.elems.get id with
    | none => rfl
    | some e =>
      dsimp only
      by_cases hr : e.ready id = true
      · rw [if_pos hr]; simp [hr, Out.releases]
      · rw [if_neg hr]; simp [hr]
  · rw [if_neg h]
    cases hg : s.elems.get k with
    | none => rfl
    | some e =>
      dsimp only
      split
      · simp [Out.releases, Ne.symm h]
      · rfl

theorem releases_eq (id : Int) (l : List Out) : releases id l = (l.filter (Out.releases id)).length := List.countP_eq_length_filter

/-- For the proofs: the part of the state that concerns one request. -/
def view (id : Int) (s : St) : Option Elem × List (Int × Int) := (s.elems.get id, duesOf s id)

/-- For the proofs: the elements with one more planning state. -/
def Elem.add (e : Elem) (x p : Int) : Elem := { e with states := e.states.put x p }

/-- For the proofs: what an input other than a request with this id does for it. -/
def vstep (id : Int) (v : Option Elem × List (Int × Int)) : In → (Option Elem × List (Int × Int)) × List Out
  | .coordination k x p =>
    if k = id then
      let e := (v.1.getD {}).add x p
      if e.ready id then ((none, v.2), [.release id e.req.body e.req.entities e.states]) else ((some e, v.2), [])
    else (v, [])
  | .response k => (if k = id then (none, v.2) else v, [])
  | .tick now =>
    ((v.1, v.2.filter fun d => ! decide (d.1 < now)), (v.2.filter fun d => d.1 < now).flatMap fun _ => (v.1.map (·.timeout id)).toList)
  | .vehicle _ _ => (v, [])
  | .request _ _ => (v, [])

theorem filter_timeouts (m : Map Elem) (id : Int) (l : List (Int × Int)) :
    (l.filterMap fun d => (m.get d.2).map fun e => e.timeout d.2).filter (Out.releases id) =
      (l.filter fun d => d.2 == id).flatMap fun _ => ((m.get id).map (·.timeout id)).toList := by
  induction l with
  | nil => rfl
  | cons d l ih =>
    rw [List.filterMap_cons, List.filter_cons]
    by_cases hd : d.2 = id
    · rw [hd]
      simp only [BEq.rfl, if_true, List.flatMap_cons]
      cases hg : m.get id with
      | none => simp only [Option.map_none]; rw [ih, hg]; rfl
      | some e =>
        simp only [Option.map_some, Option.toList_some]
        rw [List.filter_cons, ih, hg]
        simp [Out.releases, Elem.timeout]
    · have : (d.2 == id) = false := by simpa using hd
      rw [this, if_neg (by simp)]
      cases hg : m.get d.2 with
      | none => exact ih
      | some e =>
        simp only [Option.map_some]
        rw [List.filter_cons, ih]
        simp [Out.releases, Elem.timeout, hd]

theorem view_step (id : Int) (s : St) (i : In) (hi : i.requests id = false) (hs : Sorted s.dues) :
    view id (step s i).1 = (vstep id (view id s) i).1 ∧ (step s i).2.filter (Out.releases id) = (vstep id (view id s) i).2 := by
  cases i with
  | vehicle y p =>
    rw [step, vstep]
    refine ⟨?_, rfl⟩
    dsimp only
    split <;> rfl
  | coordination k x p =>
    rw [step, vstep, St.coordination]
    have hf := check_frame ({ s with elems := s.elems.put k ((s.elem k).add x p) } : St) k
    have hg := check_get ({ s with elems := s.elems.put k ((s.elem k).add x p) } : St) k id
    have ho := check_out ({ s with elems := s.elems.put k ((s.elem k).add x p) } : St) k id
    have hd : duesOf (({ s with elems := s.elems.put k ((s.elem k).add x p) } : St).check k).1 id = duesOf s id := by
      rw [duesOf, hf.2.2]; rfl
    simp only [Map.get_put] at hg ho
    by_cases hk : k = id
    · subst hk
      rw [if_pos rfl] at hg ho
      rw [if_pos rfl] at hg ho
      rw [if_pos rfl]
      have he : ((view k s).1.getD {}).add x p = (s.elem k).add x p := rfl
      rw [he]
      dsimp only
      by_cases hr : ((s.elem k).add x p).ready k = true
      · rw [if_pos hr]
        rw [Option.bind_some, if_pos hr] at hg
        refine ⟨Prod.ext hg hd, ?_⟩
        refine ho.trans ?_
        simp [hr]
      · rw [if_neg hr]
        rw [Option.bind_some, if_neg hr] at hg
        refine ⟨Prod.ext hg hd, ?_⟩
        refine ho.trans ?_
        simp [hr]
    · rw [if_neg (fun h => hk h.symm)] at hg ho
      rw [if_neg (fun h => hk h.symm)] at hg
      rw [if_neg hk]
      exact ⟨Prod.ext hg hd, ho⟩
  | request r now =>
    have hk : ¬ id = r.id := by
      intro h; rw [In.requests, h] at hi; simp at hi
    rw [step, vstep, St.request]
    refine ⟨?_, ?_⟩
    · refine Prod.ext ?_ ?_
      · refine (check_get _ r.id id).trans ?_
        rw [if_neg hk]
        show (Map.put s.elems r.id _).get id = _
        rw [Map.get_put, if_neg hk]; rfl
      · show duesOf (St.check _ _).1 id = _
        rw [duesOf, (check_frame _ _).2.2]
        exact filter_insert _ _ _ (fun h => hk h.symm)
    · dsimp only
      rw [List.filter_append, check_out, if_neg hk]
      cases s.place with
      | none => rfl
      | some p => rfl
  | response k =>
    rw [step, vstep]
    refine ⟨?_, rfl⟩
    dsimp only
    rw [view]
    dsimp only
    rw [Map.get_del]
    by_cases hk : k = id
    · rw [if_pos hk, if_pos hk.symm]; rfl
    · rw [if_neg hk, if_neg (fun h => hk h.symm)]; rfl
  | tick now =>
    rw [step, vstep, St.tick]
    obtain ⟨h1, h2⟩ := takeWhile_filter (lt_mono now) hs
    constructor
    · refine Prod.ext rfl ?_
      show List.filter _ (List.dropWhile _ _) = _
      rw [h2, List.filter_filter, view, duesOf, List.filter_filter]
      dsimp only
      congr 1
      funext d
      exact Bool.and_comm _ _
    · dsimp only
      rw [h1, filter_timeouts, List.filter_filter, view, duesOf, List.filter_filter]
      dsimp only
      congr 2
      funext d
      exact Bool.and_comm _ _

theorem sorted_step (s : St) (i : In) (hs : Sorted s.dues) : Sorted (step s i).1.dues := by
  cases i with
  | vehicle y p => rw [step]; dsimp only; split <;> exact hs
  | coordination k x p => rw [step, St.coordination, (check_frame _ _).2.2]; exact hs
  | request r now => rw [step, St.request]; show Sorted (St.check _ _).1.dues; rw [(check_frame _ _).2.2]; exact sorted_insert _ hs
  | response k => exact hs
  | tick now => exact hs.sublist (List.dropWhile_sublist _)

theorem frame_step (s : St) (i : In) :
    (step s i).1.me = s.me ∧
    (step s i).1.place = match i with | .vehicle y p => if y = s.me then some p else s.place | _ => s.place := by
  cases i with
  | vehicle y p => rw [step]; dsimp only; split <;> exact ⟨rfl, rfl⟩
  | coordination k x p => rw [step, St.coordination]; exact ⟨(check_frame _ _).1, (check_frame _ _).2.1⟩
  | request r now => rw [step, St.request]; exact ⟨(check_frame _ _).1, (check_frame _ _).2.1⟩
  | response k => exact ⟨rfl, rfl⟩
  | tick now => exact ⟨rfl, rfl⟩

theorem findSome_snoc {α β : Type} (f : α → Option β) (l : List α) (x : α) :
    (l ++ [x]).reverse.findSome? f = (f x).or (l.reverse.findSome? f) := by
  rw [List.reverse_append, List.reverse_cons, List.reverse_nil, List.nil_append, List.singleton_append, List.findSome?_cons]
  cases f x <;> rfl

/-- For the proofs: what holds after every history. -/
structure Basic (me : Int) (h : List In) : Prop where
  own : (after me h).me = me
  place : (after me h).place = place me h
  sorted : Sorted (after me h).dues

theorem basic (me : Int) (h : List In) : Basic me h := by
  induction h using snocRec with
  | nil => exact ⟨rfl, rfl, List.Pairwise.nil⟩
  | append_singleton h i ih =>
    obtain ⟨h1, h2⟩ := frame_step (after me h) i
    refine ⟨by rw [after_snoc, h1, ih.own], ?_, by rw [after_snoc]; exact sorted_step _ _ ih.sorted⟩
    rw [after_snoc, h2, place, findSome_snoc, ih.own, ih.place]
    cases i with
    | vehicle y p =>
      dsimp only
      by_cases hy : y = me
      · rw [if_pos hy, if_pos hy]; rfl
      · rw [if_neg hy, if_neg hy]; rfl
    | _ => rfl

theorem view_after (me id : Int) (h : List In) (i : In) (hi : i.requests id = false) :
    view id (after me (h ++ [i])) = (vstep id (view id (after me h)) i).1 ∧
    (sends me h i).filter (Out.releases id) = (vstep id (view id (after me h)) i).2 := by
  rw [after_snoc]
  exact view_step id (after me h) i hi (basic me h).sorted

theorem coordinated_snoc (id x : Int) (h : List In) (i : In) :
    coordinated id x (h ++ [i]) =
      (match i with | .coordination k y p => if k = id ∧ y = x then some p else none | _ => none : Option Int).or (coordinated id x h) := by
  rw [coordinated, findSome_snoc]; rfl

/-- An input that is no coordination for the request leaves what is known. -/
theorem coordinated_other (id x : Int) (h : List In) (i : In) (hi : i.coordinates id = false) :
    coordinated id x (h ++ [i]) = coordinated id x h := by
  rw [coordinated_snoc]
  cases i with
  | coordination k y p =>
    have : ¬ (k = id ∧ y = x) := by
      rintro ⟨h1, _⟩
      rw [In.coordinates, h1] at hi; simp at hi
    dsimp only
    rw [if_neg this]; rfl
  | _ => rfl

theorem vstep_other (id : Int) (v : Option Elem × List (Int × Int)) (i : In) (h1 : i.coordinates id = false)
    (h2 : i.answers id = false) (h3 : ∀ t, i ≠ .tick t) : vstep id v i = (v, []) := by
  cases i with
  | coordination k y p =>
    have : ¬ k = id := by intro h; rw [In.coordinates, h] at h1; simp at h1
    rw [vstep, if_neg this]
  | response k =>
    have : ¬ k = id := by intro h; rw [In.answers, h] at h2; simp at h2
    rw [vstep, if_neg this]
  | tick t => exact absurd rfl (h3 t)
  | _ => rfl

/-! ### Before the request -/

/-- For the proofs: what is stored for a request before it arrives. -/
structure Before (me id : Int) (a : List In) : Prop where
  req : ∀ e, (view id (after me a)).1 = some e → e.req = {}
  states : ∀ x, ((view id (after me a)).1.getD {}).states.get x = coordinated id x a
  nodup : (((view id (after me a)).1.getD {}).states.map (·.1)).Nodup
  dues : (view id (after me a)).2 = []
  none : releases id (sent me a) = 0

theorem before {me : Int} {r : Req} (h0 : r.id ≠ 0) {a : List In} (ha : Only r a) : Before me r.id a := by
  induction a using snocRec with
  | nil => exact ⟨fun e h => (by cases h), fun x => rfl, List.nodup_nil, rfl, rfl⟩
  | append_singleton a i ih =>
    have ih := ih ⟨fun j hj => ha.requests j (List.mem_append_left _ hj), fun j hj => ha.answers j (List.mem_append_left _ hj)⟩
    have hq := ha.requests i (List.mem_append_right _ List.mem_cons_self)
    have hw := ha.answers i (List.mem_append_right _ List.mem_cons_self)
    obtain ⟨v1, v2⟩ := view_after me r.id a i hq
    have hn : (vstep r.id (view r.id (after me a)) i).2 = [] → releases r.id (sent me (a ++ [i])) = 0 := by
      intro h
      rw [releases_snoc, ih.none, releases_eq, v2, h]; rfl
    cases hc : i.coordinates r.id with
    | true =>
      cases i with
      | coordination k x p =>
        have hk : k = r.id := by simpa [In.coordinates] using hc
        subst hk
        have hr : (((view r.id (after me a)).1.getD {}).add x p).ready r.id = false := by
          have : (((view r.id (after me a)).1.getD {}).add x p).req = {} := by
            show ((view r.id (after me a)).1.getD {}).req = {}
            cases hv : (view r.id (after me a)).1 with
            | none => rfl
            | some e => exact ih.req e hv
          rw [Elem.ready, this]
          simp [h0]
        have hv : vstep r.id (view r.id (after me a)) (.coordination r.id x p) =
            ((some (((view r.id (after me a)).1.getD {}).add x p), (view r.id (after me a)).2), []) := by
          rw [vstep, if_pos rfl]
          simp only [hr, Bool.false_eq_true, if_false]
        rw [hv] at v1
        refine ⟨?_, ?_, ?_, ?_, hn (by rw [hv])⟩
        · rw [v1]
          rintro e h
          injection h with h
          rw [← h]
          show ((view r.id (after me a)).1.getD {}).req = {}
          cases hv : (view r.id (after me a)).1 with
          | none => rfl
          | some e => exact ih.req e hv
        · rw [v1]
          intro y
          show (Map.put _ x p).get y = _
          rw [Map.get_put, coordinated_snoc, ih.states]
          by_cases hy : y = x
          · subst hy; simp
          · simp [hy, Ne.symm hy]
        · rw [v1]; exact Map.nodup_put ih.nodup x p
        · rw [v1]; exact ih.dues
      | _ => cases hc
    | false =>
      have hv : (vstep r.id (view r.id (after me a)) i).1 = view r.id (after me a) ∧ (vstep r.id (view r.id (after me a)) i).2 = [] := by
        cases i with
        | tick t =>
          rw [vstep, ih.dues]
          exact ⟨Prod.ext rfl (by rw [ih.dues]; rfl), rfl⟩
        | _ => rw [vstep_other _ _ _ hc hw (fun t h => by cases h)]; exact ⟨rfl, rfl⟩
      rw [hv.1] at v1
      refine ⟨by rw [v1]; exact ih.req, ?_, by rw [v1]; exact ih.nodup, by rw [v1]; exact ih.dues, hn hv.2⟩
      intro x
      rw [v1, ih.states, coordinated_other _ _ _ _ hc]

/-! ### The request -/

theorem view_request (s : St) (r : Req) (now : Int) (hd : duesOf s r.id = []) :
    let e := ({ s.elem r.id with req := r } : Elem).own s.me s.place
    view r.id (step s (.request r now)).1 = (if e.ready r.id then none else some e, [(now + r.wait, r.id)]) ∧
    (step s (.request r now)).2.filter (Out.releases r.id) =
      if e.ready r.id then [.release r.id e.req.body e.req.entities e.states] else [] := by
  intro e
  rw [step, St.request]
  constructor
  · refine Prod.ext ?_ ?_
    · refine (check_get _ r.id r.id).trans ?_
      rw [if_pos rfl]
      show ((Map.put s.elems r.id e).get r.id).bind _ = _
      rw [Map.get_put, if_pos rfl]; rfl
    · show duesOf (St.check _ _).1 r.id = _
      rw [duesOf, (check_frame _ _).2.2]
      exact filter_insert_self (now + r.wait, r.id) _ hd
  · dsimp only
    rw [List.filter_append, check_out, if_pos rfl]
    have : (Map.put s.elems r.id e).get r.id = some e := by rw [Map.get_put, if_pos rfl]
    show _ ++ (List.filter _ (Option.toList ((Map.put s.elems r.id e).get r.id))).map _ = _
    rw [this]
    have h1 : List.filter (Out.releases r.id) (s.place.toList.map fun p => Out.coordination r.id s.me p) = [] := by
      cases s.place <;> rfl
    rw [h1]
    cases hr : e.ready r.id <;> simp [hr]

/-- For the proofs: the elements while the request waits. -/
structure Waits (me : Int) (r : Req) (now : Int) (a g : List In) (e : Elem) : Prop where
  req : e.req = r
  states : ∀ x, e.states.get x = known me r.id a g x
  nodup : (e.states.map (·.1)).Nodup

theorem Waits.ready {me : Int} {r : Req} {now : Int} {a g : List In} {e : Elem} (h : Waits me r now a g e) :
    e.ready r.id = true ↔ Ready me r a g := by
  rw [Elem.ready, h.req, Ready]
  simp only [BEq.rfl, Bool.true_and, List.all_eq_true]
  constructor
  · intro h1 x hx; rw [← h.states]; exact h1 x hx
  · intro h1 x hx; rw [h.states]; exact h1 x hx

/-- What happens at the request. -/
theorem at_request {me : Int} {r : Req} (h0 : r.id ≠ 0) {a : List In} (ha : Only r a) (now : Int) :
    ∃ e, Waits me r now a [] e ∧
      view r.id (after me (a ++ [.request r now])) = (if e.ready r.id then none else some e, [(now + r.wait, r.id)]) ∧
      (sends me a (.request r now)).filter (Out.releases r.id) =
        if e.ready r.id then [.release r.id r.body r.entities e.states] else [] := by
  have hb := before (me := me) h0 ha
  have hbas := basic me a
  have hv := view_request (after me a) r now hb.dues
  have hreq : (({ (after me a).elem r.id with req := r } : Elem).own (after me a).me (after me a).place).req = r := by
    rw [Elem.own.eq_def]
    split
    · rfl
    · split <;> rfl
  refine ⟨({ (after me a).elem r.id with req := r } : Elem).own (after me a).me (after me a).place, ⟨hreq, ?_, ?_⟩, ?_, ?_⟩
  · intro x
    have hst : ∀ x, ((after me a).elem r.id).states.get x = coordinated r.id x a := hb.states
    rw [hbas.own, hbas.place, known, List.append_nil]
    cases hp : place me a with
    | none =>
      rw [Elem.own]
      show ((after me a).elem r.id).states.get x = _
      rw [hst]; simp
    | some p =>
      rw [Elem.own]
      dsimp only
      rw [hst]
      by_cases hx : x = me
      · subst hx
        rw [if_pos rfl]
        cases hco : coordinated r.id x a with
        | none =>
          rw [if_neg (by simp)]
          show (Map.put _ x p).get x = _
          rw [Map.get_put, if_pos rfl]; rfl
        | some q =>
          simp only [Option.isSome_some, if_true]
          exact (hst x).trans hco
      · rw [if_neg hx, Option.or_none]
        split
        · exact hst x
        · show (Map.put _ me p).get x = _
          rw [Map.get_put, if_neg hx]; exact hst x
  · have hnd : (((after me a).elem r.id).states.map (·.1)).Nodup := hb.nodup
    rw [Elem.own.eq_def]
    split
    · exact hnd
    · split
      · exact hnd
      · exact Map.nodup_put hnd _ _
  · rw [after_snoc]; exact hv.1
  · have := hv.2
    rw [hreq] at this
    exact this

/-! ### While it waits -/

theorem known_snoc_other (me id : Int) (a g : List In) (i : In) (x : Int) (hi : i.coordinates id = false) :
    known me id a (g ++ [i]) x = known me id a g x := by
  rw [known, known, ← List.append_assoc, coordinated_other _ _ _ _ hi]

theorem known_snoc (me id : Int) (a g : List In) (x p y : Int) :
    known me id a (g ++ [.coordination id x p]) y = if y = x then some p else known me id a g y := by
  rw [known, known, ← List.append_assoc, coordinated_snoc]
  by_cases hy : y = x
  · subst hy; simp
  · simp [hy, Ne.symm hy]

/-- Specification: the history of a request. -/
abbrev hist (a : List In) (r : Req) (now : Int) (g : List In) : List In := a ++ .request r now :: g

theorem hist_snoc (a : List In) (r : Req) (now : Int) (g : List In) (i : In) : hist a r now (g ++ [i]) = hist a r now g ++ [i] := by
  simp [hist]

theorem at_step {me : Int} {r : Req} {now : Int} {a g : List In} {e : Elem} (hw : Waits me r now a g e)
    (hv : view r.id (after me (hist a r now g)) = (some e, [(now + r.wait, r.id)])) (i : In) (h1 : i.requests r.id = false)
    (h2 : i.answers r.id = false) :
    ∃ e', Waits me r now a (g ++ [i]) e' ∧
      ((∃ t, i = .tick t ∧ now + r.wait < t ∧ view r.id (after me (hist a r now (g ++ [i]))) = (some e', []) ∧
          (sends me (hist a r now g) i).filter (Out.releases r.id) = [.release r.id r.body (e'.states.map (·.1)) e'.states]) ∨
       ((∀ t, i = .tick t → ¬ now + r.wait < t) ∧
          (i.coordinates r.id = true ∧ e'.ready r.id = true ∧
            view r.id (after me (hist a r now (g ++ [i]))) = (none, [(now + r.wait, r.id)]) ∧
            (sends me (hist a r now g) i).filter (Out.releases r.id) = [.release r.id r.body r.entities e'.states] ∨
           (e'.ready r.id = false ∨ e' = e) ∧
            view r.id (after me (hist a r now (g ++ [i]))) = (some e', [(now + r.wait, r.id)]) ∧
            (sends me (hist a r now g) i).filter (Out.releases r.id) = []))) := by
  rw [hist_snoc]
  obtain ⟨v1, v2⟩ := view_after me r.id (hist a r now g) i h1
  rw [hv] at v1 v2
  cases hc : i.coordinates r.id with
  | true =>
    cases i with
    | coordination k x p =>
      have hk : k = r.id := by simpa [In.coordinates] using hc
      subst hk
      refine ⟨e.add x p, ⟨hw.req, ?_, Map.nodup_put hw.nodup x p⟩, Or.inr ⟨fun t h => (by cases h), ?_⟩⟩
      · intro y
        rw [known_snoc]
        show (Map.put _ x p).get y = _
        rw [Map.get_put, hw.states]
      · rw [vstep, if_pos rfl] at v1 v2
        dsimp only at v1 v2
        rw [Option.getD_some] at v1 v2
        cases hr : (e.add x p).ready r.id with
        | true =>
          rw [hr, if_pos rfl] at v1 v2
          have hq : (e.add x p).req = r := hw.req
          rw [hq] at v2
          exact Or.inl ⟨rfl, rfl, v1, v2⟩
        | false =>
          rw [hr, if_neg (by simp)] at v1 v2
          exact Or.inr ⟨Or.inl rfl, v1, v2⟩
    | _ => cases hc
  | false =>
    refine ⟨e, ⟨hw.req, fun x => by rw [known_snoc_other _ _ _ _ _ _ hc, hw.states], hw.nodup⟩, ?_⟩
    cases i with
    | tick t =>
      rw [vstep] at v1 v2
      by_cases ht : now + r.wait < t
      · refine Or.inl ⟨t, rfl, ht, ?_, ?_⟩
        · rw [v1]; simp [ht]
        · rw [v2]; simp [ht, Elem.timeout, hw.req]
      · refine Or.inr ⟨fun t' h => by injection h with h; subst h; exact ht, Or.inr ⟨Or.inr rfl, ?_, ?_⟩⟩
        · rw [v1]; simp [ht]
        · rw [v2]; simp [ht]
    | _ =>
      rw [vstep_other _ _ _ hc h2 (fun t h => by cases h)] at v1 v2
      exact Or.inr ⟨fun t h => (by cases h), Or.inr ⟨Or.inr rfl, v1, v2⟩⟩

theorem releases_zero {id : Int} {l : List Out} (h : l.filter (Out.releases id) = []) : releases id l = 0 := by
  rw [releases_eq, h]; rfl

theorem Ready.mono {me : Int} {r : Req} {a g : List In} (h : Ready me r a g) (i : In) : Ready me r a (g ++ [i]) := by
  intro x hx
  cases hc : i.coordinates r.id with
  | false => rw [known_snoc_other _ _ _ _ _ _ hc]; exact h x hx
  | true =>
    cases i with
    | coordination k y p =>
      have hk : k = r.id := by simpa [In.coordinates] using hc
      subst hk
      rw [known_snoc]
      split
      · rfl
      · exact h x hx
    | _ => cases hc

/-- Specification: what comes after the request: no other request with its id, and its
answer only when it was released. -/
def Proper (me : Int) (r : Req) (now : Int) (a g : List In) : Prop :=
  ∀ g₁ i g₂, g = g₁ ++ i :: g₂ →
    i.requests r.id = false ∧ (i.answers r.id = true → 0 < releases r.id (sent me (hist a r now g₁)))

theorem Proper.init {me : Int} {r : Req} {now : Int} {a g : List In} {i : In} (h : Proper me r now a (g ++ [i])) :
    Proper me r now a g := fun g₁ j g₂ e => h g₁ j (g₂ ++ [i]) (by rw [e]; simp)

theorem waiting {me : Int} {r : Req} (h0 : r.id ≠ 0) {a : List In} (ha : Only r a) (now : Int) {g : List In}
    (hg : Proper me r now a g) :
    (releases r.id (sent me (hist a r now g)) = 0 ∧ ¬ Ready me r a g ∧ ¬ Late r now g ∧
      ∃ e, Waits me r now a g e ∧ view r.id (after me (hist a r now g)) = (some e, [(now + r.wait, r.id)])) ∨
    (0 < releases r.id (sent me (hist a r now g)) ∧ (Ready me r a g ∨ Late r now g)) := by
  induction g using snocRec with
  | nil =>
    obtain ⟨e, hw, hv, ho⟩ := at_request (me := me) h0 ha now
    have hb := before (me := me) h0 ha
    have hr := releases_snoc me r.id a (.request r now)
    rw [hb.none, releases_eq r.id (sends me a _), ho] at hr
    cases hre : e.ready r.id with
    | true =>
      rw [hre] at hr
      exact Or.inr ⟨by show 0 < releases r.id (sent me (a ++ [.request r now])); rw [hr]; exact Nat.one_pos, Or.inl (hw.ready.mp hre)⟩
    | false =>
      rw [hre] at hr hv
      refine Or.inl ⟨hr, ?_, ?_, e, hw, hv⟩
      · intro h; rw [hw.ready.mpr h] at hre; cases hre
      · rintro ⟨t, h, _⟩; cases h
  | append_singleton g i ih =>
    have h1 := hg g i [] rfl
    rw [hist_snoc, releases_snoc]
    have hlate : Late r now g → Late r now (g ++ [i]) := fun ⟨t, h, h'⟩ => ⟨t, List.mem_append_left _ h, h'⟩
    rcases ih hg.init with ⟨hz, hnr, hnl, e, hw, hv⟩ | ⟨hp, hh⟩
    · have h2 : i.answers r.id = false := by
        cases h : i.answers r.id with
        | false => rfl
        | true => have := h1.2 h; omega
      obtain ⟨e', hw', hh⟩ := at_step hw hv i h1.1 h2
      rw [hz, Nat.zero_add, releases_eq]
      rcases hh with ⟨t, rfl, ht, _, ho⟩ | ⟨hnt, hh⟩
      · right
        rw [ho]
        exact ⟨Nat.one_pos, Or.inr ⟨t, List.mem_append_right _ List.mem_cons_self, ht⟩⟩
      · rcases hh with ⟨_, hr, _, ho⟩ | ⟨hr, hv', ho⟩
        · right
          rw [ho]
          exact ⟨Nat.one_pos, Or.inl (hw'.ready.mp hr)⟩
        · left
          rw [ho]
          refine ⟨rfl, ?_, ?_, e', hw', hist_snoc a r now g i ▸ hv'⟩
          · intro h
            rcases hr with hr | rfl
            · rw [hw'.ready.mpr h] at hr; cases hr
            · exact hnr (hw.ready.mp (hw'.ready.mpr h))
          · rintro ⟨t, ht, hlt⟩
            rcases List.mem_append.mp ht with ht | ht
            · exact hnl ⟨t, ht, hlt⟩
            · exact hnt t (List.mem_singleton.mp ht).symm hlt
    · right
      refine ⟨by omega, ?_⟩
      rcases hh with h | h
      · exact Or.inl (h.mono i)
      · exact Or.inr (hlate h)

/-! ### After the release -/

/-- For the proofs: without a coordination there is no other release. -/
def Quiet (v : Option Elem × List (Int × Int)) : Prop := v.1 = none ∨ v.2 = []

theorem Quiet.step {id : Int} {v : Option Elem × List (Int × Int)} (h : Quiet v) (i : In) (hc : i.coordinates id = false) :
    Quiet (vstep id v i).1 ∧ (vstep id v i).2 = [] := by
  cases i with
  | tick t =>
    rw [vstep]
    rcases h with h | h
    · rw [h]; exact ⟨Or.inl rfl, by simp⟩
    · rw [h]; exact ⟨Or.inr rfl, rfl⟩
  | response k =>
    rw [vstep]
    dsimp only
    split
    · exact ⟨Or.inl rfl, rfl⟩
    · exact ⟨h, rfl⟩
  | coordination k x p =>
    have : ¬ k = id := by intro h; rw [In.coordinates, h] at hc; simp at hc
    rw [vstep, if_neg this]
    exact ⟨h, rfl⟩
  | vehicle => exact ⟨h, rfl⟩
  | request => exact ⟨h, rfl⟩

/-- Specification: the coordinations for the request come before its release. -/
def InTime (me : Int) (r : Req) (now : Int) (a g : List In) : Prop :=
  ∀ g₁ i g₂, g = g₁ ++ i :: g₂ → i.coordinates r.id = true → releases r.id (sent me (hist a r now g₁)) = 0

theorem once {me : Int} {r : Req} (h0 : r.id ≠ 0) {a : List In} (ha : Only r a) (now : Int) {g : List In}
    (hg : Proper me r now a g) (ht : InTime me r now a g) :
    releases r.id (sent me (hist a r now g)) = 0 ∨
    (releases r.id (sent me (hist a r now g)) = 1 ∧ Quiet (view r.id (after me (hist a r now g)))) := by
  induction g using snocRec with
  | nil =>
    obtain ⟨e, hw, hv, ho⟩ := at_request (me := me) h0 ha now
    have hb := before (me := me) h0 ha
    have hr := releases_snoc me r.id a (.request r now)
    rw [hb.none, releases_eq r.id (sends me a _), ho] at hr
    cases hre : e.ready r.id with
    | true =>
      rw [hre] at hr hv
      exact Or.inr ⟨hr, Or.inl (congrArg Prod.fst hv)⟩
    | false => rw [hre] at hr; exact Or.inl hr
  | append_singleton g i ih =>
    have h1 := hg g i [] rfl
    have h3 := ht g i [] rfl
    have hih := ih hg.init fun g₁ j g₂ e => ht g₁ j (g₂ ++ [i]) (by rw [e]; simp)
    rw [hist_snoc, releases_snoc]
    rcases waiting h0 ha now hg.init with ⟨hz, _, _, e, hw, hv⟩ | ⟨hp, _⟩
    · have h2 : i.answers r.id = false := by
        cases h : i.answers r.id with
        | false => rfl
        | true => have := h1.2 h; omega
      obtain ⟨e', hw', hh⟩ := at_step hw hv i h1.1 h2
      rw [hz, Nat.zero_add, releases_eq]
      rcases hh with ⟨t, rfl, ht, hv', ho⟩ | ⟨hnt, ⟨_, hr, hv', ho⟩ | ⟨hr, hv', ho⟩⟩
      · rw [ho]
        rw [hist_snoc] at hv'
        exact Or.inr ⟨rfl, Or.inr (congrArg Prod.snd hv')⟩
      · rw [ho]
        rw [hist_snoc] at hv'
        exact Or.inr ⟨rfl, Or.inl (congrArg Prod.fst hv')⟩
      · rw [ho]; exact Or.inl rfl
    · have hc : i.coordinates r.id = false := by
        cases h : i.coordinates r.id with
        | false => rfl
        | true => have := h3 h; omega
      rcases hih with hih | ⟨hih, hq⟩
      · omega
      · obtain ⟨v1, v2⟩ := view_after me r.id (hist a r now g) i h1.1
        obtain ⟨q1, q2⟩ := hq.step (id := r.id) i hc
        rw [releases_eq r.id (sends me _ i), v2, q2, v1, hih]
        exact Or.inr ⟨rfl, q1⟩

/-- For the proofs: the elements that are there have no request. -/
def Blank (v : Option Elem × List (Int × Int)) : Prop := ∀ e, v.1 = some e → e.req = {}

/-- For the proofs: the number of releases goes with what is left. -/
inductive Budget : Option Elem × List (Int × Int) → Nat → Prop
  | waits {e d} : Budget (some e, [d]) 0
  | timer {v d n} : Blank (v, [d]) → n ≤ 1 → Budget (v, [d]) n
  | late {v n} : n ≤ 1 → Budget (v, []) n
  | over {v n} : Blank (v, []) → n ≤ 2 → Budget (v, []) n

theorem Blank.not_ready {v : Option Elem × List (Int × Int)} (h : Blank v) {id : Int} (h0 : id ≠ 0) (x p : Int) :
    ((v.1.getD {}).add x p).req = {} ∧ ((v.1.getD {}).add x p).ready id = false := by
  have h1 : ((v.1.getD {}).add x p).req = {} := by
    show (v.1.getD {}).req = {}
    cases hv : v.1 with
    | none => rfl
    | some e => exact h e hv
  exact ⟨h1, by rw [Elem.ready, h1]; simp [h0]⟩

theorem Budget.step {id : Int} (h0 : id ≠ 0) {v : Option Elem × List (Int × Int)} {n : Nat} (h : Budget v n) (i : In) :
    Budget (vstep id v i).1 (n + (vstep id v i).2.length) := by
  cases i with
  | vehicle => exact h
  | request => exact h
  | response k =>
    rw [vstep]
    dsimp only
    split
    · cases h with
      | waits => exact .timer (fun e h => by cases h) (by simp)
      | timer _ h2 => exact .timer (fun e h => by cases h) h2
      | late h2 => exact .late h2
      | over _ h2 => exact .over (fun e h => by cases h) h2
    · exact h
  | tick t =>
    rw [vstep]
    cases h with
    | @waits e d =>
      by_cases hd : d.1 < t
      · simp [hd]; exact .late (by omega)
      · simp [hd]; exact .waits
    | @timer w d n h1 h2 =>
      by_cases hd : d.1 < t
      · simp [hd]
        refine .over h1 ?_
        cases w <;> simp <;> omega
      · simp [hd]; exact .timer h1 h2
    | late h2 => exact .late h2
    | over h1 h2 => exact .over h1 h2
  | coordination k x p =>
    rw [vstep]
    by_cases hk : k = id
    · rw [if_pos hk]
      dsimp only
      have blank : ∀ {w : Option Elem} {l : List (Int × Int)}, Blank (w, l) →
          (if ((w.getD {}).add x p).ready id = true then
            ((none, l), [Out.release id ((w.getD {}).add x p).req.body ((w.getD {}).add x p).req.entities ((w.getD {}).add x p).states])
            else ((some ((w.getD {}).add x p), l), [])) = ((some ((w.getD {}).add x p), l), []) ∧
          Blank (some ((w.getD {}).add x p), l) := by
        intro w l hb
        have := hb.not_ready h0 x p
        refine ⟨by rw [if_neg]; rw [this.2]; simp, ?_⟩
        intro e he
        injection he with he
        rw [← he]; exact this.1
      cases h with
      | @waits e d =>
        dsimp only
        split
        · exact .timer (fun e h => by cases h) (by simp)
        · exact .waits
      | timer h1 h2 =>
        obtain ⟨b1, b2⟩ := blank h1
        dsimp only
        rw [b1]
        exact .timer b2 h2
      | late h2 =>
        dsimp only
        split
        · exact .over (fun e h => by cases h) (by simp; omega)
        · exact .late h2
      | over h1 h2 =>
        obtain ⟨b1, b2⟩ := blank h1
        dsimp only
        rw [b1]
        exact .over b2 h2
    · rw [if_neg hk]; exact h

/-! ### C48 -/

/-- A request is released exactly when all its participants have sent their states or the timer has fired after its waiting
time, in every order in which the messages arrive, also when coordinations come before the request. -/
theorem C48_released {me : Int} {r : Req} (h0 : r.id ≠ 0) {a : List In} (ha : Only r a) (now : Int) {g : List In}
    (hg : Proper me r now a g) :
    0 < releases r.id (sent me (a ++ .request r now :: g)) ↔ Ready me r a g ∨ Late r now g := by
  rcases waiting h0 ha now hg with ⟨h1, h2, h3, _⟩ | ⟨h1, h2⟩
  · constructor
    · intro h
      have : releases r.id (sent me (a ++ .request r now :: g)) = 0 := h1
      omega
    · rintro (h | h)
      · exact absurd h h2
      · exact absurd h h3
  · exact ⟨fun _ => h2, fun _ => h1⟩

/-- It is not released before it is received. -/
theorem C48_not_before {me : Int} {r : Req} (h0 : r.id ≠ 0) {a : List In} (ha : Only r a) : releases r.id (sent me a) = 0 :=
  (before h0 ha).none

/-- It is released once, if the coordinations for it come before it is released.  Missing for the claim: `C48_violated_late`,
`C48_violated_default`. -/
theorem C48_once_partial {me : Int} {r : Req} (h0 : r.id ≠ 0) {a : List In} (ha : Only r a) (now : Int) {g : List In}
    (hg : Proper me r now a g) (ht : InTime me r now a g) : releases r.id (sent me (a ++ .request r now :: g)) ≤ 1 := by
  rcases once h0 ha now hg ht with h | h
  · have : releases r.id (sent me (a ++ .request r now :: g)) = 0 := h
    omega
  · exact Nat.le_of_eq h.1

/-- It is never released more than twice. -/
theorem C48_twice {me : Int} {r : Req} (h0 : r.id ≠ 0) {a : List In} (ha : Only r a) (now : Int) {g : List In}
    (hg : ∀ i ∈ g, i.requests r.id = false) : releases r.id (sent me (a ++ .request r now :: g)) ≤ 2 := by
  have key : Budget (view r.id (after me (hist a r now g))) (releases r.id (sent me (hist a r now g))) := by
    induction g using snocRec with
    | nil =>
      obtain ⟨e, hw, hv, ho⟩ := at_request (me := me) h0 ha now
      have hb := before (me := me) h0 ha
      have hr := releases_snoc me r.id a (.request r now)
      rw [hb.none, releases_eq r.id (sends me a _), ho] at hr
      show Budget (view r.id (after me (a ++ [.request r now]))) (releases r.id (sent me (a ++ [.request r now])))
      rw [hr, hv]
      split
      · exact .timer (fun e h => by cases h) (by simp)
      · exact .waits
    | append_singleton g i ih =>
      have h1 := hg i (List.mem_append_right _ List.mem_cons_self)
      obtain ⟨v1, v2⟩ := view_after me r.id (hist a r now g) i h1
      rw [hist_snoc, releases_snoc, releases_eq r.id (sends me _ i), v1, v2]
      exact (ih fun j hj => hg j (List.mem_append_left _ hj)).step h0 i
  generalize hv : view r.id (after me (hist a r now g)) = v at key
  have h2 : ∀ n, Budget v n → n ≤ 2 := by
    intro n hn
    cases hn <;> omega
  exact h2 _ key

/-- What is released when the request arrives: its contents and the states of all its participants. -/
theorem C48_contents_request {me : Int} {r : Req} (h0 : r.id ≠ 0) {a : List In} (ha : Only r a) (now : Int) (hr : Ready me r a []) :
    ∃ st, (sends me a (.request r now)).filter (Out.releases r.id) = [.release r.id r.body r.entities st] ∧
      (st.map (·.1)).Nodup ∧ (∀ x p, (x, p) ∈ st ↔ known me r.id a [] x = some p) := by
  obtain ⟨e, hw, hv, ho⟩ := at_request (me := me) h0 ha now
  rw [hw.ready.mpr hr, if_pos rfl] at ho
  exact ⟨e.states, ho, hw.nodup, fun x p => by rw [Map.mem_iff_get hw.nodup, hw.states]⟩

/-- What is released later, at the first release: the contents of the request and the latest states of all that have sent one;
the entities are those of the request, each of which has a state, or, when the waiting time has passed, those that have sent
their states. -/
theorem C48_contents {me : Int} {r : Req} (h0 : r.id ≠ 0) {a : List In} (ha : Only r a) (now : Int) {g : List In}
    (hg : Proper me r now a g) (hz : releases r.id (sent me (a ++ .request r now :: g)) = 0) (i : In)
    (h1 : i.requests r.id = false) (h2 : i.answers r.id = false) {o : Out}
    (ho : o ∈ sends me (a ++ .request r now :: g) i) (hor : o.releases r.id = true) :
    ∃ es st, (sends me (a ++ .request r now :: g) i).filter (Out.releases r.id) = [o] ∧ o = .release r.id r.body es st ∧
      (st.map (·.1)).Nodup ∧ (∀ x p, (x, p) ∈ st ↔ known me r.id a (g ++ [i]) x = some p) ∧
      ((i.coordinates r.id = true ∧ Ready me r a (g ++ [i]) ∧ es = r.entities) ∨
       (∃ t, i = .tick t ∧ now + r.wait < t ∧ es = st.map (·.1))) := by
  have hm : o ∈ (sends me (hist a r now g) i).filter (Out.releases r.id) := List.mem_filter.mpr ⟨ho, hor⟩
  rcases waiting h0 ha now hg with ⟨_, _, _, e, hw, hv⟩ | ⟨hp, _⟩
  · obtain ⟨e', hw', hh⟩ := at_step hw hv i h1 h2
    have hst : ∀ x p, (x, p) ∈ e'.states ↔ known me r.id a (g ++ [i]) x = some p := fun x p => by
      rw [Map.mem_iff_get hw'.nodup, hw'.states]
    rcases hh with ⟨t, hi, ht, hv', hf⟩ | ⟨hnt, ⟨hc, hr, hv', hf⟩ | ⟨hr, hv', hf⟩⟩
    · rw [hf, List.mem_singleton] at hm
      subst hm
      exact ⟨_, _, hf, rfl, hw'.nodup, hst, Or.inr ⟨t, hi, ht, rfl⟩⟩
    · rw [hf, List.mem_singleton] at hm
      subst hm
      exact ⟨_, _, hf, rfl, hw'.nodup, hst, Or.inl ⟨hc, hw'.ready.mp hr, rfl⟩⟩
    · rw [hf] at hm; cases hm
  · have : releases r.id (sent me (hist a r now g)) = 0 := hz
    omega

/-- The own state is announced at the request, once, if there is one. -/
theorem C48_own (me : Int) (h : List In) (r : Req) (now : Int) (k x p : Int) :
    .coordination k x p ∈ sends me h (.request r now) ↔ k = r.id ∧ x = me ∧ place me h = some p := by
  have hb := basic me h
  rw [sends, step, St.request]
  dsimp only
  rw [hb.own, hb.place, List.mem_append]
  have hno : ∀ s : St, Out.coordination k x p ∉ (s.check r.id).2 := by
    intro s hm
    rw [St.check] at hm
    split at hm
    · cases hm
    · split at hm
      · simp at hm
      · cases hm
  constructor
  · rintro (h1 | h1)
    · obtain ⟨q, hq, h2⟩ := List.mem_map.mp h1
      injection h2 with e1 e2 e3
      refine ⟨e1.symm, e2.symm, ?_⟩
      rw [Option.mem_toList] at hq
      rw [← e3]; exact hq
    · exact absurd h1 (hno _)
  · rintro ⟨rfl, rfl, h3⟩
    left
    rw [h3]
    simp

/-- For the examples: two entities, 1 and 2; this is 1. -/
def req : Req := { id := 5, body := 70, entities := [1, 2], wait := 100 }

/-- The coordination of 2 comes first, then the own state, then the request. -/
example : sent 1 [.coordination 5 2 22, .vehicle 1 11, .request req 1000] =
    [.coordination 5 1 11, .release 5 70 [1, 2] [(1, 11), (2, 22)]] := by decide

/-- The coordination comes after the request. -/
example : sent 1 [.vehicle 1 11, .request req 1000, .tick 1100, .coordination 5 2 22, .response 5, .tick 1200] =
    [.coordination 5 1 11, .release 5 70 [1, 2] [(2, 22), (1, 11)], .response 5] := by decide

example : Only req [.coordination 5 2 22, .vehicle 1 11] ∧ Ready 1 req [.coordination 5 2 22, .vehicle 1 11] [] ∧
    ¬ Ready 1 req [.vehicle 1 11] [.tick 1050] ∧ Late req 1000 [.tick 1101] := by
  refine ⟨⟨by decide, by decide⟩, ?_, ?_, ⟨1101, by decide, by decide⟩⟩
  · unfold Ready; decide
  · unfold Ready; decide

example : Proper 1 req 1000 [.vehicle 1 11] [.tick 1050, .coordination 5 2 22] ∧
    InTime 1 req 1000 [.vehicle 1 11] [.tick 1050, .coordination 5 2 22] := by
  constructor
  · intro g₁ i g₂ e
    match g₁, e with
    | [], e => injection e with e _; subst e; exact ⟨rfl, fun h => by cases h⟩
    | [_], e => injection e with _ e; injection e with e _; subst e; exact ⟨rfl, fun h => by cases h⟩
    | _ :: _ :: g, e => injection e with _ e; injection e with _ e; cases g <;> cases e
  · intro g₁ i g₂ e hc
    match g₁, e with
    | [], e => injection e with e _; subst e; cases hc
    | [_], e => injection e with e1 e; injection e with e _; subst e1; subst e; decide
    | _ :: _ :: g, e => injection e with _ e; injection e with _ e; cases g <;> cases e

/-- A request that was released when its waiting time had passed is released again by the coordination that was missing. -/
theorem C48_violated_late :
    sent 1 [.vehicle 1 11, .request req 1000, .tick 1101, .coordination 5 2 22] =
      [.coordination 5 1 11, .release 5 70 [1] [(1, 11)], .release 5 70 [1, 2] [(2, 22), (1, 11)]] := by decide

/-- After a request was released another coordination for it, here the same one again, makes the timer release it again, without
its contents. -/
theorem C48_violated_default :
    sent 1 [.vehicle 1 11, .request req 1000, .coordination 5 2 22, .coordination 5 2 22, .tick 1101] =
      [.coordination 5 1 11, .release 5 70 [1, 2] [(2, 22), (1, 11)], .release 5 0 [2] [(2, 22)]] := by decide

/-- A coordination for the id 0 makes a release without a request. -/
theorem C48_violated_zero : sent 1 [.coordination 0 2 22] = [.release 0 0 [] [(2, 22)]] := by decide

end Verif.Coord
