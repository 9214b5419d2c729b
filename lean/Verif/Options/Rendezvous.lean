import Verif.Options.Model

/-!
# The options of a rendezvous

`RendezvousTask::buildTaskPlanOptions`, `src/cpp/Tasks/RendezvousTask.cpp` 188-346.  The hash table `optionMap` is a list of its
entries; `order` gives the order in which the loops go through them (the same in each loop, the table does not change).  The
algorithms `std::next_permutation` and `std::prev_permutation` are modelled after their description in the C++ standard library.
-/

namespace Verif.Options

open Verif

/-- A `PlanningState`: the vehicle it is for (0: any) and its place. -/
structure Meet where
  entity : Int
  place : Int
deriving DecidableEq, Repr

/-- The options of one vehicle, `RendezvousTask.cpp` 208-254. -/
def meetOpts (states : List Meet) (v id : Int) : List Opt :=
  numbered id (fun i s => { id := i, eligible := [v], place := s.place })
    (states.filter fun s => s.entity == 0 || s.entity == v)

/-- `optionMap[v].push_back(optionId)`. -/
def pushOption (m : List (Int × List Int)) (v id : Int) : List (Int × List Int) :=
  match m with
  | [] => [(v, [id])]
  | (u, ids) :: rest => if u = v then (u, ids ++ [id]) :: rest else (u, ids) :: pushOption rest v id

/-- The loop over the vehicles, `RendezvousTask.cpp` 202-256: the options and `optionMap`. -/
def meetLoop (states : List Meet) : Int → List Int → List Opt × List (Int × List Int) → List Opt × List (Int × List Int)
  | _, [], acc => acc
  | id, v :: vs, (os, m) =>
    let new := meetOpts states v id
    meetLoop states (id + new.length) vs (os ++ new, (new.map (·.id)).foldl (fun m i => pushOption m v i) m)

/-- The check of consistency, `RendezvousTask.cpp` 258-276: the final `rStateSize`. -/
def stateSize (k : Nat) : Nat → List Nat → Option Nat
  | r, [] => some r
  | r, s :: rest => if r = s then stateSize k r rest else if r = 1 ∧ s = k then stateSize k s rest else none

/-- `std::next_permutation` for the order `lt`: at the last place with a greater element after it, exchange with the last
greater element and reverse what follows.  None at the last permutation (the range then becomes the first one, which the code
does not use: the loops end). -/
def nextPerm (lt : Nat → Nat → Bool) : List Nat → Option (List Nat)
  | [] => none
  | x :: xs =>
    match nextPerm lt xs with
    | some ys => some (x :: ys)
    | none =>
      let s := xs.reverse
      let a := s.takeWhile fun z => !lt x z
      match s.drop a.length with
      | y :: b => some (y :: (a ++ x :: b))
      | [] => none

/-- `do { … } while (perm(l) && t < T)` with `n = T - t` rounds left. -/
def permRounds (lt : Nat → Nat → Bool) : Nat → List Nat → List (List Nat)
  | 0, _ => []
  | n + 1, l =>
    l :: match nextPerm lt l with
      | some l' => permRounds lt n l'
      | none => []

theorem permRounds_pos (lt : Nat → Nat → Bool) {n : Nat} (h : n ≠ 0) (l : List Nat) : 0 < (permRounds lt n l).length := by
  cases n with
  | zero => exact absurd rfl h
  | succ n => simp [permRounds]

/-- The first bitmask: `K` ones cut or filled with zeros to `N`, `RendezvousTask.cpp` 328-329. -/
def firstMask (n k : Nat) : List Nat := (List.replicate k 1 ++ List.replicate (n - k) 0).take n

/-- The two loops, `RendezvousTask.cpp` 325-339, with `left = T - t`: the pairs of `korder` and bitmask for which an alternative
is written. -/
def meetRounds (mask : List Nat) (left : Nat) (korder : List Nat) : List (List Nat × List Nat) :=
  if h : left = 0 then []
  else
    let ms := permRounds (fun a b => decide (b < a)) left mask
    ms.map (fun m => (korder, m)) ++
      match nextPerm (fun a b => decide (a < b)) korder with
      | some k' => meetRounds mask (left - ms.length) k'
      | none => []
termination_by left
decreasing_by
  have := permRounds_pos (fun a b => decide (b < a)) h mask
  omega

/-- The options of one alternative, `RendezvousTask.cpp` 332-335: `none` when `at` throws `std::out_of_range`. -/
def pickOptions : List (Int × List Int) → List Nat → List Nat → Option (List Int)
  | e :: es, b :: mask, ks =>
    if b = 0 then pickOptions es mask ks
    else match ks with
      | [] => none
      | k :: ks =>
        match e.2[k]?, pickOptions es mask ks with
        | some o, some os => some (o :: os)
        | _, _ => none
  | _, _, _ => some []

/-- The alternatives in turn. -/
def pickAll (m : List (Int × List Int)) : List (List Nat × List Nat) → Option (List (List Int))
  | [] => some []
  | (k, mask) :: rest =>
    match pickOptions m mask k, pickAll m rest with
    | some os, some oss => some (os :: oss)
    | _, _ => none

/-- `".( " … ") "`. -/
def altText (ids : List Int) : Str := '.' :: '(' :: ' ' :: (refs ids ++ [')', ' '])

/-- `buildTaskPlanOptions`, with `k` participants (a byte). -/
def rendezvous (g : Groups) (states : List Meet) (k : Nat) (order : List (Int × List Int) → List (Int × List Int)) :
    Outcome Published :=
  let r := meetLoop states firstId (vehicles g) ([], [])
  let m := order r.2
  match stateSize k 1 (m.map (·.2.length)) with
  | none => .ok ⟨[], []⟩
  | some size =>
    if size = 1 ∧ k = m.length then
      .ok ⟨'.' :: '(' :: ' ' :: (refs (m.map fun e => e.2.headD 0) ++ [')']), r.1⟩
    else
      match pickAll m (meetRounds (firstMask (m.length % 256) k) 64 (List.range k)) with
      | some alts => .ok ⟨'+' :: '(' :: ' ' :: (alts.flatMap altText ++ [')', ' ']), r.1⟩
      | none => .throws

end Verif.Options
