import Verif.Net.Setup
import Verif.Net.Props
import Mathlib.Tactic.Common

/-!
C207: a new service listens to its addresses.
-/

namespace Verif.Net

open Verif

theorem request_adds (a : Str) : ∀ (l : List Str) (b : Bool), (l.map CIn.add).foldl (request a) b = true ↔ b = true ∨ a ∈ l
  | [], b => by simp
  | x :: l, b => by
      rw [List.map_cons, List.foldl_cons, request_adds a l]
      simp only [request, List.mem_cons]
      by_cases h : x = a
      · simp [h]
      · simp [h, Ne.symm h]

/-- Not in the code: the addresses a service asks for while it is configured. -/
def wanted (entity id : Nat) (own : List Str) (group : Option Str) : List Str :=
  [unicastAddress entity id, servicesCastAllAddress entity, killAddress] ++ own ++ group.toList.filter (· ≠ [])

theorem configureCalls_eq (entity id : Nat) (own : List Str) (group : Option Str) :
    configureCalls entity id own group = (wanted entity id own group).map .add := by
  unfold configureCalls wanted
  cases group with
  | none => simp
  | some g => cases g <;> simp

theorem serviceCalls_requests (entity id : Nat) (own : List Str) (group : Option Str) (pe : Nat) (pid : Int) :
    OnlyRequests (serviceCalls entity id own group pe pid) := by
  intro i hi
  rw [serviceCalls, configureCalls_eq, List.mem_append] at hi
  rcases hi with hi | hi
  · obtain ⟨x, -, rfl⟩ := List.mem_map.1 hi
    simp
  · unfold passedCalls at hi
    by_cases hp : pid > 0 ∨ pe > 0
    · rw [if_pos hp] at hi
      simp only [List.mem_cons, List.not_mem_nil, or_false] at hi
      rcases hi with rfl | rfl <;> simp
    · rw [if_neg hp] at hi
      simp at hi

/-- **C207, in part.**  A service that is started listens to exactly: its own address, made of its entity and its id (those passed in if
there are any); and the address of all services of the configured entity, `KillService`, what its own configuration asks for and its
message group if that is not empty, unless this is the address it had before another was passed in. -/
theorem C207_addresses_partial (entity id : Nat) (own : List Str) (group : Option Str) (passedEntity : Nat) (passedId : Int) (a : Str) :
    a ∈ ((lifetime (serviceCalls entity id own group passedEntity passedId) [] []).foldl cstep {}).receiver.subs ↔
      a = unicastAddress (if passedEntity > 0 then passedEntity else entity) (if passedId > 0 then passedId.toNat else id) ∨
      ((a = servicesCastAllAddress entity ∨ a = killAddress ∨ a ∈ own ∨ (group = some a ∧ a ≠ [])) ∧
        ¬ ((passedId > 0 ∨ passedEntity > 0) ∧ a = unicastAddress entity id)) := by
  rw [C59_requests_take_effect_partial _ [] (serviceCalls_requests entity id own group passedEntity passedId) (by intro i hi; simp at hi), List.append_nil, serviceCalls,
    requested_split, configureCalls_eq]
  have hw := request_adds a (wanted entity id own group) false
  have hmem : a ∈ wanted entity id own group ↔ a = unicastAddress entity id ∨
      (a = servicesCastAllAddress entity ∨ a = killAddress ∨ a ∈ own ∨ (group = some a ∧ a ≠ [])) := by
    unfold wanted
    cases group with
    | none => simp [or_assoc]
    | some g =>
      by_cases hg : g = []
      · subst hg
        simp only [Option.toList_some, ne_eq, not_true_eq_false, decide_false, Bool.false_eq_true, not_false_eq_true, List.filter_cons_of_neg,
          List.filter_nil, List.append_nil, List.mem_append, List.mem_cons, List.not_mem_nil, or_false, Option.some.injEq, or_assoc]
        have : ¬ (([] : Str) = a ∧ ¬ a = []) := fun h => h.2 h.1.symm
        simp [this]
      · simp only [Option.toList_some, List.filter_cons, ne_eq, hg, not_false_eq_true, decide_true, if_true, List.filter_nil,
          List.mem_append, List.mem_cons, List.not_mem_nil, or_false, Option.some.injEq, or_assoc]
        constructor
        · rintro (h | h | h | h | h)
          · exact .inl h
          · exact .inr (.inl h)
          · exact .inr (.inr (.inl h))
          · exact .inr (.inr (.inr (.inl h)))
          · exact .inr (.inr (.inr (.inr ⟨h.symm, h ▸ hg⟩)))
        · rintro (h | h | h | h | h)
          · exact .inl h
          · exact .inr (.inl h)
          · exact .inr (.inr (.inl h))
          · exact .inr (.inr (.inr (.inl h)))
          · exact .inr (.inr (.inr (.inr h.1.symm)))
  rw [Bool.false_eq_true, false_or] at hw
  change requested _ a = true ↔ _ at hw
  generalize requested ((wanted entity id own group).map CIn.add) a = b at *
  unfold passedCalls
  by_cases hp : passedId > 0 ∨ passedEntity > 0
  · rw [if_pos hp]
    simp only [List.foldl_cons, List.foldl_nil, request, hp, true_and]
    generalize unicastAddress (if passedEntity > 0 then passedEntity else entity) (if passedId > 0 then passedId.toNat else id) = u
    by_cases h1 : u = a
    · simp [h1]
    · have h1' : ¬ a = u := fun e => h1 e.symm
      by_cases h2 : unicastAddress entity id = a
      · simp [h1, h1', h2]
      · have h2' : ¬ a = unicastAddress entity id := fun e => h2 e.symm
        rw [if_neg h1, if_neg h2, hw, hmem]
        simp [h1', h2']
  · rw [if_neg hp]
    have h1 : ¬ passedId > 0 := fun h => hp (.inl h)
    have h2 : ¬ passedEntity > 0 := fun h => hp (.inr h)
    simp only [List.foldl_nil, if_neg h1, if_neg h2, hp, false_and, not_false_eq_true, and_true]
    rw [hw, hmem]

/-! ### Where it fails -/

/-- **C207 is false.**  A service that is created for another entity does not listen to the address of all services of that entity,
whatever its id, unless it asks for it itself; it still listens to that of the entity of the program. -/
theorem C207_other_entity_violated (entity id passedEntity : Nat) (passedId : Int) (he : 0 < passedEntity) (hne : passedEntity ≠ entity) :
    servicesCastAllAddress passedEntity ∉
      ((lifetime (serviceCalls entity id [] none passedEntity passedId) [] []).foldl cstep {}).receiver.subs ∧
    servicesCastAllAddress entity ∈
      ((lifetime (serviceCalls entity id [] none passedEntity passedId) [] []).foldl cstep {}).receiver.subs := by
  rw [C207_addresses_partial, C207_addresses_partial]
  have hu : ∀ e e' n, servicesCastAllAddress e ≠ unicastAddress e' n := by
    intro e e' n h
    unfold servicesCastAllAddress unicastAddress at h
    have h1 : (entityCastAddress e ++ ".sidall".toList).getLast? = some 'l' := by
      rw [List.getLast?_append]; rfl
    rw [h, ← List.append_assoc, List.getLast?_append] at h1
    have hnil : decimal n ≠ [] := decimal_ne_nil n
    rw [List.getLast?_eq_some_getLast hnil] at h1
    simp only [Option.some_or, Option.some.injEq] at h1
    have := decimal_isDigit (List.getLast_mem hnil)
    rw [h1] at this
    exact absurd this (by decide)
  constructor
  · rintro (h | ⟨h | h | h | h, -⟩)
    · exact hu _ _ _ h
    · unfold servicesCastAllAddress entityCastAddress at h
      have h1 := List.append_cancel_right h
      exact hne (decimal_injective (List.append_cancel_left h1))
    · have hE : "eid".toList = ['e', 'i', 'd'] := by decide +kernel
      have hk : killAddress.head? = some 'u' := by decide +kernel
      have hs : (servicesCastAllAddress passedEntity).head? = some 'e' := by
        rw [servicesCastAllAddress, entityCastAddress, hE]; rfl
      rw [h, hk] at hs
      exact absurd hs (by decide)
    · simp at h
    · simp at h
  · exact .inr ⟨.inl rfl, fun h => hu _ _ _ h.2⟩

/-- **C207 is false.**  A service whose message group, or any address it asks for, is the address it had before an id was passed in does
not listen to it. -/
theorem C207_lost_violated : unicastAddress 100 7 ∉
    ((lifetime (serviceCalls 100 7 [unicastAddress 100 7] none 0 40) [] []).foldl cstep {}).receiver.subs := by decide +kernel

/-- `C207_addresses_partial` for a service in a group that is given the id 40. -/
example : ((lifetime (serviceCalls 100 7 ["afrl.cmasi.Task".toList] (some "Radio".toList) 0 40) [] []).foldl cstep {}).receiver.subs =
    ["eid100.sidall".toList, killAddress, "afrl.cmasi.Task".toList, "Radio".toList, "eid100.sid40".toList] := by decide +kernel

end Verif.Net
