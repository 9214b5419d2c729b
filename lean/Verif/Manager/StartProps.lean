import Verif.Manager.Start
import Mathlib.Tactic.Common

/-!
C204: the start of the configured services.
-/

namespace Verif.Manager

open Verif.Config (Node Doc Reader Op getServices uxas load step C177_enabled)

/-- Not in the code: the element is the one with the settings of the service manager itself. -/
def own (n : Node) : Bool := n.attr "Type" == some "ServiceManager"

/-- Not in the code: the element asks for a service that is registered and that can be configured, initialised and started. -/
def fit (w : World) (n : Node) : Bool := !own n && (n.attr "Type").any w.known && w.works n

theorem attempt_fit {w : World} {n : Node} (hn : n.name = "Service") : (attempt w n = .starts ↔ fit w n = true) := by
  unfold attempt fit own
  cases h : n.attr "Type" with
  | none => simp
  | some t =>
    simp only [hn, or_true, true_and, Option.any_some]
    split_ifs with h1 h2 h3 <;> simp_all

theorem own_iff (n : Node) : (n.attr "Type").getD "" = "ServiceManager" ↔ own n = true := by
  unfold own
  cases h : n.attr "Type" <;> simp

/-- What holds while the elements are gone through. -/
structure Going (w : World) (others : Nat → Nat) (s : SM) (seen : List Node) (b : Begun) : Prop where
  low : s.ids.client ≤ b.sm.ids.client ∧ b.sm.ids.client ≤ s.ids.client + seen.length + ((List.range seen.length).map others).sum
  table : b.sm.table = b.log.map fun p => (p.2, { id := p.2 })
  below : ∀ p ∈ b.log, s.ids.client ≤ p.2 ∧ p.2 < b.sm.ids.client
  order : (b.log.map (·.2)).Pairwise (· < ·)
  destroyed : b.sm.destroyed = s.destroyed
  log : b.log.map (·.1) = seen.filter (fit w)
  ok : b.ok = true ↔ ∀ n ∈ seen, own n = true ∨ fit w n = true

theorem taken_spec : ∀ (k : Nat) (b : Begun), b.sm.ids.client + k < 4294967296 → (b.taken k).sm.ids.client = b.sm.ids.client + k ∧
    (b.taken k).sm.table = b.sm.table ∧ (b.taken k).sm.destroyed = b.sm.destroyed ∧ (b.taken k).ok = b.ok ∧ (b.taken k).log = b.log
  | 0, b, _ => ⟨rfl, rfl, rfl, rfl, rfl⟩
  | k + 1, b, h => by
      have hinc : Net.inc32 b.sm.ids.client = b.sm.ids.client + 1 := by unfold Net.inc32; omega
      have := taken_spec k { b with sm := { b.sm with ids := (Net.idStep b.sm.ids .draw).1 } }
        (by simp only [Net.idStep, hinc]; omega)
      simp only [Net.idStep, hinc] at this
      rw [Begun.taken]
      simp only [Net.idStep, hinc]
      obtain ⟨h1, h2⟩ := this
      exact ⟨by rw [h1]; omega, h2⟩

theorem sum_mono (others : Nat → Nat) {m n : Nat} (h : m ≤ n) : ((List.range m).map others).sum ≤ ((List.range n).map others).sum := by
  induction h with
  | refl => exact Nat.le_refl _
  | step _ ih => simp only [List.range_succ, List.map_append, List.sum_append]; omega

theorem sum_next (others : Nat → Nat) (seen : List Node) (n : Node) :
    ((List.range (seen ++ [n]).length).map others).sum = ((List.range seen.length).map others).sum + others seen.length := by
  simp [List.range_succ]

theorem going_one {w : World} {others : Nat → Nat} {s : SM} {seen : List Node} {b0 : Begun} (h : Going w others s seen b0) {n : Node}
    (hn : n.name = "Service")
    (hid : s.ids.client + (seen ++ [n]).length + ((List.range (seen ++ [n]).length).map others).sum < 4294967296) :
    Going w others s (seen ++ [n]) (beginOne w (b0.taken (others seen.length)) n) := by
  obtain ⟨⟨l1, l2⟩, ht, hb, hord, hd, hl, ho⟩ := h
  have hsum := sum_next others seen n
  rw [hsum, List.length_append, List.length_singleton] at hid
  obtain ⟨t1, t2, t3, t4, t5⟩ := taken_spec (others seen.length) b0 (by omega)
  generalize b0.taken (others seen.length) = b at *
  rw [← t5] at ht hb hord hl
  rw [← t2] at ht
  rw [← t3] at hd
  rw [← t4] at ho
  replace l1 : s.ids.client ≤ b.sm.ids.client := by omega
  replace l2 : b.sm.ids.client ≤ s.ids.client + seen.length + (((List.range seen.length).map others).sum + others seen.length) := by omega
  replace hb : ∀ p ∈ b.log, s.ids.client ≤ p.2 ∧ p.2 < b.sm.ids.client := fun p hp => by have := hb p hp; omega
  rw [← hsum] at l2 hid
  generalize hS : ((List.range (seen ++ [n]).length).map others).sum = S at *
  unfold beginOne
  by_cases hown : own n = true
  · rw [if_pos ((own_iff n).2 hown)]
    have hf : fit w n = false := by simp [fit, hown]
    refine ⟨⟨l1, by rw [hS]; simp only [List.length_append, List.length_cons, List.length_nil]; omega⟩, ht, hb, hord, hd, ?_, ?_⟩
    · rw [hl, List.filter_append]; simp [hf]
    · rw [ho]
      simp only [List.mem_append, List.mem_singleton]
      constructor
      · rintro g m (hm | rfl)
        · exact g m hm
        · exact .inl hown
      · exact fun g m hm => g m (.inl hm)
  · rw [if_neg (fun e => hown ((own_iff n).1 e))]
    have hinc : Net.inc32 b.sm.ids.client = b.sm.ids.client + 1 := by unfold Net.inc32; omega
    have hok : ∀ c : Bool, c = false → fit w n = false →
        (c = true ↔ ∀ m ∈ seen ++ [n], own m = true ∨ fit w m = true) := by
      intro c hc hf
      rw [hc]
      simp only [Bool.false_eq_true, false_iff, not_forall]
      exact ⟨n, by simp, by simp [hown, hf]⟩
    cases ha : attempt w n with
    | noService =>
      have hf : fit w n = false := by
        cases hf : fit w n with
        | false => rfl
        | true => rw [(attempt_fit hn).2 hf] at ha; cases ha
      refine ⟨⟨l1, ?_⟩, ht, hb, ?_, hd, ?_, hok _ ?_ hf⟩
      · rw [hS]; simp only [SM.create, List.length_append, List.length_cons, List.length_nil]; omega
      · exact hord
      · simp only [reduceCtorEq, if_false]; rw [hl, List.filter_append]; simp [hf]
      · simp [SM.create]
    | fails =>
      have hf : fit w n = false := by
        cases hf : fit w n with
        | false => rfl
        | true => rw [(attempt_fit hn).2 hf] at ha; cases ha
      refine ⟨?_, ht, ?_, ?_, hd, ?_, hok _ ?_ hf⟩
      · rw [hS]; simp only [SM.create, List.length_append, List.length_cons, List.length_nil, hinc]; omega
      · simp only [SM.create, reduceCtorEq, if_false, hinc]
        intro p hp
        have := hb p hp
        omega
      · exact hord
      · simp only [reduceCtorEq, if_false]; rw [hl, List.filter_append]; simp [hf]
      · simp [SM.create]
    | starts =>
      have hf : fit w n = true := (attempt_fit hn).1 ha
      have hfin : finalId b.sm.ids.client (-1) = b.sm.ids.client := rfl
      have hkey : key b.sm.ids.client = b.sm.ids.client := Nat.mod_eq_of_lt (by omega)
      have hfree : (b.sm.table.any fun p => p.1 == b.sm.ids.client) = false := by
        rw [ht, List.any_eq_false]
        intro p hp
        obtain ⟨q, hq, rfl⟩ := List.mem_map.1 hp
        have := (hb q hq).2
        simp only [beq_iff_eq]
        omega
      simp only [SM.create, hfin, hkey, hfree, Bool.false_eq_true, if_false, if_true, hinc]
      refine ⟨⟨by simp only; omega, ?_⟩, ?_, ?_, ?_, hd, ?_, ?_⟩
      · rw [hS]; simp only [List.length_append, List.length_cons, List.length_nil]; omega
      · simp [ht]
      · intro p hp
        simp only [List.mem_append, List.mem_singleton] at hp
        simp only
        rcases hp with hp | rfl
        · have := hb p hp; omega
        · simp only; omega
      · simp only [List.map_append, List.map_cons, List.map_nil]
        rw [List.pairwise_append]
        refine ⟨hord, List.pairwise_singleton _ _, ?_⟩
        intro x hx y hy
        obtain ⟨p, hp, rfl⟩ := List.mem_map.1 hx
        simp only [List.mem_singleton] at hy
        rw [hy]
        exact (hb p hp).2
      · simp only [List.map_append, List.map_cons, List.map_nil, hl, List.filter_append]; simp [hf]
      · rw [ho]
        simp only [List.mem_append, List.mem_singleton]
        constructor
        · rintro g m (hm | rfl)
          · exact g m hm
          · exact .inr hf
        · exact fun g m hm => g m (.inl hm)

theorem going_all {w : World} {others : Nat → Nat} {s : SM} : ∀ (l seen : List Node) (b : Begun), Going w others s seen b → (∀ n ∈ l, n.name = "Service") →
    s.ids.client + (seen ++ l).length + ((List.range (seen ++ l).length).map others).sum < 4294967296 →
    Going w others s (seen ++ l) ((l.zipIdx seen.length).foldl (fun b p => beginOne w (b.taken (others p.2)) p.1) b)
  | [], seen, b, h, _, _ => by simpa using h
  | n :: l, seen, b, h, hl, hid => by
      have hle : ((List.range (seen ++ [n]).length).map others).sum ≤ ((List.range (seen ++ n :: l).length).map others).sum := by
        exact sum_mono others (by simp)
      have h1 := going_one h (hl n (by simp)) (by
        simp only [List.length_append, List.length_cons, List.length_nil] at hid hle ⊢; omega)
      have := going_all l (seen ++ [n]) _ h1 (fun m hm => hl m (by simp [hm])) (by simpa [Nat.add_assoc] using hid)
      simpa using this

/-- **C204, in part.**  After a document is loaded, whatever was loaded before: the `Service` elements of the document that are fit to be
started, and only these, are running services, started in the order of the document and known to the manager under ids that rise; the
start succeeds exactly if every element other than the manager's own is fit, and exactly then `StartupComplete` is sent.  This holds
however many ids other parts of the program take meanwhile, as long as the counter of ids does not wrap. -/
theorem C204_started_partial (w : World) (others : Nat → Nat) (r : Reader) (before : List Op) (d q : Doc) {c : Verif.Config.State}
    (hload : load r (some d) q (before.foldl (step r) {}) = (true, c)) (s : SM) (h0 : s.table = [])
    (hid : s.ids.client + (uxas d).length + ((List.range (uxas d).length).map others).sum < 4294967296) :
    let x := initServices w others true (getServices r c).1 s
    let elements := (uxas d).filter (·.name == "Service")
    (x.1.log.map (·.1) = elements.filter (fit w)) ∧
    x.1.sm.table = (x.1.log.map fun p => (p.2, { id := p.2 })) ∧ (x.1.log.map (·.2)).Pairwise (· < ·) ∧
    x.1.sm.destroyed = s.destroyed ∧
    (x.2.2 = true ↔ ∀ n ∈ elements, own n = true ∨ fit w n = true) ∧ x.2.1 = x.2.2 := by
  intro x elements
  have he := (C177_enabled r before d q hload [] (by simp)).1
  simp only [List.foldl_nil] at he
  have hx : x = initServices w others true (getServices r c).1 s := rfl
  have hlen : elements.length ≤ (uxas d).length := List.length_filter_le _ _
  have hle : ((List.range elements.length).map others).sum ≤ ((List.range (uxas d).length).map others).sum := by
    exact sum_mono others hlen
  rw [he] at hx
  simp only [initServices, if_true, Node.children] at hx
  have hgo := going_all (w := w) (others := others) (s := s) elements [] { sm := s, ok := true }
    ⟨by simp, by simpa using h0, by simp, by simp, rfl, by simp, by simp⟩
    (fun n hn => by simpa using (List.mem_filter.1 hn).2) (by simp only [List.nil_append]; omega)
  rw [List.nil_append, List.length_nil] at hgo
  rw [hx]
  exact ⟨hgo.log, hgo.table, hgo.order, hgo.destroyed, hgo.ok, rfl⟩

/-- **C204.**  Without a loaded configuration, or before the manager is configured, nothing is started and nothing sent. -/
theorem C204_nothing (w : World) (others : Nat → Nat) (configured : Bool) (services : Option Node) (s : SM) (h : configured = false ∨ services = none) :
    (initServices w others configured services s).1.sm = s ∧ (initServices w others configured services s).1.log = [] ∧
    (initServices w others configured services s).2 = (false, false) := by
  unfold initServices
  rcases h with rfl | rfl
  · exact ⟨rfl, rfl, rfl⟩
  · cases configured <;> exact ⟨rfl, rfl, rfl⟩

/-! ### Where it fails -/

/-- An element for a service of a type. -/
def element (t : String) : Node := .mk "Service" [("Type", t)] []

/-- A document with three services, of which the second is misspelt, a bridge and the settings of the manager. -/
def exDoc : Doc := [.mk "UxAS" [("EntityID", "100"), ("EntityType", "Aircraft")]
  [element "TaskManagerService", .mk "Bridge" [("Type", "LmcpObjectNetworkTcpBridge")] [], element "ServiceManager",
    element "RouteAggregator", element "RouteAggregatorService"]]

/-- The types that are registered; all services work. -/
def exWorld : World := { known := fun t => t == "TaskManagerService" || t == "RouteAggregatorService", works := fun _ => true }

/-- How numbers are read. -/
def exReader : Reader := { uint := fun s => s.length, bool := fun _ => true, text := fun _ => "" }

/-- **C204 is false.**  When the start fails the services that were started before, and also those after, go on: the manager leaves
them in its table and asks none of them to stop. -/
theorem C204_left_running_violated : ∃ c, load exReader (some exDoc) [] {} = (true, c) ∧
    (initServices exWorld (fun _ => 0) true (getServices exReader c).1 { own := 1, ids := { client := 10 } }).2 = (false, false) ∧
    (initServices exWorld (fun _ => 0) true (getServices exReader c).1 { own := 1, ids := { client := 10 } }).1.sm.table =
      [(10, { id := 10 }), (11, { id := 11 })] :=
  ⟨(load exReader (some exDoc) [] {}).2, rfl, by decide +kernel, by decide +kernel⟩

/-- **C204 is false.**  A configuration without any service starts with success, and `StartupComplete` is sent. -/
theorem C204_empty_violated : ∃ c, load exReader (some []) [] {} = (true, c) ∧
    (initServices exWorld (fun _ => 0) true (getServices exReader c).1 { own := 1 }).2 = (true, true) ∧
    (initServices exWorld (fun _ => 0) true (getServices exReader c).1 { own := 1 }).1.log.length = 0 :=
  ⟨(load exReader (some []) [] {}).2, rfl, by decide +kernel, by decide +kernel⟩

/-- `C204_started_partial` for a document whose services are spelt properly. -/
example : (initServices { exWorld with known := fun _ => true } id true (getServices exReader (load exReader (some exDoc) [] {}).2).1
    { own := 1, ids := { client := 10 } }).1.log.map (·.2) = [10, 14, 18] := by decide +kernel

end Verif.Manager
