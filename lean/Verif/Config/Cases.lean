import Verif.Config.Model
import Mathlib.Data.List.Nodup

/-!
# What a configuration enables (C177-C179)
-/

namespace Verif.Config

/-- Asking for the enabled services or bridges. -/
def Op.Asks : Op → Prop
  | .bridges => True
  | .services => True
  | _ => False

/-- What is kept for later is of the document that is loaded. -/
def Inv (r : Reader) (s : State) : Prop :=
  (s.isLoaded = false → s.servicesBuilt = false ∧ s.bridgesBuilt = false) ∧
  (s.servicesBuilt = true → s.services = [enabled r "Service" s]) ∧ (s.bridgesBuilt = true → s.bridges = [enabled r "Bridge" s])

theorem setEntity_same (r : Reader) (d : Doc) (s : State) :
    (setEntity r d s).2.base = s.base ∧ (setEntity r d s).2.isLoaded = s.isLoaded ∧
    (setEntity r d s).2.servicesBuilt = s.servicesBuilt ∧ (setEntity r d s).2.bridgesBuilt = s.bridgesBuilt ∧
    (setEntity r d s).2.services = s.services ∧ (setEntity r d s).2.bridges = s.bridges := by
  unfold setEntity
  cases child d "UxAS" with
  | none => simp
  | some n =>
      cases h1 : n.attr "EntityID" with
      | none => simp [h1]
      | some i =>
          cases h2 : n.attr "EntityType" with
          | none => simp [h1, h2]
          | some t =>
              simp only [h1, h2]
              cases n.attr "StartDelay_ms" <;> cases n.attr "RunDuration_s" <;> cases n.attr "isLoggingThreadId" <;>
                cases n.attr "isDataTimestamp" <;> simp

/-- The state that a document is put into. -/
theorem load_spec {r : Reader} {p : Option Doc} {q : Doc} {s : State} (hi : Inv r s) :
    (load r p q s).2.servicesBuilt = false ∧ (load r p q s).2.bridgesBuilt = false ∧
    (load r p q s).2.isLoaded = (load r p q s).1 ∧ (load r p q s).2.base = p.getD q ∧
    (load r p q s).2.services = s.services ∧ (load r p q s).2.bridges = s.bridges := by
  unfold load
  cases hl : s.isLoaded with
  | false =>
      obtain ⟨h1, h2⟩ := hi.1 hl
      cases p with
      | none => simp [h1, h2]
      | some d =>
          obtain ⟨e1, e2, e3, e4, e5, e6⟩ := setEntity_same r d { s with base := d, isLoaded := true }
          simp only [Bool.false_eq_true, if_false, Option.getD_some]
          generalize setEntity r d { s with base := d, isLoaded := true } = x at e1 e2 e3 e4 e5 e6 ⊢
          obtain ⟨b, s1⟩ := x
          simp only at e1 e2 e3 e4 e5 e6
          cases b with
          | true => simp [e1, e2, e3, e4, e5, e6, h1, h2]
          | false => simp [e1, e3, e4, e5, e6, h1, h2]
  | true =>
      cases p with
      | none => simp
      | some d =>
          obtain ⟨e1, e2, e3, e4, e5, e6⟩ := setEntity_same r d
            { s with base := d, isLoaded := true, bridgesBuilt := false, servicesBuilt := false }
          simp only [if_true, Option.getD_some]
          cases hb : (setEntity r d { s with base := d, isLoaded := true, bridgesBuilt := false, servicesBuilt := false }).1 with
          | true => simp [e1, e2, e3, e4, e5, e6]
          | false => simp [e1, e3, e4, e5, e6]

theorem inv_step (r : Reader) {s : State} (h : Inv r s) (o : Op) : Inv r (step r s o) := by
  cases o with
  | load p q =>
      obtain ⟨h1, h2, _⟩ := load_spec (r := r) (p := p) (q := q) h
      exact ⟨fun _ => ⟨h1, h2⟩, fun h' => absurd (h1.symm.trans h') (by simp), fun h' => absurd (h2.symm.trans h') (by simp)⟩
  | unload => exact ⟨fun _ => ⟨rfl, rfl⟩, fun h' => absurd h' (by simp [step, unload]), fun h' => absurd h' (by simp [step, unload])⟩
  | bridges =>
      simp only [step, getBridges]
      split
      · rename_i hc
        simp only [Bool.and_eq_true] at hc
        exact ⟨fun h' => absurd (hc.1.symm.trans h') (by simp), h.2.1, fun _ => rfl⟩
      · exact h
  | services =>
      simp only [step, getServices]
      split
      · rename_i hc
        simp only [Bool.and_eq_true] at hc
        exact ⟨fun h' => absurd (hc.1.symm.trans h') (by simp), fun _ => rfl, h.2.2⟩
      · exact h

theorem inv_run (r : Reader) : ∀ (ops : List Op) {s : State}, Inv r s → Inv r (ops.foldl (step r) s)
  | [], _, h => h
  | o :: ops, _, h => inv_run r ops (inv_step r h o)

theorem inv_start (r : Reader) : Inv r {} := ⟨fun _ => ⟨rfl, rfl⟩, by simp, by simp⟩

/-- Asking changes neither what is loaded nor who the entity is. -/
theorem asks_same (r : Reader) : ∀ (ops : List Op), (∀ o ∈ ops, o.Asks) → ∀ s : State,
    (ops.foldl (step r) s).isLoaded = s.isLoaded ∧ (ops.foldl (step r) s).base = s.base ∧ (ops.foldl (step r) s).id = s.id ∧
    (ops.foldl (step r) s).type = s.type ∧ (s.isLoaded = false → ops.foldl (step r) s = s)
  | [], _, s => ⟨rfl, rfl, rfl, rfl, fun _ => rfl⟩
  | o :: ops, h, s => by
      obtain ⟨i1, i2, i3, i4, i5⟩ := asks_same r ops (fun x hx => h x (List.mem_cons_of_mem _ hx)) (step r s o)
      have hs : (step r s o).isLoaded = s.isLoaded ∧ (step r s o).base = s.base ∧ (step r s o).id = s.id ∧ (step r s o).type = s.type ∧
          (s.isLoaded = false → step r s o = s) := by
        have ho := h o List.mem_cons_self
        cases o with
        | load p q => exact ho.elim
        | unload => exact ho.elim
        | bridges =>
            simp only [step, getBridges]
            split
            · rename_i hc
              simp only [Bool.and_eq_true] at hc
              exact ⟨rfl, rfl, rfl, rfl, fun h' => absurd (hc.1.symm.trans h') (by simp)⟩
            · exact ⟨rfl, rfl, rfl, rfl, fun _ => rfl⟩
        | services =>
            simp only [step, getServices]
            split
            · rename_i hc
              simp only [Bool.and_eq_true] at hc
              exact ⟨rfl, rfl, rfl, rfl, fun h' => absurd (hc.1.symm.trans h') (by simp)⟩
            · exact ⟨rfl, rfl, rfl, rfl, fun _ => rfl⟩
      rw [List.foldl_cons]
      exact ⟨i1.trans hs.1, i2.trans hs.2.1, i3.trans hs.2.2.1, i4.trans hs.2.2.2.1, fun h' => by
        rw [i5 (hs.1.trans h'), hs.2.2.2.2 h']⟩

theorem child_one (a : List (String × String)) (c : List Node) : child [.mk "UxAS" a c] "UxAS" = some (.mk "UxAS" a c) := by
  simp [child, Node.name]

theorem ask_services {r : Reader} {s : State} (hi : Inv r s) (hl : s.isLoaded = true) :
    (getServices r s).1 = some (enabled r "Service" s) := by
  unfold getServices
  cases hb : s.servicesBuilt with
  | false => simp only [hl, Bool.not_false, Bool.and_self, if_true]; exact child_one _ _
  | true =>
      simp only [Bool.not_true, Bool.and_false, Bool.false_eq_true, if_false]
      rw [hi.2.1 hb]; exact child_one _ _

theorem ask_bridges {r : Reader} {s : State} (hi : Inv r s) (hl : s.isLoaded = true) :
    (getBridges r s).1 = some (enabled r "Bridge" s) := by
  unfold getBridges
  cases hb : s.bridgesBuilt with
  | false => simp only [hl, Bool.not_false, Bool.and_self, if_true]; exact child_one _ _
  | true =>
      simp only [Bool.not_true, Bool.and_false, Bool.false_eq_true, if_false]
      rw [hi.2.2 hb]; exact child_one _ _

theorem child_at {d pre post : Doc} {n : Node} {k : String} (hd : d = pre ++ n :: post) (hn : n.name = k) (hp : ∀ x ∈ pre, x.name ≠ k) :
    child d k = some n := by
  rw [child, hd, List.find?_append, List.find?_eq_none.2 fun x hx => by simpa using hp x hx]
  simp [hn]

theorem child_missing {d : Doc} {k : String} (hd : ∀ x ∈ d, x.name ≠ k) : child d k = none :=
  List.find?_eq_none.2 fun x hx => by simpa using hd x hx

/-- **C177.**  Whatever was loaded, unloaded and asked before: after a document is loaded with success, the enabled services and
bridges, asked for in any order and any number of times, are the elements of that name below the first `UxAS` of the document, in their
order, under an element with the id and type of the entity. -/
theorem C177_enabled (r : Reader) (before : List Op) (d q : Doc) {s' : State}
    (h : load r (some d) q (before.foldl (step r) {}) = (true, s')) (after : List Op) (ha : ∀ o ∈ after, o.Asks) :
    let s := after.foldl (step r) s'
    let head := [("FormatVersion", "1.0"), ("EntityID", r.text s'.id), ("EntityType", s'.type)]
    (getServices r s).1 = some (.mk "UxAS" head ((uxas d).filter (·.name == "Service"))) ∧
    (getBridges r s).1 = some (.mk "UxAS" head ((uxas d).filter (·.name == "Bridge"))) := by
  intro s head
  have hi := inv_run r before (inv_start r)
  obtain ⟨_, _, h3, h4, _⟩ := load_spec (r := r) (p := some d) (q := q) hi
  have hi' : Inv r s' := by have := inv_step r hi (.load (some d) q); simp only [step, h] at this; exact this
  rw [h] at h3 h4
  simp only [Option.getD_some] at h3 h4
  obtain ⟨a1, a2, a3, a4, _⟩ := asks_same r after ha s'
  have hs : Inv r s := inv_run r after hi'
  have hl : s.isLoaded = true := a1.trans h3
  rw [ask_services hs hl, ask_bridges hs hl]
  unfold enabled
  change s.base = _ at a2
  change s.id = _ at a3
  change s.type = _ at a4
  rw [a2, a3, a4, h4]
  exact ⟨rfl, rfl⟩

/-- **C177.**  The same of the elements of the document itself: those below the first element at the top with the name `UxAS`, or none if
there is no such element. -/
theorem C177_first (r : Reader) (before : List Op) (d q : Doc) {s' : State}
    (h : load r (some d) q (before.foldl (step r) {}) = (true, s')) (after : List Op) (ha : ∀ o ∈ after, o.Asks) :
    (∀ pre n post, d = pre ++ n :: post → n.name = "UxAS" → (∀ x ∈ pre, x.name ≠ "UxAS") →
      (getServices r (after.foldl (step r) s')).1.map Node.children = some (n.children.filter (·.name == "Service")) ∧
      (getBridges r (after.foldl (step r) s')).1.map Node.children = some (n.children.filter (·.name == "Bridge"))) ∧
    ((∀ x ∈ d, x.name ≠ "UxAS") → (getServices r (after.foldl (step r) s')).1.map Node.children = some [] ∧
      (getBridges r (after.foldl (step r) s')).1.map Node.children = some []) := by
  obtain ⟨h1, h2⟩ := C177_enabled r before d q h after ha
  constructor
  · intro pre n post hd hn hp
    rw [h1, h2, uxas, child_at hd hn hp]
    exact ⟨rfl, rfl⟩
  · intro hd
    rw [h1, h2, uxas, child_missing hd]
    exact ⟨rfl, rfl⟩

/-- **C177.**  After a document is unloaded, and before the first is loaded, there are none. -/
theorem C177_unloaded (r : Reader) (s : State) (after : List Op) (ha : ∀ o ∈ after, o.Asks) (type : String) :
    let s' := after.foldl (step r) (unload s)
    (getServices r s').1 = none ∧ (getBridges r s').1 = none ∧ getDefault type s' = none ∧
    (getServices r {}).1 = none ∧ (getBridges r {}).1 = none := by
  intro s'
  have e : s' = unload s := (asks_same r after ha (unload s)).2.2.2.2 rfl
  rw [e]
  exact ⟨rfl, rfl, rfl, rfl, rfl⟩

/-- **C178.**  A document is loaded with success exactly if it can be parsed and its first `UxAS`, if there is one, has an id and a
type; these are then those of the entity, and its other values are those of the document as far as it has them. -/
theorem C178_load (r : Reader) (d q : Doc) (s : State) :
    (load r none q s).1 = false ∧
    ((∀ x ∈ d, x.name ≠ "UxAS") → (load r (some d) q s).1 = true ∧ (load r (some d) q s).2.id = s.id ∧ (load r (some d) q s).2.type = s.type) ∧
    ∀ pre n post, d = pre ++ n :: post → n.name = "UxAS" → (∀ x ∈ pre, x.name ≠ "UxAS") →
      ((load r (some d) q s).1 = true ↔ (n.attr "EntityID").isSome ∧ (n.attr "EntityType").isSome) ∧
      ∀ i t, n.attr "EntityID" = some i → n.attr "EntityType" = some t →
        (load r (some d) q s).2.id = r.uint i ∧ (load r (some d) q s).2.type = t ∧
        (load r (some d) q s).2.startDelay = ((n.attr "StartDelay_ms").map r.uint).getD s.startDelay ∧
        (load r (some d) q s).2.runDuration = ((n.attr "RunDuration_s").map r.uint).getD s.runDuration ∧
        (load r (some d) q s).2.threadId = ((n.attr "isLoggingThreadId").map r.bool).getD s.threadId ∧
        (load r (some d) q s).2.timestamp = ((n.attr "isDataTimestamp").map r.bool).getD s.timestamp := by
  refine ⟨?_, ?_, ?_⟩
  · unfold load; cases s.isLoaded <;> rfl
  · intro h
    replace h := child_missing h
    unfold load setEntity
    cases s.isLoaded <;> simp [h]
  · intro pre n post hd hn hp
    have h := child_at hd hn hp
    constructor
    · unfold load setEntity
      cases s.isLoaded <;> cases h1 : n.attr "EntityID" <;> cases h2 : n.attr "EntityType" <;> simp [h, h1, h2]
    · intro i t h1 h2
      unfold load setEntity
      cases s.isLoaded <;> cases h3 : n.attr "StartDelay_ms" <;> cases h4 : n.attr "RunDuration_s" <;>
        cases h5 : n.attr "isLoggingThreadId" <;> cases h6 : n.attr "isDataTimestamp" <;> simp [h, h1, h2, h3, h4, h5, h6]

/-- **C179.**  The default configuration of a type of service is the first `Service` of that type in the document, or nothing. -/
theorem C179_default {s : State} (hl : s.isLoaded = true) {type : String} (ht : type ≠ "") :
    (∀ n, getDefault type s = some n ↔ ∃ pre post, uxas s.base = pre ++ n :: post ∧
      (n.name = "Service" ∧ (n.attr "Type").getD "" = type) ∧ ∀ x ∈ pre, ¬ (x.name = "Service" ∧ (x.attr "Type").getD "" = type)) ∧
    (getDefault type s = none ↔ ∀ n ∈ uxas s.base, ¬ (n.name = "Service" ∧ (n.attr "Type").getD "" = type)) := by
  have he : type.isEmpty = false := by
    rw [Bool.eq_false_iff]
    intro h
    exact ht (String.isEmpty_iff.1 h)
  unfold getDefault
  rw [if_pos hl]
  simp only [he, Bool.false_or]
  constructor
  · intro n
    rw [List.find?_eq_some_iff_append]
    simp only [Bool.and_eq_true, beq_iff_eq, Bool.not_eq_true', Bool.and_eq_false_iff, beq_eq_false_iff_ne, ne_eq]
    constructor
    · rintro ⟨⟨h1, h2⟩, pre, post, h3, h4⟩
      refine ⟨pre, post, h3, ⟨h1, h2.symm⟩, fun x hx ⟨k1, k2⟩ => ?_⟩
      rcases h4 x hx with h | h
      · exact h k1
      · exact h k2.symm
    · rintro ⟨pre, post, h3, ⟨h1, h2⟩, h4⟩
      refine ⟨⟨h1, h2.symm⟩, pre, post, h3, fun x hx => ?_⟩
      by_cases k : x.name = "Service"
      · exact Or.inr fun k2 => h4 x hx ⟨k, k2.symm⟩
      · exact Or.inl k
  · rw [List.find?_eq_none]
    simp only [Bool.and_eq_true, beq_iff_eq]
    exact ⟨fun h n hn ⟨k1, k2⟩ => h n hn ⟨k1, k2.symm⟩, fun h n hn ⟨k1, k2⟩ => h n hn ⟨k1, k2.symm⟩⟩

theorem createAll_spec (known starts : Node → Bool) : ∀ (ns : List Node) (next : ℕ) (acc : List (ℕ × Node)), (acc.map (·.1)).Nodup →
    (∀ b ∈ acc, b.1 < next) →
    ((createAll known starts ns next acc).map (·.1)).Nodup ∧
    (createAll known starts ns next acc).map (·.2) = acc.map (·.2) ++ ns.filter fun n => n.name == "Bridge" && (known n && starts n)
  | [], next, acc, h, _ => ⟨h, by simp [createAll]⟩
  | n :: ns, next, acc, h, hlt => by
      unfold createAll createBridge
      by_cases hn : n.name == "Bridge"
      · by_cases hk : known n
        · by_cases hs : starts n
          · simp only [hn, hk, hs, if_true]
            have hany : acc.any (·.1 == next) = false := by
              rw [List.any_eq_false]
              intro b hb
              have := hlt b hb
              simp only [beq_iff_eq]
              omega
            rw [hany]
            simp only [Bool.false_eq_true, if_false]
            obtain ⟨i1, i2⟩ := createAll_spec known starts ns (next + 1) (acc ++ [(next, n)]) (by
              rw [List.map_append, List.map_singleton, List.nodup_append]
              refine ⟨h, by simp, ?_⟩
              intro a ha b hb
              rw [List.mem_singleton] at hb
              obtain ⟨c, hc, rfl⟩ := List.mem_map.1 ha
              have := hlt c hc
              omega) (by
              intro b hb
              rcases List.mem_append.1 hb with hb | hb
              · have := hlt b hb; omega
              · rw [List.mem_singleton] at hb; rw [hb]; exact Nat.lt_succ_self _)
            refine ⟨i1, ?_⟩
            rw [i2, List.filter_cons, if_pos (by simp [hn, hk, hs])]
            simp
          · simp only [hn, hk, hs, if_true, Bool.false_eq_true, if_false]
            obtain ⟨i1, i2⟩ := createAll_spec known starts ns (next + 1) acc h (fun b hb => Nat.lt_succ_of_lt (hlt b hb))
            exact ⟨i1, by rw [i2, List.filter_cons, if_neg (by simp [hs])]⟩
        · simp only [hn, hk, if_true, Bool.false_eq_true, if_false]
          obtain ⟨i1, i2⟩ := createAll_spec known starts ns next acc h hlt
          exact ⟨i1, by rw [i2, List.filter_cons, if_neg (by simp [hk])]⟩
      · simp only [hn, Bool.false_eq_true, if_false]
        obtain ⟨i1, i2⟩ := createAll_spec known starts ns next acc h hlt
        exact ⟨i1, by rw [i2, List.filter_cons, if_neg (by simp [hn])]⟩

/-- **C179.**  After a document is loaded with success, the bridges that run once they are started are exactly those of the document
whose type is known and that start, in their order and with ids of their own; a bridge that fails keeps no other from running.  Starting
them a second time fails and changes nothing. -/
theorem C179_bridges (r : Reader) (before : List Op) (d q : Doc) {s : State}
    (h : load r (some d) q (before.foldl (step r) {}) = (true, s)) (known starts : Node → Bool) (next : ℕ) :
    ∃ b s', startBridges r known starts next s {} = (true, b, s') ∧
      b.running.map (·.2) = (uxas d).filter (fun n => n.name == "Bridge" && (known n && starts n)) ∧ (b.running.map (·.1)).Nodup ∧
      ∀ next' s'', startBridges r known starts next' s'' b = (false, b, s'') := by
  have hb := (C177_enabled r before d q h [] (by simp)).2
  simp only [List.foldl_nil] at hb
  have hx : ∃ s', getBridges r s = (some (.mk "UxAS" [("FormatVersion", "1.0"), ("EntityID", r.text s.id), ("EntityType", s.type)]
      ((uxas d).filter (·.name == "Bridge"))), s') := ⟨_, Prod.ext hb rfl⟩
  obtain ⟨s', hx⟩ := hx
  obtain ⟨c1, c2⟩ := createAll_spec known starts ((uxas d).filter (·.name == "Bridge")) next [] (by simp) (by simp)
  refine ⟨{ running := createAll known starts ((uxas d).filter (·.name == "Bridge")) next [], done := true }, s', ?_, ?_, c1,
    fun _ _ => rfl⟩
  · unfold startBridges
    rw [hx]
    rfl
  · simp only
    rw [c2, List.filter_filter]
    simp only [List.map_nil, List.nil_append]
    congr 1
    funext n
    cases n.name == "Bridge" <;> simp

/-! ## Cases -/

/-- A way to read numbers. -/
def reader : Reader := { uint := fun t => t.length, bool := fun t => t == "true", text := fun n => toString n }

/-- Three services and a bridge. -/
def one : Doc :=
  [.mk "UxAS" [("EntityID", "xxx"), ("EntityType", "Aircraft"), ("StartDelay_ms", "xxxxx")]
    [.mk "Service" [("Type", "A")] [], .mk "Bridge" [("Type", "T")] [], .mk "Service" [("Type", "B"), ("n", "1")] [],
     .mk "Service" [("Type", "B"), ("n", "2")] []]]

/-- Another document, without a delay. -/
def two : Doc := [.mk "UxAS" [("EntityID", "x"), ("EntityType", "Tower")] []]

/-- A document without a type. -/
def half : Doc := [.mk "UxAS" [("EntityID", "xx")] []]

example : ((getServices reader (load reader (some one) [] {}).2).1.map Node.children).map List.length = some 3 := by decide

/-- The services of the second document, of which there are none, after asking for those of the first. -/
example : ((getServices reader (load reader (some two) [] (getServices reader (load reader (some one) [] {}).2).2).2).1.map
    Node.children).map List.length = some 0 := by decide

/-- The first of two services of a type. -/
example : (getDefault "B" (load reader (some one) [] {}).2).bind (·.attr "n") = some "1" := by decide

/-- The bridge runs. -/
example : (startBridges reader (fun _ => true) (fun _ => true) 7 (load reader (some one) [] {}).2 {}).2.1.running.map (·.1) = [7] := by
  decide

/-- **C177 fails** after a document that cannot be loaded: the enabled services are still those of the document before, if they were
asked for before. -/
theorem C177_stale_violated :
    ∃ (r : Reader) (d : Doc) (s1 s2 : State), load r (some d) [] {} = (true, s1) ∧
      load r none [] (getServices r s1).2 = (false, s2) ∧ s2.isLoaded = false ∧
      (getServices r s2).1 = (getServices r s1).1 ∧ ((getServices r s2).1.map fun n => n.children.length) = some 3 :=
  ⟨reader, one, _, _, rfl, rfl, rfl, rfl, by decide⟩

/-- **C178 fails** for documents without a `UxAS` element: they are loaded with success, and the entity keeps the id of the document
before. -/
theorem C178_without_violated :
    ∃ (r : Reader) (d : Doc) (s1 s2 : State), load r (some d) [] {} = (true, s1) ∧ load r (some []) [] s1 = (true, s2) ∧
      s2.id = 3 ∧ s2.id = s1.id ∧ s2.type = s1.type :=
  ⟨reader, one, _, _, rfl, rfl, by decide, rfl, rfl⟩

/-- **C178 fails** for values that a document leaves out: they are those of the document before, not the defaults, also when that was
unloaded. -/
theorem C178_kept_violated :
    ∃ (r : Reader) (d e : Doc) (s1 s2 : State), load r (some d) [] {} = (true, s1) ∧ load r (some e) [] (unload s1) = (true, s2) ∧
      (({} : State).startDelay = 0) ∧ s2.startDelay = 5 ∧ (child e "UxAS").bind (·.attr "StartDelay_ms") = none :=
  ⟨reader, one, two, _, _, rfl, rfl, rfl, by decide, by decide⟩

/-- **C178 fails** for a document with an id and without a type: it is not loaded, but the entity has its id. -/
theorem C178_half_violated :
    ∃ (r : Reader) (d e : Doc) (s1 s2 : State), load r (some d) [] {} = (true, s1) ∧ load r (some e) [] s1 = (false, s2) ∧
      s1.id = 3 ∧ s2.id = 2 ∧ s2.type = s1.type :=
  ⟨reader, one, half, _, _, rfl, rfl, by decide, by decide, rfl⟩

/-- **C179 fails** for the request without a type, which is documented to give the configurations of all services: it gives the first
only. -/
theorem C179_all_violated :
    ∃ (r : Reader) (d : Doc) (s : State), load r (some d) [] {} = (true, s) ∧ ((uxas d).filter (·.name == "Service")).length = 3 ∧
      (getDefault "" s).bind (·.attr "Type") = some "A" :=
  ⟨reader, one, _, rfl, by decide, by decide⟩

end Verif.Config
