import Verif.Common
import Verif.Trace

/-!
# Safe headings

`src/cpp/Services/LoiterLeash.cpp` 89-241.  Numbers of the messages are integers here, places are not looked into: the point
at a distance and heading from a place is a parameter (lines 129-156, 204-211 compute it with the flat-earth conversion).
Pointers to nothing in messages are not modelled.
-/

namespace Verif.Leash

open Verif

/-- mdms/CMASI.xml 385-397: a place: latitude and longitude. -/
abbrev Place := Int × Int

/-- LoiterLeash.cpp 50-64: what is configured: the vehicle, the lead distance (if greater
than `1e-4`), the buffer, and the geometry. -/
structure Config where
  vehicle : Int
  lead : Option Int := none
  buffer : Int := 2
  /-- the point at a heading and distance from a place -/
  project : Place → Int → Int → Place

/-- mdms/CMASI.xml 534-570: what is read of an `EntityConfiguration`. -/
structure Entity where
  id : Int
  altitude : Int
  altitudeType : Int
  speed : Int
deriving DecidableEq, Repr

/-- mdms/UXNATIVE.xml 66-95: `SafeHeadingAction`. -/
structure Action where
  vehicle : Int
  region : Int
  lead : Int
  radius : Int
  heading : Int
  useRate : Bool
  altitude : Int
  /-- the code of the altitude type: 0 above ground, 1 above sea level -/
  altitudeType : Int
  useAltitude : Bool
  speed : Int
  useSpeed : Bool
  tasks : List Int
deriving DecidableEq, Repr

/-- mdms/CMASI.xml 1406-1420 and 1118-1158: the `VehicleActionCommand` with its
`LoiterAction`. -/
structure Loiter where
  vehicle : Int
  place : Place
  altitude : Int
  altitudeType : Int
  speed : Int
  radius : Int
  tasks : List Int
deriving DecidableEq, Repr

/-- mdms/ROUTE.xml 102-116: the `RoutePlanRequest` with its one route. -/
structure Request where
  id : Int
  vehicle : Int
  region : Int
  route : Int
  from_ : Place
  to : Place
  altitude : Int
deriving DecidableEq, Repr

/-- LoiterLeash.cpp 89-242: what the service receives. -/
inductive In where
  | state (id : Int) (place : Place)
  | entity (e : Entity)
  /-- `RoutePlanResponse`: its id, its vehicle and the numbers of waypoints of the routes -/
  | response (id vehicle : Int) (routes : List Nat)
  | action (a : Action)
  /-- any other message -/
  | other
deriving DecidableEq, Repr

/-- LoiterLeash.cpp 118, 235: what the service sends. -/
inductive Out where
  | request (r : Request)
  | loiter (l : Loiter)
deriving DecidableEq, Repr

/-- LoiterLeash.h 131-143: the members of the service. -/
structure St where
  /-- `m_lastEntityState` -/
  state : Option Place := none
  /-- `m_entityConfiguration` -/
  entity : Option Entity := none
  /-- `m_nextVehicleActionCommand` -/
  next : Option Loiter := none
  /-- `m_currentRouteId` -/
  id : Int := 0
deriving DecidableEq, Repr

/-- LoiterLeash.cpp 141-198.  An altitude that is to be used is overwritten by the code of its type (lines 164-165), whose own field
keeps its default. -/
def loiterOf (c : Config) (p : Place) (e : Entity) (a : Action) : Loiter :=
  { vehicle := c.vehicle
    place := if a.useRate then (0, 0) else c.project p a.heading (c.lead.getD a.lead)
    altitude := if a.useAltitude then a.altitudeType else e.altitude
    altitudeType := if a.useAltitude then 1 else e.altitudeType
    speed := if a.useSpeed then a.speed else e.speed
    radius := a.radius
    tasks := a.tasks }

/-- LoiterLeash.cpp 200-235. -/
def requestOf (c : Config) (id : Int) (p : Place) (e : Entity) (a : Action) : Request :=
  { id := id, vehicle := c.vehicle, region := a.region, route := id, from_ := p
    to := c.project p a.heading (c.lead.getD a.lead + c.buffer * a.radius)
    altitude := if a.useAltitude then a.altitude else e.altitude }

/-- LoiterLeash.cpp 113-116: the first route has one or two waypoints. -/
def confirmed : List Nat → Bool
  | [] => false
  | n :: _ => n != 0 && n < 3

/-- `processReceivedLmcpMessage`, LoiterLeash.cpp 89-242. -/
def step (c : Config) (s : St) : In → St × List Out
  | .state id p => (if id = c.vehicle then { s with state := some p } else s, [])
  | .entity e => (if e.id = c.vehicle then { s with entity := some e } else s, [])
  | .response id _ routes =>
    match s.next with
    | some l => if id = s.id ∧ confirmed routes = true then ({ s with next := none }, [.loiter l]) else (s, [])
    | none => (s, [])
  | .action a =>
    if a.vehicle = c.vehicle then
      match s.state, s.entity with
      | some p, some e =>
        ({ s with next := some (loiterOf c p e a), id := s.id + 1 }, [.request (requestOf c (s.id + 1) p e a)])
      | some _, none => (s, [])
      | none, some _ => (s, [])
      | none, none => (s, [])
    else (s, [])
  | .other => (s, [])

/-- Not in the code: the state after a history. -/
abbrev after (c : Config) (h : List In) : St := (runM (step c) {} h).1

/-- Not in the code: what is sent for an input after a history. -/
abbrev sends (c : Config) (h : List In) (i : In) : List Out := (step c (after c h) i).2

/-- Specification: the latest place of the vehicle. -/
def placeOf (v : Int) (h : List In) : Option Place :=
  h.reverse.findSome? fun
    | .state id p => if id = v then some p else none
    | _ => none

/-- Specification: the latest configuration of the vehicle. -/
def entityOf (v : Int) (h : List In) : Option Entity :=
  h.reverse.findSome? fun
    | .entity e => if e.id = v then some e else none
    | _ => none

/-- Specification: the number of requests sent in a history. -/
def asked (c : Config) (h : List In) : Nat := ((runM (step c) {} h).2.flatten.filter fun
    | .request _ => true
    | .loiter _ => false).length

/-- Specification: the message asks for a heading and is taken up. -/
def Taken (c : Config) (h : List In) (a : Action) (p : Place) (e : Entity) : Prop :=
  a.vehicle = c.vehicle ∧ placeOf c.vehicle h = some p ∧ entityOf c.vehicle h = some e

theorem after_snoc (c : Config) (h : List In) (i : In) : after c (h ++ [i]) = (step c (after c h) i).1 := by
  rw [after, runM_snoc]

theorem asked_snoc (c : Config) (h : List In) (i : In) : asked c (h ++ [i]) = asked c h + ((sends c h i).filter fun
    | .request _ => true
    | .loiter _ => false).length := by
  rw [asked, asked, runM_snoc]; simp

theorem place_snoc (v : Int) (h : List In) (i : In) : placeOf v (h ++ [i]) = match i with
    | .state id p => if id = v then some p else placeOf v h
    | _ => placeOf v h := by
  rw [placeOf, List.reverse_append, List.reverse_singleton, List.singleton_append, List.findSome?_cons]
  cases i with
  | state id p => by_cases e : id = v <;> simp [e, placeOf]
  | _ => rfl

theorem entity_snoc (v : Int) (h : List In) (i : In) : entityOf v (h ++ [i]) = match i with
    | .entity e => if e.id = v then some e else entityOf v h
    | _ => entityOf v h := by
  rw [entityOf, List.reverse_append, List.reverse_singleton, List.singleton_append, List.findSome?_cons]
  cases i with
  | entity e => by_cases h : e.id = v <;> simp [h, entityOf]
  | _ => rfl

/-- Specification: the command waits for the confirmation of the request of this action.
-/
def Waits (c : Config) (h : List In) (l : Loiter) : Prop :=
  ∃ h₁ a p e h₂, h = h₁ ++ .action a :: h₂ ∧ Taken c h₁ a p e ∧ l = loiterOf c p e a ∧
    sends c h₁ (.action a) = [.request (requestOf c (asked c h) p e a)] ∧
    ∀ g j k, h₂ = g ++ j :: k → sends c (h₁ ++ .action a :: g) j = []

/-- For the proofs: what holds after every history. -/
structure Inv (c : Config) (h : List In) (s : St) : Prop where
  state : s.state = placeOf c.vehicle h
  entity : s.entity = entityOf c.vehicle h
  id : s.id = asked c h
  next : ∀ l, s.next = some l → Waits c h l

theorem inv (c : Config) (h : List In) : Inv c h (after c h) := by
  induction h using snocRec with
  | nil => exact ⟨rfl, rfl, rfl, fun l h => by cases h⟩
  | append_singleton h i ih =>
    have hsend : sends c h i = (step c (after c h) i).2 := rfl
    have keep : sends c h i = [] → ∀ l, (after c h).next = some l → Waits c (h ++ [i]) l := by
      intro hn l hl
      obtain ⟨h₁, a, p, e, h₂, rfl, ht, rfl, hr, hq⟩ := ih.next l hl
      refine ⟨h₁, a, p, e, h₂ ++ [i], by simp, ht, rfl, ?_, ?_⟩
      · rw [asked_snoc, hn]; exact hr
      · intro g j k hg
        rcases List.eq_nil_or_concat k with rfl | ⟨k', y, rfl⟩
        · obtain ⟨rfl, e₂⟩ := List.append_inj' hg rfl
          cases e₂
          exact hn
        · rw [List.concat_eq_append, ← List.cons_append, ← List.append_assoc] at hg
          obtain ⟨e₁, -⟩ := List.append_inj' hg rfl
          exact hq g j k' e₁
    rw [after_snoc]
    cases i with
    | state id p =>
      refine ⟨?_, ?_, ?_, ?_⟩
      · rw [place_snoc]; simp only [step]; split
        · rfl
        · exact ih.state
      · rw [entity_snoc]; simp only [step]; split <;> exact ih.entity
      · rw [asked_snoc, hsend]; simp only [step]; split <;> simpa using ih.id
      · intro l hl; exact keep rfl l (by simp only [step] at hl; split at hl <;> exact hl)
    | entity e =>
      refine ⟨?_, ?_, ?_, ?_⟩
      · rw [place_snoc]; simp only [step]; split <;> exact ih.state
      · rw [entity_snoc]; simp only [step]; split
        · rfl
        · exact ih.entity
      · rw [asked_snoc, hsend]; simp only [step]; split <;> simpa using ih.id
      · intro l hl; exact keep rfl l (by simp only [step] at hl; split at hl <;> exact hl)
    | response id v routes =>
      have hst : ∃ n o, step c (after c h) (.response id v routes) = ({ after c h with next := n }, o) ∧
          ((n = none ∧ ∃ l, o = [.loiter l]) ∨ (n = (after c h).next ∧ o = [])) := by
        simp only [step]
        cases hn : (after c h).next with
        | none => exact ⟨none, [], congrArg (fun x => ({ after c h with next := x }, [])) hn, .inr ⟨rfl, rfl⟩⟩
        | some l =>
          by_cases hc : id = (after c h).id ∧ confirmed routes = true
          · exact ⟨none, [.loiter l], by simp only [if_pos hc], .inl ⟨rfl, l, rfl⟩⟩
          · exact ⟨some l, [], by simp only [if_neg hc, ← hn], .inr ⟨rfl, rfl⟩⟩
      obtain ⟨n, o, e, ho⟩ := hst
      rw [e]
      refine ⟨?_, ?_, ?_, ?_⟩
      · rw [place_snoc]; exact ih.state
      · rw [entity_snoc]; exact ih.entity
      · rw [asked_snoc, hsend, e]
        rcases ho with ⟨-, l, rfl⟩ | ⟨-, rfl⟩ <;> simpa using ih.id
      · intro l hl
        rcases ho with ⟨rfl, -⟩ | ⟨rfl, rfl⟩
        · cases hl
        · exact keep (by rw [hsend, e]) l hl
    | action a =>
      by_cases hv : a.vehicle = c.vehicle
      · cases hp : (after c h).state with
        | none =>
          have e : step c (after c h) (.action a) = (after c h, []) := by
            simp only [step, if_pos hv, hp]
            cases (after c h).entity <;> rfl
          rw [e]
          refine ⟨?_, ?_, ?_, fun l hl => keep (by rw [hsend, e]) l hl⟩
          · rw [place_snoc]; exact ih.state
          · rw [entity_snoc]; exact ih.entity
          · rw [asked_snoc, hsend, e]; simpa using ih.id
        | some p =>
          cases he : (after c h).entity with
          | none =>
            have e : step c (after c h) (.action a) = (after c h, []) := by
              simp only [step, if_pos hv, hp, he]
            rw [e]
            refine ⟨?_, ?_, ?_, fun l hl => keep (by rw [hsend, e]) l hl⟩
            · rw [place_snoc]; exact ih.state
            · rw [entity_snoc]; exact ih.entity
            · rw [asked_snoc, hsend, e]; simpa using ih.id
          | some en =>
            have e : step c (after c h) (.action a) = ({ after c h with next := some (loiterOf c p en a), id := (after c h).id + 1 },
                [.request (requestOf c ((after c h).id + 1) p en a)]) := by
              simp only [step, if_pos hv, hp, he]
            rw [e]
            refine ⟨?_, ?_, ?_, ?_⟩
            · rw [place_snoc]; exact ih.state
            · rw [entity_snoc]; exact ih.entity
            · rw [asked_snoc, hsend, e]
              have := ih.id
              simp; omega
            · intro l hl
              cases hl
              refine ⟨h, a, p, en, [], rfl, ⟨hv, by rw [← ih.state, hp], by rw [← ih.entity, he]⟩, rfl, ?_, ?_⟩
              · have h' : asked c (h ++ [.action a]) = asked c h + 1 := by rw [asked_snoc, hsend, e]; rfl
                rw [hsend, e, h']
                have := ih.id
                simp [this]
              · intro g j k hg; simp at hg
      · have e : step c (after c h) (.action a) = (after c h, []) := by simp only [step, if_neg hv]
        rw [e]
        refine ⟨?_, ?_, ?_, fun l hl => keep (by rw [hsend, e]) l hl⟩
        · rw [place_snoc]; exact ih.state
        · rw [entity_snoc]; exact ih.entity
        · rw [asked_snoc, hsend, e]; simpa using ih.id
    | other =>
      refine ⟨?_, ?_, ?_, fun l hl => keep rfl l hl⟩
      · rw [place_snoc]; exact ih.state
      · rw [entity_snoc]; exact ih.entity
      · rw [asked_snoc, hsend]; simpa [step] using ih.id

/-! ## The claims -/

/-- A command is sent only on a response that has the number of the latest request and a first route of one or two waypoints.
It is the command for the action that led to this request, and nothing was sent in between. -/
theorem C88_confirmed {c : Config} {h : List In} {i : In} {l : Loiter} (hl : .loiter l ∈ sends c h i) :
    ∃ id v n routes h₁ a p e h₂, i = .response id v (n :: routes) ∧ (n = 1 ∨ n = 2) ∧ h = h₁ ++ .action a :: h₂ ∧
      Taken c h₁ a p e ∧ l = loiterOf c p e a ∧ sends c h₁ (.action a) = [.request (requestOf c id p e a)] ∧
      ∀ g j k, h₂ = g ++ j :: k → sends c (h₁ ++ .action a :: g) j = [] := by
  have hi := inv c h
  rw [sends] at hl
  cases i with
  | state _ _ => simp [step] at hl
  | entity _ => simp [step] at hl
  | other => simp [step] at hl
  | action a =>
    simp only [step] at hl
    split at hl
    · split at hl <;> simp at hl
    · simp at hl
  | response id v routes =>
    simp only [step] at hl
    cases hn : (after c h).next with
    | none => rw [hn] at hl; simp at hl
    | some l' =>
      rw [hn] at hl
      simp only [] at hl
      split at hl
      · next hc =>
        simp only [List.mem_singleton, Out.loiter.injEq] at hl
        subst hl
        obtain ⟨h₁, a, p, e, h₂, e₁, e₂, e₃, e₄, e₅⟩ := hi.next l hn
        cases routes with
        | nil => simp [confirmed] at hc
        | cons n rs =>
          refine ⟨id, v, n, rs, h₁, a, p, e, h₂, rfl, ?_, e₁, e₂, e₃, ?_, e₅⟩
          · have := hc.2
            simp [confirmed] at this
            omega
          · rw [e₄, hc.1, hi.id]
      · cases hl

/-- The confirmation of the latest request brings the command, unless it has been sent. -/
theorem C88_released {c : Config} {h₁ h₂ : List In} {a : Action} {p : Place} {e : Entity} {v : Int} {n : Nat}
    {routes : List Nat} (ht : Taken c h₁ a p e) (hq : ∀ g j k, h₂ = g ++ j :: k → sends c (h₁ ++ .action a :: g) j = [])
    (hn : n = 1 ∨ n = 2) : ∃ r, sends c h₁ (.action a) = [.request r] ∧
      sends c (h₁ ++ .action a :: h₂) (.response r.id v (n :: routes)) = [.loiter (loiterOf c p e a)] := by
  have hi := inv c h₁
  obtain ⟨t₁, t₂, t₃⟩ := ht
  have es : step c (after c h₁) (.action a) = ({ after c h₁ with next := some (loiterOf c p e a), id := (after c h₁).id + 1 },
      [.request (requestOf c ((after c h₁).id + 1) p e a)]) := by
    simp only [step, if_pos t₁, hi.state, hi.entity, t₂, t₃]
  refine ⟨requestOf c ((after c h₁).id + 1) p e a, by rw [sends, es], ?_⟩
  have key : (after c (h₁ ++ .action a :: h₂)).next = some (loiterOf c p e a) ∧
      (after c (h₁ ++ .action a :: h₂)).id = (after c h₁).id + 1 := by
    induction h₂ using snocRec with
    | nil => rw [after_snoc, es]; exact ⟨rfl, rfl⟩
    | append_singleton h₂ i ih =>
      have ih := ih fun g j k hg => hq g j (k ++ [i]) (by rw [hg]; simp)
      have hi' := hq h₂ i [] rfl
      rw [← List.cons_append, ← List.append_assoc, after_snoc]
      rw [sends] at hi'
      generalize after c (h₁ ++ .action a :: h₂) = s at ih hi' ⊢
      cases i with
      | state _ _ => simp only [step]; split <;> exact ih
      | entity _ => simp only [step]; split <;> exact ih
      | other => exact ih
      | action b =>
        simp only [step] at hi' ⊢
        split
        · next hb =>
          rw [if_pos hb] at hi'
          cases hs : s.state <;> cases he : s.entity <;> simp only [hs, he] at hi' ⊢ <;> first | exact ih | cases hi'
        · exact ih
      | response id v routes =>
        simp only [step, ih.1] at hi' ⊢
        split
        · next hb => rw [if_pos hb] at hi'; cases hi'
        · exact ih
  rw [sends]
  simp only [step, key.1, key.2, requestOf]
  rw [if_pos ⟨trivial, by rcases hn with rfl | rfl <;> rfl⟩]

/-- The contents of a command without an altitude of its own and with a heading: the point ahead, the altitude of the
configuration, the speed, radius and tasks asked for. -/
theorem C89_contents_partial {c : Config} {h : List In} {i : In} {l : Loiter} (hl : .loiter l ∈ sends c h i) :
    l.vehicle = c.vehicle ∧ ∃ h₁ a p e h₂, h = h₁ ++ .action a :: h₂ ∧ Taken c h₁ a p e ∧ l.radius = a.radius ∧
      l.tasks = a.tasks ∧ (a.useRate = false → l.place = c.project p a.heading (c.lead.getD a.lead)) ∧
      (a.useAltitude = false → l.altitude = e.altitude ∧ l.altitudeType = e.altitudeType) ∧
      l.speed = if a.useSpeed then a.speed else e.speed := by
  obtain ⟨id, v, n, routes, h₁, a, p, e, h₂, -, -, e₁, e₂, rfl, -⟩ := C88_confirmed hl
  refine ⟨rfl, h₁, a, p, e, h₂, e₁, e₂, rfl, rfl, ?_, ?_, rfl⟩
  · intro hr; simp [loiterOf, hr]
  · intro hr; simp [loiterOf, hr]

/-- Every request asks for one route, from the latest place of the vehicle to the point ahead that lies beyond the loiter, and
bears the number of requests sent so far. -/
theorem C89_request {c : Config} {h : List In} {i : In} {r : Request} (hr : .request r ∈ sends c h i) :
    ∃ a e, i = .action a ∧ a.vehicle = c.vehicle ∧ placeOf c.vehicle h = some r.from_ ∧ entityOf c.vehicle h = some e ∧
      r.vehicle = c.vehicle ∧ r.id = asked c h + 1 ∧ r.route = r.id ∧ r.region = a.region ∧
      r.to = c.project r.from_ a.heading (c.lead.getD a.lead + c.buffer * a.radius) ∧
      r.altitude = if a.useAltitude then a.altitude else e.altitude := by
  have hi := inv c h
  rw [sends] at hr
  cases i with
  | state _ _ => simp [step] at hr
  | entity _ => simp [step] at hr
  | other => simp [step] at hr
  | response id v routes =>
    simp only [step] at hr
    split at hr
    · split at hr <;> simp at hr
    · simp at hr
  | action a =>
    simp only [step] at hr
    split at hr
    · next hv =>
      cases hp : (after c h).state <;> cases he : (after c h).entity <;> simp only [hp, he] at hr
      · cases hr
      · cases hr
      · cases hr
      · next p e =>
        simp only [List.mem_singleton, Out.request.injEq] at hr
        subst hr
        refine ⟨a, e, rfl, hv, by rw [← hi.state, hp]; rfl, by rw [← hi.entity, he], rfl, ?_, rfl, rfl, rfl, rfl⟩
        rw [← hi.id]; rfl
    · cases hr

/-! ## Cases -/

/-- For the examples: a vehicle, with a simple geometry. -/
def c₀ : Config := { vehicle := 5, project := fun p a d => (p.1 + d, p.2 + a) }
/-- For the examples: its configuration. -/
def e₀ : Entity := { id := 5, altitude := 700, altitudeType := 1, speed := 20 }
/-- For the examples: a heading for it. -/
def a₀ : Action :=
  { vehicle := 5, region := 0, lead := 1000, radius := 100, heading := 90, useRate := false, altitude := 300
    altitudeType := 1, useAltitude := false, speed := 30, useSpeed := true, tasks := [] }

example : Taken c₀ [.state 5 (1, 2), .entity e₀] a₀ (1, 2) e₀ := ⟨rfl, rfl, rfl⟩

example : sends c₀ [.state 5 (1, 2), .entity e₀, .action a₀] (.response 1 5 [2]) =
    [.loiter ⟨5, (1001, 92), 700, 1, 30, 100, []⟩] := by decide

/-- The altitude asked for is not that of the command: it is the code of the altitude type. -/
theorem C89_violated_altitude : ∃ c h a p e i l, Taken c h a p e ∧ a.useAltitude = true ∧
    .loiter l ∈ sends c (h ++ [.action a]) i ∧ a.altitude = 300 ∧ l.altitude = 1 :=
  ⟨c₀, [.state 5 (1, 2), .entity e₀], { a₀ with useAltitude := true }, (1, 2), e₀, .response 1 5 [2],
    ⟨5, (1001, 92), 1, 1, 30, 100, []⟩, ⟨rfl, rfl, rfl⟩, rfl, by decide, rfl, rfl⟩

/-- With a heading rate the vehicle is sent to latitude and longitude 0, though the route checked is elsewhere. -/
theorem C89_violated_rate : ∃ c h a p e i l r, Taken c h a p e ∧ a.useRate = true ∧
    sends c h (.action a) = [.request r] ∧ .loiter l ∈ sends c (h ++ [.action a]) i ∧ l.place = (0, 0) ∧ r.to = (1201, 92) :=
  ⟨c₀, [.state 5 (1, 2), .entity e₀], { a₀ with useRate := true }, (1, 2), e₀, .response 1 5 [2],
    ⟨5, (0, 0), 700, 1, 30, 100, []⟩, ⟨1, 5, 0, 1, (1, 2), (1201, 92), 700⟩, ⟨rfl, rfl, rfl⟩, rfl, by decide, by decide, rfl, rfl⟩

/-- A response to a request of another service for another vehicle is taken for the confirmation, if its number is the
same. -/
theorem C88_violated_foreign : ∃ c h v l, v ≠ c.vehicle ∧ .loiter l ∈ sends c h (.response 1 v [2]) :=
  ⟨c₀, [.state 5 (1, 2), .entity e₀, .action a₀], 9, ⟨5, (1001, 92), 700, 1, 30, 100, []⟩, by decide, by decide⟩

end Verif.Leash
