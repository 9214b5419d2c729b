/-
C112: the answers of the route planner service.
C113: it plans in the zones of the region.
-/
import Verif.RoutePlanner.Lemmas

namespace Verif.RoutePlanner

open Verif.Visibility (Pt toInt64 trunc toInt64_ok)

/-! ### The meaning of the statements -/

/-- The state that a message gives of a vehicle. -/
def Msg.stateOf (v : Int) : Msg → Option VState
  | .state i x => if i = v then some x else none
  | .airState i x => if i = v then some x else none
  | .groundState i x => if i = v then some x else none
  | .surfaceState i x => if i = v then some x else none
  | _ => none

/-- The nominal speed and altitude that a message gives of a vehicle. -/
def Msg.nominal (v : Int) : Msg → Option (Rat × Rat)
  | .config i s a => if i = v then some (s, a) else none
  | .airConfig i s a _ => if i = v then some (s, a) else none
  | .groundConfig i s a => if i = v then some (s, a) else none
  | .surfaceConfig i s a _ => if i = v then some (s, a) else none
  | _ => none

/-- The message tells of a vehicle in the air. -/
def Msg.inAir (v : Int) : Msg → Bool
  | .airState i _ => i = v
  | .airConfig i _ _ _ => i = v
  | _ => false

/-- The message tells of a vehicle on the water. -/
def Msg.onWater (v : Int) : Msg → Bool
  | .surfaceState i _ => i = v
  | .surfaceConfig i _ _ _ => i = v
  | _ => false

/-- The zone to be kept in with an identifier that a message gives. -/
def Msg.inZone (i : Int) : Msg → Option Zone
  | .keepIn z => if z.id = i then some z else none
  | _ => none

/-- The zone to be kept out of with an identifier that a message gives. -/
def Msg.outZone (i : Int) : Msg → Option Zone
  | .keepOut z => if z.id = i then some z else none
  | _ => none

/-- The last of what the messages tell. -/
def latest {α : Type} (f : Msg → Option α) (h : List Msg) : Option α := h.reverse.findSome? f

theorem latest_snoc {α : Type} (f : Msg → Option α) (h : List Msg) (m : Msg) :
    latest f (h ++ [m]) = (f m).or (latest f h) := by
  unfold latest
  rw [List.reverse_append, List.reverse_singleton, List.singleton_append, List.findSome?_cons]
  cases f m <;> simp

/-- A plan that answers a request for a route: `way` is the way to take, of the
length `len`, `none` when there is none. -/
structure Answers (costOnly : Bool) (speed alt : Rat) (way : Option (List Pt × Rat)) (q : RouteReq)
    (p : Plan) : Prop where
  id : p.routeId = q.routeId
  none : way = none → p.cost = -1 ∧ p.wps = []
  cost : ∀ w len, way = some (w, len) → p.cost = trunc (len / speed * 1000)
  ways : ∀ w len, way = some (w, len) → p.wps.map (·.place) = if costOnly then [] else w
  found : ∀ w len, way = some (w, len) → w ≠ []
  pace : ∀ w ∈ p.wps, w.speed = speed ∧ w.alt = alt
  chain : ∀ i (hi : i < p.wps.length), p.wps[i].number = i + 1 ∧
    p.wps[i].next = if i + 1 = p.wps.length then i + 1 else i + 2

/-! ### What is known -/

theorem mem_insert (v u : Int) (l : List Int) : u ∈ insert v l ↔ u = v ∨ u ∈ l := by
  unfold insert
  split <;> grind

/-- Nothing else is known than what the messages told. -/
theorem after_known {lib : Lib} {h : List Msg} {s : St} (e : St.after lib h = .ok s) :
    (∀ v, v ∈ s.airs ↔ ∃ m ∈ h, m.inAir v = true) ∧
    (∀ v, v ∈ s.surfs ↔ ∃ m ∈ h, m.onWater v = true) ∧
    (∀ v, s.states.get v = latest (·.stateOf v) h) ∧
    (∀ v, (s.configs.get v).map (fun c => (c.speed, c.alt)) = latest (·.nominal v) h) ∧
    (∀ i, s.ins.get i = latest (·.inZone i) h) ∧
    (∀ i, s.outs.get i = latest (·.outZone i) h) := by
  induction h using snocRec generalizing s with
  | nil => cases e; simp [latest, Map.get]
  | append_singleton h m ih =>
    rw [after_snoc] at e
    obtain ⟨s₀, e₀, e⟩ := Outcome.bind_eq_ok.mp e
    obtain ⟨i₁, i₂, i₃, i₄, i₅, i₆⟩ := ih e₀
    have some_snoc : ∀ P : Msg → Prop, (∃ x ∈ h ++ [m], P x) ↔ (∃ x ∈ h, P x) ∨ P m := by
      intro P; simp only [List.mem_append, List.mem_singleton]; grind
    simp only [some_snoc, latest_snoc, ← i₁, ← i₂, ← i₃, ← i₄, ← i₅, ← i₆]
    clear i₁ i₂ i₃ i₄ i₅ i₆ some_snoc
    cases m with
    | request src r => cases e; simp [Msg.inAir, Msg.onWater, Msg.stateOf, Msg.nominal, Msg.inZone, Msg.outZone]
    | state id x =>
      cases e
      simp [Msg.inAir, Msg.onWater, Msg.stateOf, Msg.nominal, Msg.inZone, Msg.outZone, Map.get_put]
      grind
    | groundState id x =>
      cases e
      simp [Msg.inAir, Msg.onWater, Msg.stateOf, Msg.nominal, Msg.inZone, Msg.outZone, Map.get_put]
      grind
    | config id sp al =>
      cases e
      simp [Msg.inAir, Msg.onWater, Msg.stateOf, Msg.nominal, Msg.inZone, Msg.outZone, Map.get_put]
      grind
    | groundConfig id sp al =>
      cases e
      simp [Msg.inAir, Msg.onWater, Msg.stateOf, Msg.nominal, Msg.inZone, Msg.outZone, Map.get_put]
      grind
    | airState id x =>
      cases e
      have ha : Alike { s₀ with states := s₀.states.put id x }
          (if id ∈ s₀.airs then { s₀ with states := s₀.states.put id x }
            else { s₀ with states := s₀.states.put id x }.newVehicle lib id none) := by
        split
        · exact .refl _
        · exact newVehicle_alike lib _ _ _
      dsimp only at ha ⊢
      revert ha
      generalize (if id ∈ s₀.airs then _ else _ : St) = s₁
      rintro ⟨e₁, e₂, e₃, e₄, e₅, e₆, e₇, e₈⟩
      simp [e₁, e₂, e₃, e₄, e₆, e₇, Msg.inAir, Msg.onWater, Msg.stateOf, Msg.nominal, Msg.inZone, Msg.outZone, Map.get_put, mem_insert]
      grind
    | surfaceState id x =>
      cases e
      have ha : Alike { s₀ with states := s₀.states.put id x }
          (if id ∈ s₀.surfs then { s₀ with states := s₀.states.put id x }
            else { s₀ with states := s₀.states.put id x }.newVehicle lib id none) := by
        split
        · exact .refl _
        · exact newVehicle_alike lib _ _ _
      dsimp only at ha ⊢
      revert ha
      generalize (if id ∈ s₀.surfs then _ else _ : St) = s₁
      rintro ⟨e₁, e₂, e₃, e₄, e₅, e₆, e₇, e₈⟩
      simp [e₁, e₂, e₃, e₄, e₆, e₇, Msg.inAir, Msg.onWater, Msg.stateOf, Msg.nominal, Msg.inZone, Msg.outZone, Map.get_put, mem_insert]
      grind
    | airConfig id sp al ex =>
      cases e
      have ha : Alike { s₀ with configs := s₀.configs.put id { speed := sp, alt := al } }
          (if id ∈ s₀.airs ∨ ex = false then { s₀ with configs := s₀.configs.put id { speed := sp, alt := al } }
            else { s₀ with configs := s₀.configs.put id { speed := sp, alt := al } }.newVehicle lib id none) := by
        split
        · exact .refl _
        · exact newVehicle_alike lib _ _ _
      dsimp only at ha ⊢
      revert ha
      generalize (if id ∈ s₀.airs ∨ ex = false then _ else _ : St) = s₁
      rintro ⟨e₁, e₂, e₃, e₄, e₅, e₆, e₇, e₈⟩
      simp [e₁, e₂, e₃, e₄, e₆, e₇, Msg.inAir, Msg.onWater, Msg.stateOf, Msg.nominal, Msg.inZone, Msg.outZone, Map.get_put, mem_insert]
      grind
    | surfaceConfig id sp al ar =>
      cases e
      have ha : Alike s₀ (if (s₀.configs.get id).isSome then s₀ else s₀.newSurface lib id ar) := by
        split
        · exact .refl _
        · exact newSurface_alike lib _ _ _
      dsimp only at ha ⊢
      revert ha
      generalize (if (s₀.configs.get id).isSome then _ else _ : St) = s₁
      rintro ⟨e₁, e₂, e₃, e₄, e₅, e₆, e₇, e₈⟩
      simp [e₁, e₂, e₃, e₄, e₆, e₇, Msg.inAir, Msg.onWater, Msg.stateOf, Msg.nominal, Msg.inZone, Msg.outZone, Map.get_put, mem_insert]
      grind
    | water id b =>
      cases e
      have ha : Alike { s₀ with waters := s₀.waters.put id b }
          (s₀.configs.foldl (fun s c => if c.2.water = some id then s.newSurface lib c.1 id else s)
            { s₀ with waters := s₀.waters.put id b }) :=
        foldl_alike _ (fun s c => by
          split
          · exact newSurface_alike lib _ _ _
          · exact .refl _) _ _
      revert ha
      generalize (s₀.configs.foldl _ _ : St) = s₁
      rintro ⟨e₁, e₂, e₃, e₄, e₅, e₆, e₇, e₈⟩
      simp [e₁, e₂, e₃, e₄, e₆, e₇, Msg.inAir, Msg.onWater, Msg.stateOf, Msg.nominal, Msg.inZone, Msg.outZone]
    | keepIn z =>
      obtain ⟨s₁, ⟨e₁, e₂, e₃, e₄, e₅, e₆, e₇, e₈⟩, rfl, -⟩ := upd_keepIn lib e
      simp [e₁, e₂, e₃, e₄, e₆, e₇, Msg.inAir, Msg.onWater, Msg.stateOf, Msg.nominal, Msg.inZone, Msg.outZone, Map.get_put]
      grind
    | keepOut z =>
      obtain ⟨s₁, ⟨e₁, e₂, e₃, e₄, e₅, e₆, e₇, e₈⟩, rfl, -⟩ := upd_keepOut lib e
      simp [e₁, e₂, e₃, e₄, e₆, e₇, Msg.inAir, Msg.onWater, Msg.stateOf, Msg.nominal, Msg.inZone, Msg.outZone, Map.get_put]
      grind
    | region r =>
      obtain ⟨rs, ha⟩ : ∃ rs, Alike { s₀ with regions := rs } s := by
        rcases upd_region lib e with ⟨-, -, -, e⟩ | ⟨-, -, -, e⟩ | ⟨-, e⟩
        · exact ⟨s₀.regions, e ▸ .refl _⟩
        · exact ⟨s₀.regions, buildRegion_alike lib e⟩
        · exact ⟨_, buildRegion_alike lib e⟩
      obtain ⟨e₁, e₂, e₃, e₄, e₅, e₆, e₇, e₈⟩ := ha
      simp [e₁, e₂, e₃, e₄, e₆, e₇, Msg.inAir, Msg.onWater, Msg.stateOf, Msg.nominal, Msg.inZone, Msg.outZone]

/-! ### C112: the answers -/

/-- The speed and altitude to plan with: those of the last state, unless it is a
state of a vehicle that stands and there is a configuration; else the nominal
ones; none, if nothing is known. -/
def Flown (h : List Msg) (v : Int) (speed alt : Rat) : Prop :=
  match latest (·.stateOf v) h, latest (·.nominal v) h with
  | some x, some n => if x.speed < 1 / 10 then n = (speed, alt) else (x.speed, x.alt) = (speed, alt)
  | some x, none => (x.speed, x.alt) = (speed, alt)
  | none, some n => n = (speed, alt)
  | none, none => speed = -1 ∧ alt = 0

/-- The way to take between two places at a speed: within the environment, if
there is one and both places are in it; straight on, if there is none. -/
inductive Way (lib : Lib) (env : Option (List Poly)) (speed : Rat) :
    Option Pt → Option Pt → Option (List Pt × Rat) → Prop
  | start {q : Option Pt} : Way lib env speed none q none
  | stop {p : Option Pt} : Way lib env speed p none none
  | slow {p q : Option Pt} (h : speed < 1 / 10000) : Way lib env speed p q none
  | out {p q : Pt} {e : List Poly} (he : env = some e)
      (h : lib.inEnv e p = false ∨ lib.inEnv e q = false) : Way lib env speed (some p) (some q) none
  | path {p q : Pt} {e : List Poly} (h : 1 / 10000 ≤ speed) (he : env = some e)
      (hp : lib.inEnv e p = true) (hq : lib.inEnv e q = true) :
      Way lib env speed (some p) (some q) (some (lib.path e p q, lib.length (lib.path e p q)))
  | straight {p q : Pt} (h : 1 / 10000 ≤ speed) (he : env = none) :
      Way lib env speed (some p) (some q) (some ([p, q], lib.dist p q))

/-- The place asked for, that of the vehicle when none is given. -/
def placeOf (h : List Msg) (v : Int) (p : Option Pt) : Option Pt :=
  p.or ((latest (·.stateOf v) h).map (·.place))

theorem pace_flown {lib : Lib} {h : List Msg} {s : St} (e : St.after lib h = .ok s) (v : Int) :
    Flown h v (s.pace v).1 (s.pace v).2 := by
  obtain ⟨-, -, i₃, i₄, -, -⟩ := after_known e
  unfold Flown St.pace
  rw [i₃ v, ← i₄ v]
  cases latest (·.stateOf v) h with
  | none => cases s.configs.get v <;> simp
  | some x =>
    cases s.configs.get v with
    | none => simp
    | some c =>
      dsimp only [Option.map_some]
      split <;> rfl

theorem place_eq {lib : Lib} {h : List Msg} {s : St} (e : St.after lib h = .ok s) (v : Int)
    (p : Option Pt) : s.place v p = placeOf h v p := by
  obtain ⟨-, -, i₃, -⟩ := after_known e
  unfold St.place placeOf
  cases p with
  | none => rw [i₃ v]; rfl
  | some p => rfl

theorem wpsOf_chain (pace : Rat × Rat) (ps : List Pt) :
    (wpsOf pace ps).map (·.place) = ps ∧
    (∀ w ∈ wpsOf pace ps, w.speed = pace.1 ∧ w.alt = pace.2) ∧
    ∀ i (hi : i < (wpsOf pace ps).length), (wpsOf pace ps)[i].number = i + 1 ∧
      (wpsOf pace ps)[i].next = if i + 1 = (wpsOf pace ps).length then i + 1 else i + 2 := by
  unfold wpsOf
  refine ⟨?_, ?_, ?_⟩
  · apply List.ext_getElem
    · simp
    · intro i h₁ h₂; simp
  · intro w hw
    obtain ⟨i, hi, rfl⟩ := List.mem_mapIdx.mp hw
    exact ⟨rfl, rfl⟩
  · intro i hi
    have hl : i < ps.length := by simpa using hi
    simp only [List.getElem_mapIdx, List.length_mapIdx, true_and]
    by_cases k : i + 1 = ps.length
    · rw [if_pos k, if_pos (by omega)]
    · rw [if_neg k, if_neg (by omega)]

theorem route_spec {lib : Lib} {s : St} {r : PlanReq} {q : RouteReq} {p : Plan}
    (h : s.route lib r q = .ok p) :
    ∃ way, Way lib (s.env r.region r.vehicle) (s.pace r.vehicle).1 (s.place r.vehicle q.start)
        (s.place r.vehicle q.stop) way ∧
      Answers r.costOnly (s.pace r.vehicle).1 (s.pace r.vehicle).2 way q p := by
  have noway : p = { routeId := q.routeId } →
      Answers r.costOnly (s.pace r.vehicle).1 (s.pace r.vehicle).2 none q p := by
    rintro rfl
    exact ⟨rfl, fun _ => ⟨rfl, rfl⟩, fun _ _ e => (by cases e), fun _ _ e => (by cases e),
      fun _ _ e => (by cases e),
      fun w hw => (by cases hw), fun i hi => (by cases hi)⟩
  have someway : ∀ ps len, ps ≠ [] → (toInt64 (len / (s.pace r.vehicle).1 * 1000)).bind (fun c => Outcome.ok
      ({ routeId := q.routeId, cost := c
         wps := if r.costOnly then [] else wpsOf (s.pace r.vehicle) ps } : Plan)) = .ok p →
      Answers r.costOnly (s.pace r.vehicle).1 (s.pace r.vehicle).2 (some (ps, len)) q p := by
    intro ps len hne h
    obtain ⟨c, hc, h⟩ := Outcome.bind_eq_ok.mp h
    cases h
    obtain ⟨h₁, h₂, h₃⟩ := wpsOf_chain (s.pace r.vehicle) ps
    cases r.costOnly with
    | true =>
      exact ⟨rfl, fun e => (by cases e), fun w l e => (by cases e; exact toInt64_ok hc),
        fun w l e => rfl, fun w l e => (by cases e; exact hne), fun w hw => (by cases hw), fun i hi => (by cases hi)⟩
    | false =>
      exact ⟨rfl, fun e => (by cases e), fun w l e => (by cases e; exact toInt64_ok hc),
        fun w l e => (by cases e; exact h₁), fun w l e => (by cases e; exact hne), h₂, h₃⟩
  unfold St.route at h
  dsimp only at h
  cases hp : s.place r.vehicle q.start with
  | none =>
    rw [hp] at h
    cases h
    exact ⟨none, .start, noway rfl⟩
  | some a =>
    cases hq : s.place r.vehicle q.stop with
    | none =>
      rw [hp, hq] at h
      cases h
      exact ⟨none, .stop, noway rfl⟩
    | some b =>
      rw [hp, hq] at h
      dsimp only at h
      by_cases k : (s.pace r.vehicle).1 < 1 / 10000
      · rw [if_pos k] at h
        cases h
        exact ⟨none, .slow k, noway rfl⟩
      · rw [if_neg k] at h
        have k' : 1 / 10000 ≤ (s.pace r.vehicle).1 := by grind
        cases he : s.env r.region r.vehicle with
        | none =>
          rw [he] at h
          exact ⟨_, .straight k' rfl, someway _ _ (by simp) h⟩
        | some e =>
          rw [he] at h
          dsimp only at h
          by_cases hin : (lib.inEnv e a && lib.inEnv e b) = true
          · rw [if_pos hin] at h
            rw [Bool.and_eq_true] at hin
            by_cases hn : lib.path e a b = []
            · rw [if_pos hn] at h; cases h
            · rw [if_neg hn] at h
              exact ⟨_, .path k' rfl hin.1 hin.2, someway _ _ hn h⟩
          · rw [if_neg hin] at h
            cases h
            refine ⟨none, .out rfl ?_, noway rfl⟩
            cases h₁ : lib.inEnv e a <;> cases h₂ : lib.inEnv e b <;> simp_all

theorem collect_spec {f : RouteReq → Outcome Plan} {qs : List RouteReq} {ps : List Plan}
    (h : collect f qs = .ok ps) : ps.length = qs.length ∧ ∀ x ∈ qs.zip ps, f x.1 = .ok x.2 := by
  induction qs generalizing ps with
  | nil => cases h; exact ⟨rfl, by simp⟩
  | cons q qs ih =>
    obtain ⟨p, hp, h⟩ := Outcome.bind_eq_ok.mp h
    obtain ⟨ps', hps, h⟩ := Outcome.bind_eq_ok.mp h
    cases h
    obtain ⟨h₁, h₂⟩ := ih hps
    refine ⟨by simp [h₁], fun x hx => ?_⟩
    rw [List.zip_cons_cons] at hx
    rcases List.mem_cons.mp hx with rfl | hx
    · exact hp
    · exact h₂ x hx

/-- **C112.**  A request for a vehicle known to be in the air or on the water is
answered to its sender, with the identifiers of the request and one plan for each
route asked for, in their order.  Each plan has the way to take as its waypoints,
in a chain that ends with itself, and the time it takes in milliseconds as its
cost; -1 and no waypoints, when there is no way. -/
theorem C112_answer {lib : Lib} {h : List Msg} {s : St} (e : St.after lib h = .ok s) {src : Nat}
    {r : PlanReq} (hk : ∃ m ∈ h, m.inAir r.vehicle = true ∨ m.onWater r.vehicle = true)
    {out : List (Nat × PlanResp)} (hr : s.reply lib (.request src r) = .ok out) :
    ∃ ps speed alt, out = [(src, { responseId := r.requestId, taskId := r.taskId, region := r.region
                                   vehicle := r.vehicle, plans := ps })] ∧
      Flown h r.vehicle speed alt ∧ ps.length = r.routes.length ∧
      ∀ x ∈ r.routes.zip ps, ∃ way,
        Way lib (s.env r.region r.vehicle) speed (placeOf h r.vehicle x.1.start)
          (placeOf h r.vehicle x.1.stop) way ∧ Answers r.costOnly speed alt way x.1 x.2 := by
  obtain ⟨i₁, i₂, -⟩ := after_known e
  have hk' : r.vehicle ∈ s.airs ∨ r.vehicle ∈ s.surfs := by
    obtain ⟨m, hm, h₁ | h₁⟩ := hk
    · exact .inl ((i₁ _).mpr ⟨m, hm, h₁⟩)
    · exact .inr ((i₂ _).mpr ⟨m, hm, h₁⟩)
  unfold St.reply at hr
  dsimp only at hr
  rw [if_pos hk'] at hr
  obtain ⟨ps, hps, hr⟩ := Outcome.bind_eq_ok.mp hr
  cases hr
  obtain ⟨h₁, h₂⟩ := collect_spec hps
  refine ⟨ps, _, _, rfl, pace_flown e r.vehicle, h₁, fun x hx => ?_⟩
  obtain ⟨way, hw, ha⟩ := route_spec (h₂ x hx)
  rw [place_eq e, place_eq e] at hw
  exact ⟨way, hw, ha⟩

/-- **C112.**  Requests for any other vehicle are not answered. -/
theorem C112_silent {lib : Lib} {h : List Msg} {s : St} (e : St.after lib h = .ok s) {src : Nat}
    {r : PlanReq} (hk : ∀ m ∈ h, m.inAir r.vehicle = false ∧ m.onWater r.vehicle = false) :
    s.reply lib (.request src r) = .ok [] := by
  obtain ⟨i₁, i₂, -⟩ := after_known e
  unfold St.reply
  dsimp only
  rw [if_neg]
  rintro (k | k)
  · obtain ⟨m, hm, h₁⟩ := (i₁ _).mp k
    rw [(hk m hm).1] at h₁; cases h₁
  · obtain ⟨m, hm, h₁⟩ := (i₂ _).mp k
    rw [(hk m hm).2] at h₁; cases h₁

theorem collect_ok {f : RouteReq → Outcome Plan} {qs : List RouteReq}
    (h : ∀ q ∈ qs, ∃ p, f q = .ok p) : ∃ ps, collect f qs = .ok ps := by
  induction qs with
  | nil => exact ⟨[], rfl⟩
  | cons q qs ih =>
    obtain ⟨p, hp⟩ := h q (by simp)
    obtain ⟨ps, hps⟩ := ih fun q hq => h q (List.mem_cons_of_mem _ hq)
    exact ⟨p :: ps, by rw [collect, hp, Outcome.bind_ok, hps, Outcome.bind_ok]⟩

/-- **C112.**  There always is an answer when a way is found in every environment and the
times of the ways are within the range of 64-bit integers. -/
theorem C112_answers {lib : Lib} {h : List Msg} {s : St} (e : St.after lib h = .ok s) (src : Nat)
    (r : PlanReq) (hw : ∀ q ∈ r.routes, ∀ speed alt way len, Flown h r.vehicle speed alt →
      Way lib (s.env r.region r.vehicle) speed (placeOf h r.vehicle q.start)
        (placeOf h r.vehicle q.stop) (some (way, len)) → way ≠ [] ∧
      -9223372036854775808 ≤ trunc (len / speed * 1000) ∧
        trunc (len / speed * 1000) ≤ 9223372036854775807) :
    ∃ out, s.reply lib (.request src r) = .ok out := by
  have hroute : ∀ q ∈ r.routes, ∃ p, s.route lib r q = .ok p := by
    intro q hq
    have hw' := fun way len => hw q hq _ _ way len (pace_flown e r.vehicle)
    rw [← place_eq e, ← place_eq e] at hw'
    have cost : ∀ ps len, Way lib (s.env r.region r.vehicle) (s.pace r.vehicle).1
        (s.place r.vehicle q.start) (s.place r.vehicle q.stop) (some (ps, len)) →
        ps ≠ [] ∧ ∃ c, toInt64 (len / (s.pace r.vehicle).1 * 1000) = .ok c := by
      intro ps len hway
      unfold toInt64
      rw [if_pos (hw' ps len hway).2]
      exact ⟨(hw' ps len hway).1, _, rfl⟩
    clear hw hw'
    unfold St.route
    dsimp only
    cases hp : s.place r.vehicle q.start with
    | none => exact ⟨_, rfl⟩
    | some a =>
      cases hq : s.place r.vehicle q.stop with
      | none => exact ⟨_, rfl⟩
      | some b =>
        rw [hp, hq] at cost
        dsimp only
        by_cases k : (s.pace r.vehicle).1 < 1 / 10000
        · rw [if_pos k]; exact ⟨_, rfl⟩
        · rw [if_neg k]
          have k' : 1 / 10000 ≤ (s.pace r.vehicle).1 := by grind
          cases he : s.env r.region r.vehicle with
          | none =>
            rw [he] at cost
            obtain ⟨-, c, hc⟩ := cost _ _ (.straight k' rfl)
            dsimp only
            rw [hc]
            exact ⟨_, rfl⟩
          | some e =>
            rw [he] at cost
            dsimp only
            by_cases hin : (lib.inEnv e a && lib.inEnv e b) = true
            · rw [if_pos hin]
              rw [Bool.and_eq_true] at hin
              obtain ⟨hn, c, hc⟩ := cost _ _ (.path k' rfl hin.1 hin.2)
              rw [if_neg hn, hc]
              exact ⟨_, rfl⟩
            · rw [if_neg hin]; exact ⟨_, rfl⟩
  obtain ⟨ps, hps⟩ := collect_ok hroute
  unfold St.reply
  dsimp only
  split
  · rw [hps]; exact ⟨_, rfl⟩
  · exact ⟨_, rfl⟩

/-- **C112 (violated).**  A request with a place that cannot be reached is not answered: if
both places of a route are in the environment and no way between them is found, what is
done is undefined, whatever the other routes are. -/
theorem C112_unreached_violated {lib : Lib} {h : List Msg} {s : St} (e : St.after lib h = .ok s)
    {src : Nat} {r : PlanReq} (hk : ∃ m ∈ h, m.inAir r.vehicle = true ∨ m.onWater r.vehicle = true)
    {speed alt : Rat} (hf : Flown h r.vehicle speed alt) (hs : 1 / 10000 ≤ speed)
    {env : List Poly} (he : s.env r.region r.vehicle = some env) {q : RouteReq} (hq : q ∈ r.routes)
    {a b : Pt} (ha : placeOf h r.vehicle q.start = some a) (hb : placeOf h r.vehicle q.stop = some b)
    (ia : lib.inEnv env a = true) (ib : lib.inEnv env b = true) (hn : lib.path env a b = [])
    (out : List (Nat × PlanResp)) : s.reply lib (.request src r) ≠ .ok out := by
  intro ho
  obtain ⟨ps, sp, al, -, hfl, hlen, hps⟩ := C112_answer e hk ho
  obtain ⟨n, hn', rfl⟩ := List.getElem_of_mem hq
  obtain ⟨way, hway, hans⟩ := hps (r.routes[n], ps[n]'(by omega)) (by
    have := List.getElem_zip (l := r.routes) (l' := ps) (i := n)
      (h := by rw [List.length_zip]; omega)
    rw [← this]
    exact List.getElem_mem _)
  dsimp only at hway
  have hsp : sp = speed := by
    unfold Flown at hf hfl
    revert hf hfl
    split
    · split
      · intro h₁ h₂; rw [h₁] at h₂; cases h₂; rfl
      · intro h₁ h₂; rw [h₁] at h₂; cases h₂; rfl
    · intro h₁ h₂; rw [h₁] at h₂; cases h₂; rfl
    · intro h₁ h₂; rw [h₁] at h₂; cases h₂; rfl
    · intro h₁ h₂; rw [h₁.1, h₂.1]
  subst hsp
  rw [ha, hb, he] at hway
  generalize hA : some a = A at hway
  generalize hB : some b = B at hway
  generalize hE : some env = E at hway
  cases hway with
  | start => cases hA
  | stop => cases hB
  | slow h => grind
  | out he h =>
    cases hA; cases hB; cases hE; cases he
    rcases h with h | h
    · rw [ia] at h; cases h
    · rw [ib] at h; cases h
  | path _ he =>
    cases hA; cases hB; cases hE; cases he
    exact hans.found _ _ rfl hn
  | straight _ he => cases hE; cases he

/-! ### C113: the environment planned in -/

/-- Zones and regions are not changed, and the zones of a region are sent before
the region. -/
structure Calm (h : List Msg) : Prop where
  ins : ∀ z z', .keepIn z ∈ h → .keepIn z' ∈ h → z.id = z'.id → z = z'
  outs : ∀ z z', .keepOut z ∈ h → .keepOut z' ∈ h → z.id = z'.id → z = z'
  regions : ∀ r r', .region r ∈ h → .region r' ∈ h → r.id = r'.id → r = r'
  insFirst : ∀ h₁ r h₂ z, h = h₁ ++ .region r :: h₂ → .keepIn z ∈ h₂ → z.id ∈ r.ins →
    .keepIn z ∈ h₁
  outsFirst : ∀ h₁ r h₂ z, h = h₁ ++ .region r :: h₂ → .keepOut z ∈ h₂ → z.id ∈ r.outs →
    .keepOut z ∈ h₁

theorem Calm.init {h : List Msg} {m : Msg} (hc : Calm (h ++ [m])) : Calm h where
  ins z z' h₁ h₂ := hc.ins z z' (List.mem_append_left _ h₁) (List.mem_append_left _ h₂)
  outs z z' h₁ h₂ := hc.outs z z' (List.mem_append_left _ h₁) (List.mem_append_left _ h₂)
  regions z z' h₁ h₂ := hc.regions z z' (List.mem_append_left _ h₁) (List.mem_append_left _ h₂)
  insFirst h₁ r h₂ z e hz hi :=
    hc.insFirst h₁ r (h₂ ++ [m]) z (by rw [e]; simp) (List.mem_append_left _ hz) hi
  outsFirst h₁ r h₂ z e hz hi :=
    hc.outsFirst h₁ r (h₂ ++ [m]) z (by rw [e]; simp) (List.mem_append_left _ hz) hi

theorem latest_mem {α : Type} {f : Msg → Option α} {h : List Msg} {a : α} (e : latest f h = some a) :
    ∃ m ∈ h, f m = some a := by
  obtain ⟨m, hm, e⟩ := List.exists_of_findSome?_eq_some e
  exact ⟨m, List.mem_reverse.mp hm, e⟩

theorem latest_isSome {α : Type} {f : Msg → Option α} {h : List Msg} {m : Msg} (hm : m ∈ h)
    (hf : (f m).isSome) : ∃ a, latest f h = some a := by
  rw [← Option.isSome_iff_exists]
  unfold latest
  rw [List.findSome?_isSome_iff]
  exact ⟨m, List.mem_reverse.mpr hm, hf⟩

/-- The regions that messages other than regions leave as they are. -/
theorem upd_regions {lib : Lib} {s s' : St} {m : Msg} (e : s.upd lib m = .ok s')
    (hm : ∀ r, m ≠ .region r) : s'.regions = s.regions := by
  cases m with
  | request src r => cases e; rfl
  | state id x => cases e; rfl
  | groundState id x => cases e; rfl
  | config id sp al => cases e; rfl
  | groundConfig id sp al => cases e; rfl
  | airState id x =>
    cases e
    dsimp only
    split
    · rfl
    · exact (newVehicle_alike lib _ _ _).2.2.2.2.1
  | surfaceState id x =>
    cases e
    dsimp only
    split
    · rfl
    · exact (newVehicle_alike lib _ _ _).2.2.2.2.1
  | airConfig id sp al ex =>
    cases e
    dsimp only
    split
    · rfl
    · exact (newVehicle_alike lib _ _ _).2.2.2.2.1
  | surfaceConfig id sp al ar =>
    cases e
    dsimp only
    split
    · rfl
    · exact (newSurface_alike lib _ _ _).2.2.2.2.1
  | water id b =>
    cases e
    exact (foldl_alike _ (fun s c => by
      split
      · exact newSurface_alike lib _ _ _
      · exact .refl _) _ _).2.2.2.2.1
  | keepIn z =>
    obtain ⟨s₁, ha, rfl, -⟩ := upd_keepIn lib e
    exact ha.2.2.2.2.1
  | keepOut z =>
    obtain ⟨s₁, ha, rfl, -⟩ := upd_keepOut lib e
    exact ha.2.2.2.2.1
  | region r => exact absurd rfl (hm r)

theorem after_regions {lib : Lib} {h : List Msg} {s : St} (e : St.after lib h = .ok s)
    (hc : ∀ r r', .region r ∈ h → .region r' ∈ h → r.id = r'.id → r = r') :
    (∀ p ∈ s.regions, p.1 = p.2.id) ∧ (s.regions.map (·.1)).Nodup ∧
      ∀ i r, s.regions.get i = some r ↔ .region r ∈ h ∧ r.id = i := by
  induction h using snocRec generalizing s with
  | nil => cases e; simp [Map.get]
  | append_singleton h m ih =>
    rw [after_snoc] at e
    obtain ⟨s₀, e₀, e⟩ := Outcome.bind_eq_ok.mp e
    obtain ⟨i₁, i₂, i₃⟩ := ih e₀ fun r r' h₁ h₂ =>
      hc r r' (List.mem_append_left _ h₁) (List.mem_append_left _ h₂)
    by_cases hm : ∃ r, m = .region r
    · obtain ⟨r, rfl⟩ := hm
      have hr : ∀ q, .region q ∈ h → q.id = r.id → q = r := fun q hq =>
        hc q r (List.mem_append_left _ hq) (by simp)
      rcases upd_region lib e with ⟨q, hq, rfl, rfl⟩ | ⟨q, hq, hne, -⟩ | ⟨hn, e⟩
      · refine ⟨i₁, i₂, fun i r => ?_⟩
        rw [i₃]
        have := (i₃ _ _).mp hq
        simp only [List.mem_append, List.mem_singleton, Msg.region.injEq]
        grind
      · have := (i₃ _ _).mp hq
        exact absurd (hr q this.1 this.2) hne
      · rw [(buildRegion_alike lib e).2.2.2.2.1]
        refine ⟨?_, Map.nodup_put i₂ _ _, fun i q => ?_⟩
        · intro p hp
          rcases List.mem_cons.mp hp with rfl | hp
          · rfl
          · exact i₁ p (List.mem_filter.mp hp).1
        · dsimp only
          rw [Map.get_put]
          simp only [List.mem_append, List.mem_singleton, Msg.region.injEq]
          have := i₃ i q
          by_cases hi : i = r.id
          · rw [if_pos hi]
            have hnone : ∀ q, .region q ∈ h → q.id ≠ r.id := by
              intro q hq e
              have := (i₃ r.id q).mpr ⟨hq, e⟩
              rw [hn] at this; cases this
            grind
          · rw [if_neg hi]
            grind
    · rw [upd_regions e (fun r e => hm ⟨r, e⟩)]
      refine ⟨i₁, i₂, fun i r => ?_⟩
      rw [i₃]
      simp only [List.mem_append, List.mem_singleton]
      grind

/-- A water area is known only of a vehicle on the water. -/
theorem after_water {lib : Lib} {h : List Msg} {s : St} (e : St.after lib h = .ok s) :
    ∀ p ∈ s.configs, ∀ a, p.2.water = some a → ∃ m ∈ h, m.onWater p.1 = true := by
  induction h using snocRec generalizing s with
  | nil => cases e; intro p hp; cases hp
  | append_singleton h m ih =>
    rw [after_snoc] at e
    obtain ⟨s₀, e₀, e⟩ := Outcome.bind_eq_ok.mp e
    have ih := ih e₀
    have old : ∀ p ∈ s₀.configs, ∀ a, p.2.water = some a → ∃ x ∈ h ++ [m], x.onWater p.1 = true := by
      intro p hp a ha
      obtain ⟨x, hx, h₁⟩ := ih p hp a ha
      exact ⟨x, List.mem_append_left _ hx, h₁⟩
    have plain : ∀ id c, c.water = none → ∀ p ∈ s₀.configs.put id c, ∀ a, p.2.water = some a →
        ∃ x ∈ h ++ [m], x.onWater p.1 = true := by
      intro id c hc p hp a ha
      rcases List.mem_cons.mp hp with rfl | hp
      · rw [hc] at ha; cases ha
      · exact old p (List.mem_filter.mp hp).1 a ha
    cases m with
    | request src r => cases e; exact old
    | state id x => cases e; exact old
    | groundState id x => cases e; exact old
    | config id sp al => cases e; exact plain _ _ rfl
    | groundConfig id sp al => cases e; exact plain _ _ rfl
    | airState id x =>
      cases e
      dsimp only
      split
      · exact old
      · rw [(newVehicle_alike lib _ _ _).2.1]; exact old
    | surfaceState id x =>
      cases e
      dsimp only
      split
      · exact old
      · rw [(newVehicle_alike lib _ _ _).2.1]; exact old
    | airConfig id sp al ex =>
      cases e
      dsimp only
      split
      · exact plain _ _ rfl
      · rw [(newVehicle_alike lib _ _ _).2.1]; exact plain _ _ rfl
    | surfaceConfig id sp al ar =>
      cases e
      dsimp only
      have : (if (s₀.configs.get id).isSome then s₀ else s₀.newSurface lib id ar).configs = s₀.configs := by
        split
        · rfl
        · exact (newSurface_alike lib _ _ _).2.1
      rw [this]
      intro p hp a ha
      rcases List.mem_cons.mp hp with rfl | hp
      · exact ⟨.surfaceConfig id sp al ar, by simp, by simp [Msg.onWater]⟩
      · exact old p (List.mem_filter.mp hp).1 a ha
    | water id b =>
      cases e
      have := (foldl_alike (fun s (c : Int × Config) => if c.2.water = some id then s.newSurface lib c.1 id else s)
        (fun s c => by
          split
          · exact newSurface_alike lib _ _ _
          · exact .refl _) s₀.configs { s₀ with waters := s₀.waters.put id b }).2.1
      rw [this]
      exact old
    | keepIn z =>
      obtain ⟨s₁, ha, rfl, -⟩ := upd_keepIn lib e
      dsimp only
      rw [ha.2.1]; exact old
    | keepOut z =>
      obtain ⟨s₁, ha, rfl, -⟩ := upd_keepOut lib e
      dsimp only
      rw [ha.2.1]; exact old
    | region r =>
      have : s.configs = s₀.configs := by
        rcases upd_region lib e with ⟨-, -, -, e⟩ | ⟨-, -, -, e⟩ | ⟨-, e⟩
        · rw [e]
        · exact (buildRegion_alike lib e).2.1
        · exact (buildRegion_alike lib e).2.1
      rw [this]; exact old

theorem env_foldl_water (lib : Lib) (id : Int) (l : List (Int × Config)) (s : St) (i u : Int)
    (hu : ∀ c ∈ l, c.2.water = some id → c.1 ≠ u) :
    (l.foldl (fun s c => if c.2.water = some id then s.newSurface lib c.1 id else s) s).env i u =
      s.env i u := by
  induction l generalizing s with
  | nil => rfl
  | cons c l ih =>
    rw [List.foldl_cons, ih _ fun c hc => hu c (List.mem_cons_of_mem _ hc)]
    split
    · rename_i k
      exact env_newSurface lib _ _ _ _ _ fun e => hu c (by simp) k e.symm
    · rfl

/-- The environments of a vehicle in the air, while zones and regions stay. -/
theorem env_inv {lib : Lib} {h : List Msg} {s : St} (e : St.after lib h = .ok s) (hc : Calm h)
    {v : Int} (hw : ∀ m ∈ h, m.onWater v = false) (hd : ∀ sp al, .airConfig v sp al false ∉ h) :
    ∀ i, s.env i v = if v ∈ s.airs then
      (s.regions.get i).bind (fun r => buildEnv lib s.ins s.outs r v none) else none := by
  induction h using snocRec generalizing s with
  | nil => cases e; simp [St.env, Map.get]
  | append_singleton h m ih =>
    have e' := e
    rw [after_snoc] at e
    obtain ⟨s₀, e₀, e⟩ := Outcome.bind_eq_ok.mp e
    have ih := ih e₀ hc.init (fun m hm => hw m (List.mem_append_left _ hm))
      (fun sp al hm => hd sp al (List.mem_append_left _ hm))
    obtain ⟨r₁, r₂, r₃⟩ := after_regions e₀ hc.init.regions
    obtain ⟨-, k₂, -, -, k₅, k₆⟩ := after_known e₀
    have hm := hw m (by simp)
    have hdm : ∀ sp al, m ≠ .airConfig v sp al false := fun sp al e => hd sp al (by simp [e])
    have hv : v ∉ s₀.surfs := by
      intro k
      obtain ⟨x, hx, hx'⟩ := (k₂ v).mp k
      rw [hw x (List.mem_append_left _ hx)] at hx'; cases hx'
    intro i
    have ihi := ih i
    cases m with
    | request src r => cases e; exact ihi
    | state id x => cases e; exact ihi
    | groundState id x => cases e; exact ihi
    | config id sp al => cases e; exact ihi
    | groundConfig id sp al => cases e; exact ihi
    | airState id x =>
      cases e
      dsimp only
      split
      · rename_i k
        simp only [mem_insert]
        have : v = id ∨ v ∈ s₀.airs ↔ v ∈ s₀.airs := by grind
        simp only [this]
        exact ihi
      · rename_i k
        obtain ⟨e₁, e₂, e₃, e₄, e₅, e₆, e₇, e₈⟩ :=
          newVehicle_alike lib { s₀ with states := s₀.states.put id x } id none
        rw [show ∀ s : St, ∀ l, ({ s with airs := l } : St).env i v = s.env i v from fun _ _ => rfl,
          env_newVehicle lib (s := { s₀ with states := s₀.states.put id x }) r₁ r₂]
        simp only [e₃, e₄, e₅, e₆, mem_insert]
        rw [show ({ s₀ with states := s₀.states.put id x } : St).env i v = s₀.env i v from rfl, ihi]
        by_cases hid : v = id
        · subst hid; simp [k]
        · simp [hid]
    | airConfig id sp al ex =>
      cases e
      dsimp only
      have hex : ex = false → v ≠ id := by
        rintro rfl rfl; exact hdm sp al rfl
      split
      · rename_i k
        simp only [mem_insert]
        have : v = id ∨ v ∈ s₀.airs ↔ v ∈ s₀.airs := by grind
        simp only [this]
        exact ihi
      · rename_i k
        rw [not_or] at k
        obtain ⟨e₁, e₂, e₃, e₄, e₅, e₆, e₇, e₈⟩ := newVehicle_alike lib
          { s₀ with configs := s₀.configs.put id { speed := sp, alt := al } } id none
        rw [show ∀ s : St, ∀ l, ({ s with airs := l } : St).env i v = s.env i v from fun _ _ => rfl,
          env_newVehicle lib
            (s := { s₀ with configs := s₀.configs.put id { speed := sp, alt := al } }) r₁ r₂]
        simp only [e₃, e₄, e₅, e₆, mem_insert]
        rw [show ({ s₀ with configs := s₀.configs.put id { speed := sp, alt := al } } : St).env i v =
          s₀.env i v from rfl, ihi]
        by_cases hid : v = id
        · subst hid; simp [k.1]
        · simp [hid]
    | surfaceState id x =>
      have hid : v ≠ id := by rintro rfl; simp [Msg.onWater] at hm
      cases e
      dsimp only
      split
      · exact ihi
      · obtain ⟨e₁, e₂, e₃, e₄, e₅, e₆, e₇, e₈⟩ :=
          newVehicle_alike lib { s₀ with states := s₀.states.put id x } id none
        rw [show ∀ s : St, ∀ l, ({ s with surfs := l } : St).env i v = s.env i v from fun _ _ => rfl,
          env_newVehicle lib (s := { s₀ with states := s₀.states.put id x }) r₁ r₂, if_neg hid]
        simp only [e₃, e₄, e₅, e₆]
        exact ihi
    | surfaceConfig id sp al ar =>
      have hid : v ≠ id := by rintro rfl; simp [Msg.onWater] at hm
      cases e
      dsimp only
      split
      · exact ihi
      · obtain ⟨e₁, e₂, e₃, e₄, e₅, e₆, e₇, e₈⟩ := newSurface_alike lib s₀ id ar
        rw [show ∀ s : St, ∀ c l, ({ s with configs := c, surfs := l } : St).env i v = s.env i v
          from fun _ _ _ => rfl, env_newSurface lib _ _ _ _ _ hid]
        simp only [e₃, e₄, e₅, e₆]
        exact ihi
    | water id b =>
      cases e
      have ha := (foldl_alike
        (fun s (c : Int × Config) => if c.2.water = some id then s.newSurface lib c.1 id else s)
        (fun s c => by
          split
          · exact newSurface_alike lib _ _ _
          · exact .refl _) s₀.configs { s₀ with waters := s₀.waters.put id b })
      have he := env_foldl_water lib id s₀.configs { s₀ with waters := s₀.waters.put id b } i v (by
        intro c hc' hcw k
        obtain ⟨x, hx, hx'⟩ := after_water e₀ c hc' id hcw
        rw [k, hw x (List.mem_append_left _ hx)] at hx'; cases hx')
      obtain ⟨e₁, e₂, e₃, e₄, e₅, e₆, e₇, e₈⟩ := ha
      rw [he]
      simp only [e₃, e₄, e₅, e₆]
      exact ihi
    | keepIn z =>
      obtain ⟨s₁, -, rfl, rfl | ⟨y, hy, hne⟩⟩ := upd_keepIn lib e
      · rw [show ({ s₁ with ins := s₁.ins.put z.id z } : St).env i v = s₁.env i v from rfl, ihi]
        split
        · cases hr : s₁.regions.get i with
          | none => rfl
          | some r =>
            refine buildEnv_congr lib (fun j hj => ?_) (fun _ _ => rfl)
            rw [Map.get_put]
            split
            · rename_i k
              obtain ⟨hrh, -⟩ := (r₃ i r).mp hr
              obtain ⟨h₁, h₂, rfl⟩ := List.append_of_mem hrh
              have hz := hc.insFirst h₁ r (h₂ ++ [.keepIn z]) z (by simp) (by simp) (k ▸ hj)
              have hz' : Msg.keepIn z ∈ h₁ ++ .region r :: h₂ := List.mem_append_left _ hz
              obtain ⟨y, hy⟩ := latest_isSome (f := (·.inZone z.id)) hz' (by simp [Msg.inZone])
              obtain ⟨x, hx, hxy⟩ := latest_mem hy
              cases x with
              | keepIn w =>
                simp only [Msg.inZone] at hxy
                split at hxy
                · rename_i hid
                  cases hxy
                  have := hc.ins _ z (List.mem_append_left _ hx) (by simp) hid
                  rw [k, k₅, hy, this]
                · cases hxy
              | _ => cases hxy
            · rfl
        · rfl
      · rw [k₅] at hy
        obtain ⟨x, hx, hxy⟩ := latest_mem hy
        cases x with
        | keepIn w =>
          simp only [Msg.inZone] at hxy
          split at hxy
          · rename_i hid
            cases hxy
            exact absurd (hc.ins _ z (List.mem_append_left _ hx) (by simp) hid) hne
          · cases hxy
        | _ => cases hxy
    | keepOut z =>
      obtain ⟨s₁, -, rfl, rfl | ⟨y, hy, hne⟩⟩ := upd_keepOut lib e
      · rw [show ({ s₁ with outs := s₁.outs.put z.id z } : St).env i v = s₁.env i v from rfl, ihi]
        split
        · cases hr : s₁.regions.get i with
          | none => rfl
          | some r =>
            refine buildEnv_congr lib (fun _ _ => rfl) (fun j hj => ?_)
            rw [Map.get_put]
            split
            · rename_i k
              obtain ⟨hrh, -⟩ := (r₃ i r).mp hr
              obtain ⟨h₁, h₂, rfl⟩ := List.append_of_mem hrh
              have hz := hc.outsFirst h₁ r (h₂ ++ [.keepOut z]) z (by simp) (by simp) (k ▸ hj)
              have hz' : Msg.keepOut z ∈ h₁ ++ .region r :: h₂ := List.mem_append_left _ hz
              obtain ⟨y, hy⟩ := latest_isSome (f := (·.outZone z.id)) hz' (by simp [Msg.outZone])
              obtain ⟨x, hx, hxy⟩ := latest_mem hy
              cases x with
              | keepOut w =>
                simp only [Msg.outZone] at hxy
                split at hxy
                · rename_i hid
                  cases hxy
                  have := hc.outs _ z (List.mem_append_left _ hx) (by simp) hid
                  rw [k, k₆, hy, this]
                · cases hxy
              | _ => cases hxy
            · rfl
        · rfl
      · rw [k₆] at hy
        obtain ⟨x, hx, hxy⟩ := latest_mem hy
        cases x with
        | keepOut w =>
          simp only [Msg.outZone] at hxy
          split at hxy
          · rename_i hid
            cases hxy
            exact absurd (hc.outs _ z (List.mem_append_left _ hx) (by simp) hid) hne
          · cases hxy
        | _ => cases hxy
    | region r =>
      rcases upd_region lib e with ⟨q, hq, -, rfl⟩ | ⟨q, hq, hne, -⟩ | ⟨hn, e⟩
      · exact ihi
      · obtain ⟨hqh, hqi⟩ := (r₃ _ _).mp hq
        exact absurd (hc.regions q r (List.mem_append_left _ hqh) (by simp) hqi) hne
      · obtain ⟨e₁, e₂, e₃, e₄, e₅, e₆, e₇, e₈⟩ := buildRegion_alike lib e
        rw [env_buildRegion lib e i v hv, e₃, e₄, e₅, e₆]
        dsimp only
        rw [Map.get_put]
        by_cases hi : i = r.id
        · rw [if_pos hi, if_pos hi]; rfl
        · rw [if_neg hi, if_neg hi]
          exact ihi

/-- **C113.**  As long as zones and regions are not changed and the zones of a
region are sent before it, a vehicle in the air plans in the environment of the
zones last sent: whatever came first, the vehicle or the region. -/
theorem C113_current_partial {lib : Lib} {h : List Msg} {s : St} (e : St.after lib h = .ok s)
    (hc : Calm h) {v : Int} (ha : ∃ m ∈ h, m.inAir v = true) (hw : ∀ m ∈ h, m.onWater v = false)
    (hd : ∀ sp al, .airConfig v sp al false ∉ h) {r : Region} (hr : .region r ∈ h)
    {ins outs : Map Zone} (hi : ∀ i, ins.get i = latest (·.inZone i) h)
    (ho : ∀ i, outs.get i = latest (·.outZone i) h) :
    s.env r.id v = buildEnv lib ins outs r v none := by
  obtain ⟨k₁, -, -, -, k₅, k₆⟩ := after_known e
  obtain ⟨-, -, r₃⟩ := after_regions e hc.regions
  rw [env_inv e hc hw hd r.id, if_pos ((k₁ v).mpr ha), (r₃ r.id r).mpr ⟨hr, rfl⟩]
  exact buildEnv_congr lib (fun j _ => by rw [k₅, hi]) (fun j _ => by rw [k₆, ho])

/-- **C113.**  In a region that was not sent, such a vehicle has no environment;
by C112 it then flies straight on. -/
theorem C113_unknown {lib : Lib} {h : List Msg} {s : St} (e : St.after lib h = .ok s)
    (hc : Calm h) {v : Int} (hw : ∀ m ∈ h, m.onWater v = false)
    (hd : ∀ sp al, .airConfig v sp al false ∉ h) {i : Int} (hr : ∀ r, .region r ∈ h → r.id ≠ i) :
    s.env i v = none := by
  obtain ⟨-, -, r₃⟩ := after_regions e hc.regions
  rw [env_inv e hc hw hd i]
  split
  · cases k : s.regions.get i with
    | none => rfl
    | some r => exact absurd ((r₃ i r).mp k).2 (hr r ((r₃ i r).mp k).1)
  · rfl

end Verif.RoutePlanner
