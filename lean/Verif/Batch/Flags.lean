import Verif.Batch.Summary

/-!
C106: what the summaries report about radio range, energy and keep-out zones.
-/

namespace Verif.Batch

open Verif

/-! ### What the messages said last -/

/-- The last `some` of `f` over the messages. -/
def latest {β : Type} (f : Op → Option β) (h : List Op) : Option β := h.reverse.findSome? f

theorem latest_snoc {β : Type} (f : Op → Option β) (h : List Op) (o : Op) :
    latest f (h ++ [o]) = (f o).or (latest f h) := by
  unfold latest
  rw [List.reverse_append, List.reverse_singleton, List.singleton_append, List.findSome?_cons]
  cases f o <;> rfl

/-- The last state of the vehicle or tower `v`. -/
def stateOf (h : List Op) (v : Int) : Option VState :=
  latest (fun o => match o with
    | .state id st => if id = v then some st else none
    | .towerState id st _ => if id = v then some st else none
    | _ => none) h

/-- The ranges of the radios in the last configuration of `v`. -/
def radiosOf (h : List Op) (v : Int) : Option (List Int) :=
  latest (fun o => match o with
    | .config id radios => if id = v then some radios else none
    | .tower id _ _ _ => if id = v then some [] else none
    | _ => none) h

/-- The last place of the tower `t`. -/
def towerPlace (h : List Op) (t : Int) : Option Int :=
  latest (fun o => match o with
    | .tower id place _ _ => if id = t then some place else none
    | .towerState id st _ => if id = t then some st.place else none
    | _ => none) h

/-- The range in the last configuration of the tower `t`. -/
def towerRange (h : List Op) (t : Int) : Option Int :=
  latest (fun o => match o with | .tower id _ range _ => if id = t then some range else none | _ => none) h

/-- Whether the tower `t` was last said to be on, among the messages since its first configuration. -/
def towerOn (h : List Op) (t : Int) : Option Bool :=
  h.foldl (fun r o => match o with
    | .tower id _ _ on => if id = t then some on else r
    | .towerState id _ on => if id = t then r.map fun _ => on else r
    | _ => r) none

/-- The last boundary of the zone `z`. -/
def zoneOf (h : List Op) (z : Int) : Option Int :=
  latest (fun o => match o with | .zone id b => if id = z then some b else none | _ => none) h

/-- The state is what the messages said. -/
structure Known (h : List Op) (s : St) : Prop where
  states : ∀ v, s.states.get v = stateOf h v
  configs : ∀ v, s.configs.get v = radiosOf h v
  towers : ∀ t, s.towers.get t = towerPlace h t
  range : ∀ t, (s.ranges.get t).map (·.1) = towerRange h t
  on : ∀ t, (s.ranges.get t).map (·.2) = towerOn h t
  zones : ∀ z, s.zones.get z = zoneOf h z
  towerKeys : (s.towers.map (·.1)).Nodup
  zoneKeys : (s.zones.map (·.1)).Nodup

theorem request_same (s : St) (r : Req) : (s.request r).1.states = s.states ∧ (s.request r).1.configs = s.configs ∧
    (s.request r).1.towers = s.towers ∧ (s.request r).1.ranges = s.ranges ∧ (s.request r).1.zones = s.zones := by
  unfold St.request; simp only; split <;> exact ⟨rfl, rfl, rfl, rfl, rfl⟩

theorem response_same (e : Env) (s : St) (id : Int) (ms : List Mission) : (s.response e id ms).1.states = s.states ∧
    (s.response e id ms).1.configs = s.configs ∧ (s.response e id ms).1.towers = s.towers ∧
    (s.response e id ms).1.ranges = s.ranges ∧ (s.response e id ms).1.zones = s.zones := by
  unfold St.response
  split
  · exact ⟨rfl, rfl, rfl, rfl, rfl⟩
  · simp only; split <;> exact ⟨rfl, rfl, rfl, rfl, rfl⟩

theorem known (e : Env) (h : List Op) : Known h (runM (St.step e) {} h).1 := by
  induction h using snocRec with
  | nil =>
    exact ⟨fun _ => rfl, fun _ => rfl, fun _ => rfl, fun _ => rfl, fun _ => rfl, fun _ => rfl, by simp, by simp⟩
  | append_singleton h o ih =>
    rw [runM_snoc]
    obtain ⟨h₁, h₂, h₃, h₄, h₅, h₆, h₇, h₈⟩ := ih
    have hon : ∀ t, towerOn (h ++ [o]) t = match o with
        | .tower id _ _ on => if id = t then some on else towerOn h t
        | .towerState id _ on => if id = t then (towerOn h t).map fun _ => on else towerOn h t
        | _ => towerOn h t := by
      intro t; unfold towerOn; rw [List.foldl_append]; rfl
    cases o with
    | request r =>
      obtain ⟨e₁, e₂, e₃, e₄, e₅⟩ := request_same (runM (St.step e) {} h).1 r
      simp only [St.step]
      constructor <;> (try rw [e₁]) <;> (try rw [e₂]) <;> (try rw [e₃]) <;> (try rw [e₄]) <;> (try rw [e₅])
      · intro v; rw [stateOf, latest_snoc]; exact h₁ v
      · intro v; rw [radiosOf, latest_snoc]; exact h₂ v
      · intro v; rw [towerPlace, latest_snoc]; exact h₃ v
      · intro v; rw [towerRange, latest_snoc]; exact h₄ v
      · intro v; rw [hon]; exact h₅ v
      · intro v; rw [zoneOf, latest_snoc]; exact h₆ v
      · exact h₇
      · exact h₈
    | response id ms =>
      obtain ⟨e₁, e₂, e₃, e₄, e₅⟩ := response_same e (runM (St.step e) {} h).1 id ms
      simp only [St.step]
      constructor <;> (try rw [e₁]) <;> (try rw [e₂]) <;> (try rw [e₃]) <;> (try rw [e₄]) <;> (try rw [e₅])
      · intro v; rw [stateOf, latest_snoc]; exact h₁ v
      · intro v; rw [radiosOf, latest_snoc]; exact h₂ v
      · intro v; rw [towerPlace, latest_snoc]; exact h₃ v
      · intro v; rw [towerRange, latest_snoc]; exact h₄ v
      · intro v; rw [hon]; exact h₅ v
      · intro v; rw [zoneOf, latest_snoc]; exact h₆ v
      · exact h₇
      · exact h₈
    | config id radios =>
      refine ⟨?_, ?_, ?_, ?_, ?_, ?_, h₇, h₈⟩
      · intro v; rw [stateOf, latest_snoc]; exact h₁ v
      · intro v; rw [radiosOf, latest_snoc]
        simp only [St.step, Map.get_put]
        by_cases hv : v = id
        · simp [hv]
        · rw [if_neg hv, if_neg (Ne.symm hv)]; exact h₂ v
      · intro v; rw [towerPlace, latest_snoc]; exact h₃ v
      · intro v; rw [towerRange, latest_snoc]; exact h₄ v
      · intro v; rw [hon]; exact h₅ v
      · intro v; rw [zoneOf, latest_snoc]; exact h₆ v
    | tower id place range enabled =>
      refine ⟨?_, ?_, ?_, ?_, ?_, ?_, Map.nodup_put h₇ _ _, h₈⟩
      · intro v; rw [stateOf, latest_snoc]; exact h₁ v
      · intro v; rw [radiosOf, latest_snoc]
        simp only [St.step, Map.get_put]
        by_cases hv : v = id
        · simp [hv]
        · rw [if_neg hv, if_neg (Ne.symm hv)]; exact h₂ v
      · intro v; rw [towerPlace, latest_snoc]
        simp only [St.step, Map.get_put]
        by_cases hv : v = id
        · simp [hv]
        · rw [if_neg hv, if_neg (Ne.symm hv)]; exact h₃ v
      · intro v; rw [towerRange, latest_snoc]
        simp only [St.step, Map.get_put]
        by_cases hv : v = id
        · simp [hv]
        · rw [if_neg hv, if_neg (Ne.symm hv)]; exact h₄ v
      · intro v; rw [hon]
        simp only [St.step, Map.get_put]
        by_cases hv : v = id
        · simp [hv]
        · rw [if_neg hv, if_neg (Ne.symm hv)]; exact h₅ v
      · intro v; rw [zoneOf, latest_snoc]; exact h₆ v
    | state id st =>
      refine ⟨?_, ?_, ?_, ?_, ?_, ?_, h₇, h₈⟩
      · intro v; rw [stateOf, latest_snoc]
        simp only [St.step, Map.get_put]
        by_cases hv : v = id
        · simp [hv]
        · rw [if_neg hv, if_neg (Ne.symm hv)]; exact h₁ v
      · intro v; rw [radiosOf, latest_snoc]; exact h₂ v
      · intro v; rw [towerPlace, latest_snoc]; exact h₃ v
      · intro v; rw [towerRange, latest_snoc]; exact h₄ v
      · intro v; rw [hon]; exact h₅ v
      · intro v; rw [zoneOf, latest_snoc]; exact h₆ v
    | towerState id st enabled =>
      have hr : ∀ t, Map.get ((runM (St.step e) {} h).1.step e (.towerState id st enabled)).1.ranges t =
          (Map.get (runM (St.step e) {} h).1.ranges t).map fun r => (r.1, if t = id then enabled else r.2) := by
        intro t
        simp only [St.step]
        cases hg : (runM (St.step e) {} h).1.ranges.get id with
        | none =>
          by_cases ht : t = id
          · subst ht; simp [hg]
          · simp [ht]
        | some r =>
          simp only [Map.get_put]
          by_cases ht : t = id
          · subst ht; simp [hg]
          · simp [ht]
      refine ⟨?_, ?_, ?_, ?_, ?_, ?_, Map.nodup_put h₇ _ _, h₈⟩
      · intro v; rw [stateOf, latest_snoc]
        simp only [St.step, Map.get_put]
        by_cases hv : v = id
        · simp [hv]
        · rw [if_neg hv, if_neg (Ne.symm hv)]; exact h₁ v
      · intro v; rw [radiosOf, latest_snoc]; exact h₂ v
      · intro v; rw [towerPlace, latest_snoc]
        simp only [St.step, Map.get_put]
        by_cases hv : v = id
        · simp [hv]
        · rw [if_neg hv, if_neg (Ne.symm hv)]; exact h₃ v
      · intro v
        rw [hr, towerRange, latest_snoc]
        have := h₄ v
        simp only [Option.map_map]
        exact this
      · intro v
        rw [hr, hon]
        have := h₅ v
        simp only [Option.map_map]
        by_cases hv : v = id
        · subst hv
          simp only [if_true, ← this, Option.map_map]
          rfl
        · simp only [if_neg hv, if_neg (Ne.symm hv)]; exact this
      · intro v; rw [zoneOf, latest_snoc]; exact h₆ v
    | zone id z =>
      refine ⟨?_, ?_, ?_, ?_, ?_, ?_, h₇, Map.nodup_put h₈ _ _⟩
      · intro v; rw [stateOf, latest_snoc]; exact h₁ v
      · intro v; rw [radiosOf, latest_snoc]; exact h₂ v
      · intro v; rw [towerPlace, latest_snoc]; exact h₃ v
      · intro v; rw [towerRange, latest_snoc]; exact h₄ v
      · intro v; rw [hon]; exact h₅ v
      · intro v; rw [zoneOf, latest_snoc]
        simp only [St.step, Map.get_put]
        by_cases hv : v = id
        · simp [hv]
        · rw [if_neg hv, if_neg (Ne.symm hv)]; exact h₆ v

/-! ### The reports -/

/-- `d` is within the range of the tower `t` (1 when it is off) or that of a radio of the vehicle `v`. -/
def Within (h : List Op) (t v d : Int) : Prop :=
  (∃ r, towerRange h t = some r ∧ towerOn h t = some true ∧ d ≤ r) ∨ (towerOn h t = some false ∧ d ≤ 1) ∨
    ∃ rs, radiosOf h v = some rs ∧ ∃ r ∈ rs, d ≤ r

theorem foldl_max {d : Int} : ∀ (rs : List Int) (a : Int), d ≤ rs.foldl (fun a b => if a < b then b else a) a ↔ d ≤ a ∨ ∃ r ∈ rs, d ≤ r
  | [], a => by simp
  | r :: rs, a => by
    rw [List.foldl_cons, foldl_max]
    simp only [List.mem_cons, exists_eq_or_imp]
    split
    · next h =>
      constructor
      · rintro (h₁ | h₁)
        · exact .inr (.inl h₁)
        · exact .inr (.inr h₁)
      · rintro (h₁ | h₁ | h₁)
        · exact .inl (by omega)
        · exact .inl h₁
        · exact .inr h₁
    · next h =>
      constructor
      · rintro (h₁ | h₁)
        · exact .inl h₁
        · exact .inr (.inr h₁)
      · rintro (h₁ | h₁ | h₁)
        · exact .inl h₁
        · exact .inl (by omega)
        · exact .inr h₁

theorem within_iff {h : List Op} {s : St} (hk : Known h s) {t v d : Int} {r : Int × Bool} (hr : s.ranges.get t = some r) :
    d ≤ rangeOf s v r ↔ Within h t v d := by
  unfold rangeOf Within
  rw [foldl_max, ← hk.range, ← hk.on, ← hk.configs, hr]
  obtain ⟨r, on⟩ := r
  cases hc : s.configs.get v with
  | none => cases on <;> simp
  | some rs => cases on <;> simp

theorem wpDist_le {e : Env} {tower range : Int} {w : Wp} : wpDist e tower w ≤ range ↔
    e.dist tower w.place ≤ range ∧ ∀ l ∈ w.loiters, l.2 + e.dist l.1 tower ≤ range := by
  unfold wpDist
  generalize e.dist tower w.place = a
  induction w.loiters generalizing a with
  | nil => simp
  | cons l ls ih =>
    rw [List.foldl_cons, ih]
    simp only [List.mem_cons, forall_eq_or_imp]
    split
    · constructor
      · rintro ⟨h₁, h₂⟩; exact ⟨by omega, h₁, h₂⟩
      · rintro ⟨_, h₁, h₂⟩; exact ⟨h₁, h₂⟩
    · constructor
      · rintro ⟨h₁, h₂⟩; exact ⟨h₁, by omega, h₂⟩
      · rintro ⟨h₁, _, h₂⟩; exact ⟨h₁, h₂⟩

theorem any_map {β : Type} {m : Map β} (hn : (m.map (·.1)).Nodup) (p : Int × β → Bool) :
    m.any p = true ↔ ∃ k v, m.get k = some v ∧ p (k, v) = true := by
  rw [List.any_eq_true]
  constructor
  · rintro ⟨⟨k, v⟩, hm, hp⟩; exact ⟨k, v, (Map.mem_iff_get hn k v).mp hm, hp⟩
  · rintro ⟨k, v, hg, hp⟩; exact ⟨(k, v), (Map.mem_iff_get hn k v).mpr hg, hp⟩

/-- The summaries in an answer that a response completes. -/
theorem answer_refreshed {e : Env} {h : List Op} {id : Int} {ms : List Mission} {a : Resp}
    (ha : .answer a ∈ sent e h (.response id ms)) : ∀ T ∈ a.sums, ∀ s ∈ T.perf, ∃ s₀, s = refresh e (runM (St.step e) {} h).1 s₀ := by
  change Out.answer a ∈ (St.response e _ id ms).2 at ha
  unfold St.response at ha
  split at ha
  · cases ha
  · simp only at ha
    split at ha
    · rename_i k ids _ _
      cases hw : (runM (St.step e) {} h).1.working.get k with
      | none => rw [hw] at ha; simp at ha
      | some r =>
        rw [hw] at ha
        simp only [Option.map_some, Option.toList_some, List.map_cons, List.map_nil, List.mem_singleton, Out.answer.injEq] at ha
        subst ha
        intro T hT s hs
        obtain ⟨T', _, rfl⟩ := List.mem_map.mp hT
        obtain ⟨s₀, _, rfl⟩ := List.mem_map.mp hs
        exact ⟨s₀, rfl⟩
    · cases ha

/-- **C106** An answer that a response completes reports a vehicle to be beyond communication range unless some tower covers
where it is, its waypoints and its loiters — or the state of the vehicle or the range of a tower is not known. -/
theorem C106_range_partial (e : Env) (h : List Op) (id : Int) (ms : List Mission) (a : Resp)
    (ha : .answer a ∈ sent e h (.response id ms)) (T : TSum) (hT : T ∈ a.sums) (s : VSum) (hs : s ∈ T.perf) :
    s.flags.beyond = false ↔ ∃ t p, towerPlace h t = some p ∧
      (stateOf h s.vehicle = none ∨ towerRange h t = none ∨
        ∃ st, stateOf h s.vehicle = some st ∧ Within h t s.vehicle (e.dist p st.place) ∧
          ∀ w ∈ s.wps, Within h t s.vehicle (e.dist p w.place) ∧ ∀ l ∈ w.loiters, Within h t s.vehicle (l.2 + e.dist l.1 p)) := by
  obtain ⟨s₀, rfl⟩ := answer_refreshed ha T hT s hs
  have hk := known e h
  show (!((runM (St.step e) {} h).1.towers.any _)) = false ↔ _
  rw [Bool.not_eq_false', any_map hk.towerKeys]
  have hv : (refresh e (runM (St.step e) {} h).1 s₀).vehicle = s₀.vehicle := rfl
  have hw : (refresh e (runM (St.step e) {} h).1 s₀).wps = s₀.wps := rfl
  rw [hv, hw]
  refine exists_congr fun t => exists_congr fun p => ?_
  rw [hk.towers, ← hk.states]
  refine and_congr_right fun _ => ?_
  unfold beyondTower
  simp only
  cases hst : (runM (St.step e) {} h).1.states.get s₀.vehicle with
  | none => simp
  | some st =>
    cases hr : (runM (St.step e) {} h).1.ranges.get t with
    | none =>
      have : towerRange h t = none := by rw [← hk.range, hr]; rfl
      simp [this]
    | some r =>
      have hne : towerRange h t ≠ none := by rw [← hk.range, hr]; simp
      simp only [Bool.not_or, Bool.and_eq_true, Bool.not_eq_true', decide_eq_false_iff_not, List.any_eq_false, decide_eq_true_eq,
        reduceCtorEq, false_or, hne, Option.some.injEq, exists_eq_left', Int.not_lt, wpDist_le]
      simp only [within_iff hk hr]

/-- **C106** The energy reported is what is left after the times in the summary, and at least 0, or 100 when the state of the
vehicle is not known. -/
theorem C106_energy (e : Env) (h : List Op) (id : Int) (ms : List Mission) (a : Resp)
    (ha : .answer a ∈ sent e h (.response id ms)) (T : TSum) (hT : T ∈ a.sums) (s : VSum) (hs : s ∈ T.perf) :
    (stateOf h s.vehicle = none → s.flags.energy = 100 * 1000) ∧
    ∀ st, stateOf h s.vehicle = some st → 0 ≤ s.flags.energy ∧
      (st.energy * 1000 - (s.arrive + s.onTask) * st.rate ≤ 0 ∧ s.flags.energy = 0 ∨
       s.flags.energy = st.energy * 1000 - (s.arrive + s.onTask) * st.rate) := by
  obtain ⟨s₀, rfl⟩ := answer_refreshed ha T hT s hs
  have hk := known e h
  have hv : (refresh e (runM (St.step e) {} h).1 s₀).vehicle = s₀.vehicle := rfl
  rw [hv, ← hk.states]
  constructor
  · intro hn
    show (match (runM (St.step e) {} h).1.states.get s₀.vehicle with | some _ => _ | none => _) = _
    rw [hn]; rfl
  · intro st hst
    have he : (refresh e (runM (St.step e) {} h).1 s₀).flags.energy =
        if st.energy * 1000 - (s₀.arrive + s₀.onTask) * st.rate < 0 then 0
        else st.energy * 1000 - (s₀.arrive + s₀.onTask) * st.rate := by
      show (match (runM (St.step e) {} h).1.states.get s₀.vehicle with | some _ => _ | none => _) = _
      rw [hst]
    rw [he]
    show _ ∧ (st.energy * 1000 - (s₀.arrive + s₀.onTask) * st.rate ≤ 0 ∧ _ ∨ _ = st.energy * 1000 - (s₀.arrive + s₀.onTask) * st.rate)
    split
    · exact ⟨Int.le_refl _, .inl ⟨by omega, rfl⟩⟩
    · exact ⟨by omega, .inr rfl⟩

/-- **C106** When no conflict is reported, no loiter in the summary touches a zone. -/
theorem C106_clear_partial (e : Env) (h : List Op) (id : Int) (ms : List Mission) (a : Resp)
    (ha : .answer a ∈ sent e h (.response id ms)) (T : TSum) (hT : T ∈ a.sums) (s : VSum) (hs : s ∈ T.perf)
    (hc : s.flags.conflict = false) : ∀ w ∈ s.wps, ∀ l ∈ w.loiters, ∀ z b, zoneOf h z = some b → e.touches b l = false := by
  obtain ⟨s₀, rfl⟩ := answer_refreshed ha T hT s hs
  have hk := known e h
  intro w hw l hl z b hz
  rw [← hk.zones] at hz
  have hc : (s₀.flags.conflict || s₀.wps.any fun w => w.loiters.any fun l =>
    (runM (St.step e) {} h).1.zones.any fun z => e.touches z.2 l) = false := hc
  rw [Bool.or_eq_false_iff] at hc
  have h₁ := List.any_eq_false.mp hc.2 w hw
  have h₂ : ¬(runM (St.step e) {} h).1.zones.any (fun z => e.touches z.2 l) = true := by
    intro hh
    exact h₁ (List.any_eq_true.mpr ⟨l, hl, hh⟩)
  rw [any_map hk.zoneKeys] at h₂
  cases ht : e.touches b l with
  | false => rfl
  | true => exact absurd ⟨z, b, hz, ht⟩ h₂

/-- A mission over one waypoint with a loiter on the task. -/
def exLoiter : List Mission := [⟨1, [{ number := 1, tasks := [10], place := 4, loiters := [(4, 3)] }, { number := 2, place := 5 }]⟩]

/-- Not in the code: an example. -/
def exOne : Req := ⟨7, [1], [10], false, 0⟩

/-- A tower at 0 with range 7, and a vehicle at 2 with 90 of energy that loses 1 per time: all within range. -/
example : ∃ a, sent exEnv [.tower 50 0 7 true, .state 1 ⟨2, 90, 1⟩, .request exOne] (.response 1 exLoiter) = [.answer a] ∧
    a.sums.flatMap (fun T => T.perf.map (·.flags)) = [⟨false, 89995, false⟩] := ⟨_, rfl, by decide +kernel⟩

/-- With range 6 the loiter is beyond it. -/
example : ∃ a, sent exEnv [.tower 50 0 6 true, .state 1 ⟨2, 90, 1⟩, .request exOne] (.response 1 exLoiter) = [.answer a] ∧
    a.sums.flatMap (fun T => T.perf.map (·.flags.beyond)) = [true] := ⟨_, rfl, by decide +kernel⟩

/-! ### Violations -/

/-- **C106** is violated for a vehicle whose state is not known: any tower, however far its waypoints are, counts as in range. -/
theorem C106_violated_unknown :
    ∃ a, sent exEnv [.tower 50 1000 7 true, .request exOne] (.response 1 exLoiter) = [.answer a] ∧
      a.sums.flatMap (fun T => T.perf.map (·.flags.beyond)) = [false] := ⟨_, rfl, by decide +kernel⟩

/-- **C106** is violated for a tower that is known only by its state: it counts as in range of everything, even when off. -/
theorem C106_violated_tower :
    ∃ a, sent exEnv [.towerState 50 ⟨1000, 0, 0⟩ false, .state 1 ⟨2, 90, 1⟩, .request exOne] (.response 1 exLoiter) = [.answer a] ∧
      a.sums.flatMap (fun T => T.perf.map (·.flags.beyond)) = [false] := ⟨_, rfl, by decide +kernel⟩

/-- **C106** is violated for a summary without a plan: its times are -1, so more energy is reported than the vehicle has. -/
theorem C106_violated_energy :
    ∃ a, sent exEnv [.state 1 ⟨2, 90, 1⟩, .request exOne] (.response 1 []) = [.answer a] ∧
      a.sums.flatMap (fun T => T.perf.map (·.flags.energy)) = [90 * 1000 + 2] := ⟨_, rfl, by decide +kernel⟩

/-- Two vehicles; a zone touches every loiter but those of zones named 0. -/
def exZoneEnv : Env := ⟨fun _ _ => 5, fun a b => (a - b).natAbs, fun z _ => z != 0⟩

/-- **C106** is violated for zones that change before the answer: the conflict with what the zone was stays. -/
theorem C106_violated_stale :
    ∃ a, sent exZoneEnv [.zone 9 1, .request exReq, .response 1 exLoiter, .zone 9 0] (.response 2 []) = [.answer a] ∧
      a.sums.flatMap (fun T => T.perf.map fun s => (s.vehicle, s.flags.conflict)) = [(1, true), (2, false)] :=
  ⟨_, rfl, by decide +kernel⟩

end Verif.Batch
