import Verif.Dynamic.Zones

/-!
# What the service remembers (C149, C150)
-/

namespace Verif.Dynamic

open Complex Verif.Blockade

variable {p : Params} {config : ℤ → Option Config}

/-! ### Which zone counts -/

/-- **C150.**  A place is moved off the first zone of the list that it is in or near; zones that the service was not told of
and those that are far away do not count. -/
theorem C150_first (zones : ℤ → Option Zone) (x : ℂ) (off : ℝ) (pre post : List ℤ)
    (h : ∀ j ∈ pre, ∀ z, zones j = some z → ¬ z.inside x ∧ ¬ z.touches x off) :
    moveOff zones x off (pre ++ post) = moveOff zones x off post ∧ moveOff zones x off pre = x := by
  induction pre with
  | nil => exact ⟨rfl, rfl⟩
  | cons j pre ih =>
    obtain ⟨h₁, h₂⟩ := ih fun k hk => h k (List.mem_cons_of_mem _ hk)
    rw [List.cons_append, moveOff, moveOff]
    cases hz : zones j with
    | none => exact ⟨h₁, h₂⟩
    | some z =>
      obtain ⟨a, b⟩ := h j List.mem_cons_self z hz
      dsimp only
      rw [if_neg a, if_neg b, if_neg a, if_neg b]
      exact ⟨h₁, h₂⟩

/-- **C150.**  So a place in a convex zone is moved the whole distance away from it, also if the zones listed before it are not
known or are far away. -/
theorem C150_inside_any {z : Zone} {Z : Set ℂ} (hz : z.Is Z) (hZ : Convex ℝ Z) {x : ℂ} (hp : x ∈ interior Z)
    (zones : ℤ → Option Zone) {i : ℤ} (hi : zones i = some z) (pre post : List ℤ) (off : ℝ)
    (h : ∀ j ∈ pre, ∀ z, zones j = some z → ¬ z.inside x ∧ ¬ z.touches x off) {q : ℂ} (hq : q ∈ Z) :
    off ≤ ‖moveOff zones x off (pre ++ i :: post) - q‖ := by
  rw [(C150_first zones x off pre (i :: post) h).1]
  exact C150_inside hz hZ hp zones hi post off hq

/-! ### The history -/

theorem active_keeps {s s' : St} {now : ℤ} {v : VState} {loc : Option Loc} {o : Option Request}
    (h : activeEntityState p config s now v loc = .ok (s', o)) :
    s'.zones = s.zones ∧ s'.regions = s.regions ∧ s'.override = s.override := by
  unfold activeEntityState at h
  simp only at h
  split_ifs at h
  · simp only [Outcome.ok.injEq, Prod.mk.injEq] at h
    obtain ⟨rfl, rfl⟩ := h
    exact ⟨rfl, rfl, rfl⟩
  · split at h
    · cases h
    · simp only [Outcome.ok.injEq, Prod.mk.injEq] at h
      obtain ⟨rfl, rfl⟩ := h
      exact ⟨rfl, rfl, rfl⟩
    · split_ifs at h
      all_goals
        simp only [Outcome.ok.injEq, Prod.mk.injEq] at h
        obtain ⟨rfl, rfl⟩ := h
        exact ⟨rfl, rfl, rfl⟩
  · simp only [Outcome.ok.injEq, Prod.mk.injEq] at h
    obtain ⟨rfl, rfl⟩ := h
    exact ⟨rfl, rfl, rfl⟩

theorem response_keeps (s : St) (r : Response) : (response p config s r).1.zones = s.zones ∧
    (response p config s r).1.regions = s.regions ∧ (response p config s r).1.override = s.override := by
  unfold response
  split
  · exact ⟨rfl, rfl, rfl⟩
  · split_ifs
    · exact ⟨rfl, rfl, rfl⟩
    · exact ⟨rfl, rfl, rfl⟩

theorem automation_keeps : ∀ (ms : List Mission) (s : St),
    (automation s ms).zones = s.zones ∧ (automation s ms).regions = s.regions
  | [], _ => ⟨rfl, rfl⟩
  | m :: ms, s => by
    rw [automation]
    rw [(automation_keeps ms _).1, (automation_keeps ms _).2]
    split <;> exact ⟨rfl, rfl⟩

/-- The zone with an id that a message brings. -/
def zoneIn (i : ℤ) : Event → Option Zone
  | .zone j z => if j = i then some z else none
  | _ => none

/-- The zones of a region that a message brings. -/
def regionIn (i : ℤ) : Event → Option (List ℤ)
  | .region j l => if j = i then some l else none
  | _ => none

/-- The missions that a message brings. -/
def missionsIn : Event → List Mission
  | .automation ms => ms
  | _ => []

/-- Speed and altitude at the end of a mission of a vehicle. -/
def endOf (v : ℤ) (m : Mission) : Option (ℝ × ℝ) :=
  if m.vehicle = v then m.waypoints.getLast?.map fun w => (w.speed, w.loc.altitude) else none

theorem last_cons {α β : Type} (f : α → Option β) (a : α) (l : List α) (d : Option β) :
    ((a :: l).reverse.findSome? f).or d = (l.reverse.findSome? f).or ((f a).or d) := by
  rw [List.reverse_cons, List.findSome?_append]
  cases l.reverse.findSome? f with
  | some b => rfl
  | none => cases h : f a <;> simp [h]

theorem automation_last (v : ℤ) : ∀ (ms : List Mission) (s : St),
    (automation s ms).override v = (ms.reverse.findSome? (endOf v)).or (s.override v)
  | [], _ => by simp [automation]
  | m :: ms, s => by
    rw [automation, automation_last v ms, last_cons]
    congr 1
    unfold endOf
    cases m.waypoints.getLast? with
    | none => simp
    | some w =>
      by_cases h : m.vehicle = v
      · subst h; simp
      · rw [if_neg h]
        simp [Function.update_of_ne (Ne.symm h)]

theorem step_keeps {s s' : St} {e : Event} {o : Option Out} (h : step p config s e = .ok (s', o)) (i v : ℤ) :
    s'.zones i = (zoneIn i e).or (s.zones i) ∧ s'.regions i = (regionIn i e).or (s.regions i) ∧
      s'.override v = ((missionsIn e).reverse.findSome? (endOf v)).or (s.override v) := by
  cases e with
  | state now w loc =>
    rw [step] at h
    obtain ⟨⟨s₁, o₁⟩, h₁, h₂⟩ := Outcome.bind_eq_ok.mp h
    cases h₂
    obtain ⟨a, b, c⟩ := active_keeps h₁
    dsimp only
    rw [a, b, c]
    exact ⟨rfl, rfl, rfl⟩
  | response r =>
    rw [step] at h
    cases h
    obtain ⟨a, b, c⟩ := response_keeps (p := p) (config := config) s r
    rw [a, b, c]
    exact ⟨rfl, rfl, rfl⟩
  | zone j z =>
    rw [step] at h
    cases h
    refine ⟨?_, rfl, rfl⟩
    by_cases e : j = i
    · subst e; simp [zoneIn]
    · simp [zoneIn, e, Function.update_of_ne (Ne.symm e)]
  | region j l =>
    rw [step] at h
    cases h
    refine ⟨rfl, ?_, rfl⟩
    by_cases e : j = i
    · subst e; simp [regionIn]
    · simp [regionIn, e, Function.update_of_ne (Ne.symm e)]
  | automation ms =>
    rw [step] at h
    cases h
    obtain ⟨a, b⟩ := automation_keeps ms s
    rw [a, b]
    exact ⟨rfl, rfl, automation_last v ms s⟩

/-- **C149, C150.**  The zones and regions used are those of the last message with their id; speed and altitude of a vehicle are
those at the end of the last mission planned for it that had waypoints. -/
theorem C150_known : ∀ {es : List Event} {s s' : St} {outs : List (Event × Option Out)}, run p config s es = .ok (s', outs) →
    ∀ i v, s'.zones i = (es.reverse.findSome? (zoneIn i)).or (s.zones i) ∧
      s'.regions i = (es.reverse.findSome? (regionIn i)).or (s.regions i) ∧
      s'.override v = ((es.flatMap missionsIn).reverse.findSome? (endOf v)).or (s.override v)
  | [], s, s', outs, h, i, v => by
    cases h
    exact ⟨rfl, rfl, rfl⟩
  | e :: es, s, s', outs, h, i, v => by
    rw [run] at h
    obtain ⟨⟨s₁, o₁⟩, h₁, h₂⟩ := Outcome.bind_eq_ok.mp h
    obtain ⟨⟨s₂, outs₂⟩, h₃, h₄⟩ := Outcome.bind_eq_ok.mp h₂
    cases h₄
    obtain ⟨a, b, c⟩ := step_keeps h₁ i v
    obtain ⟨a', b', c'⟩ := C150_known h₃ i v
    rw [last_cons, last_cons, ← a, ← b, List.flatMap_cons, List.reverse_append, List.findSome?_append, a', b', c']
    refine ⟨rfl, rfl, ?_⟩
    dsimp only
    rw [c]
    cases ((List.flatMap missionsIn es).reverse.findSome? (endOf v)) <;> rfl

/-- Missions for two vehicles, then another one for the first: its last waypoint counts. -/
example : ((([.automation [⟨1, 1, [⟨1, 1, ⟨0, 700⟩, 20, [], []⟩]⟩, ⟨2, 1, [⟨1, 1, ⟨0, 800⟩, 25, [], []⟩]⟩],
    .automation [⟨1, 1, [⟨1, 2, ⟨0, 500⟩, 10, [], []⟩, ⟨2, 2, ⟨0, 600⟩, 30, [], []⟩]⟩]] : List Event).flatMap missionsIn).reverse.findSome?
      (endOf 1)) = some (30, 600) := by
  simp [missionsIn, endOf]

end Verif.Dynamic
