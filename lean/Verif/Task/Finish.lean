import Verif.Task.Props

/-!
# What the tasks add to their routes

`isProcessTaskImplementationRouteResponse` of three tasks, as `Config.finish`.  The state of the vehicle (its altitude and whether it is
a surface vehicle) and its gimbals are parameters: those known when the waypoints are put together.  Simplified: the action asked for is
changed in place (`ImpactPointSearchTaskService.cpp` 394-397, 413); as both changes are made anew for every answer this does not show.
`MustFlyTaskService.cpp` 160-215 asks for the route to the task alone; here the routes asked for are those of the base.
-/

namespace Verif.Task

open Verif

/-- An action that a task asks for: what, where, and the tasks that it is for (mdms/CMASI.xml 432-439, 1118-1157).  Its altitude is
set by the task. -/
structure Desired where
  what : Int
  place : Place
  tasks : List Int
deriving DecidableEq, Repr

/-- The action with an altitude. -/
def Desired.at_ (a : Desired) (alt : Int) : Action := .asked a.what a.place alt a.tasks

/-- LoiterTaskService.cpp 120-121: the action at the last waypoint. -/
def addLast (x : Action) : List Wp → List Wp
  | [] => []
  | [w] => [{ w with actions := w.actions ++ [x] }]
  | w :: w' :: ws => w :: addLast x (w' :: ws)

/-- LoiterTaskService.cpp 111-126.  `asked` is the desired action and `alt` the altitude of the vehicle, if its state is known.  The
last of no waypoints (121) is undefined. -/
def loiter (asked : Option Desired) (alt : Option Int) (ws : List Wp) : Option (List Wp) :=
  match asked, alt with
  | some a, some h => if ws = [] then none else some (addLast (a.at_ h) ws)
  | _, _ => some ws

/-- MustFlyTaskService.cpp 134-144, with the altitude of the position and its type. -/
def mustFly (alt altType : Int) (ws : List Wp) : Option (List Wp) :=
  some (ws.map fun w => { w with alt := alt, altType := altType })

/-- ImpactPointSearchTaskService.cpp 394-397: the action is for the task. -/
def Desired.for_ (a : Desired) (t : Int) : Desired := { a with tasks := if t ∈ a.tasks then a.tasks else a.tasks ++ [t] }

/-- ImpactPointSearchTaskService.cpp 401-415: the action at the last waypoint, of which surface vehicles get another copy. -/
def addFinal (surface : Bool) (a : Desired) : List Wp → List Wp
  | [] => []
  | [w] =>
    if surface then
      [{ w with next := w.number + 1 },
       { w with number := w.number + 1, next := w.number + 1, actions := w.actions ++ [a.at_ w.alt], short := true }]
    else [{ w with actions := w.actions ++ [a.at_ w.alt], short := true }]
  | w :: w' :: ws => w :: addFinal surface a (w' :: ws)

/-- ImpactPointSearchTaskService.cpp 433-434. -/
def addFirst (x : Action) : List Wp → List Wp
  | [] => []
  | w :: ws => { w with actions := w.actions ++ [x] } :: ws

/-- ImpactPointSearchTaskService.cpp 391-416: the action, if there is one. -/
def addDesired (task : Int) (surface : Bool) : Option Desired → List Wp → List Wp
  | some a, ws => addFinal surface (a.for_ task) ws
  | none, ws => ws

/-- ImpactPointSearchTaskService.cpp 381-440.  `surface`: whether the vehicle is a surface vehicle, `none` if its state is not known.
`gimbals`: the ids of the gimbals of its configuration, the last of which is taken (422-432); without one the id is 0. -/
def pointSearch (task : Int) (asked : Option Desired) (surface : Option Bool) (gimbals : List Int) (target : Place) (ws : List Wp) :
    Option (List Wp) :=
  match surface with
  | none => some ws
  | some s =>
    some (addFirst (.stare (gimbals.getLastD 0) target) (addDesired task s asked ws))

/-! ### Lists that end in a waypoint -/

theorem addLast_snoc (x : Action) (l : List Wp) (w : Wp) :
    addLast x (l ++ [w]) = l ++ [{ w with actions := w.actions ++ [x] }] := by
  induction l with
  | nil => rfl
  | cons a l ih =>
    cases l with
    | nil => rfl
    | cons b l => rw [List.cons_append] at ih ⊢; rw [List.cons_append, addLast, ih]; rfl

theorem addFinal_snoc (s : Bool) (a : Desired) (l : List Wp) (w : Wp) : addFinal s a (l ++ [w]) = l ++ addFinal s a [w] := by
  induction l with
  | nil => rfl
  | cons b l ih =>
    cases l with
    | nil => rfl
    | cons d l =>
      show b :: addFinal s a (d :: l ++ [w]) = _
      rw [ih]; rfl

theorem chain_last {n : Int} {l : List Wp} {w w' : Wp} (h : Chain n (l ++ [w])) (e : w'.number = w.number) : Chain n (l ++ [w']) := by
  induction l using snocRec with
  | nil => rw [List.nil_append] at h ⊢; rw [Chain] at h ⊢; rw [e]; exact h
  | append_singleton l b _ =>
    rw [List.append_assoc] at h ⊢
    have h' := (chain_snoc _ _ _ _).mp h
    exact (chain_snoc _ _ _ _).mpr (by rw [e]; exact h')

theorem chain_first {n : Int} {l : List Wp} {w w' : Wp} (h : Chain n (w :: l)) (e : w'.number = w.number) (e' : w'.next = w.next) :
    Chain n (w' :: l) := by
  cases l with
  | nil => rw [Chain] at h ⊢; rw [e]; exact h
  | cons b l => rw [Chain] at h ⊢; rw [e, e']; exact h

theorem chain_addFinal {n : Int} (s : Bool) (a : Desired) {ws : List Wp} (h : Chain n ws) : Chain n (addFinal s a ws) := by
  induction ws using snocRec with
  | nil => exact h
  | append_singleton l w _ =>
    rw [addFinal_snoc, addFinal]
    split
    · exact (chain_snoc _ _ _ _).mpr ⟨chain_last h rfl, rfl, rfl⟩
    · exact chain_last h rfl

theorem chain_addFirst {n : Int} (x : Action) {ws : List Wp} (h : Chain n ws) : Chain n (addFirst x ws) := by
  cases ws with
  | nil => exact h
  | cons w ws => exact chain_first h rfl rfl

theorem chain_map (f : Wp → Wp) (hf : ∀ w, (f w).number = w.number ∧ (f w).next = w.next) :
    ∀ {ws : List Wp} {n : Int}, Chain n ws → Chain n (ws.map f)
  | [], _, h => h
  | [w], _, h => by
    rw [List.map_cons, List.map_nil, Chain]; rw [Chain] at h; rw [(hf w).1]; exact h
  | w :: w' :: ws, _, h => by
    rw [List.map_cons, List.map_cons, Chain]
    rw [Chain] at h
    rw [(hf w).1, (hf w).2]
    exact ⟨h.1, by rw [(hf w').1]; exact h.2.1, chain_map f hf h.2.2⟩

/-! ### The waypoints before the task adds to them -/

/-- What the theorems here ask of the routes of the planner: a route is empty, or it ends in two waypoints apart from each other, the
last of which leads nowhere; and it has no actions and no tasks. -/
def Plain (near : Place → Place → Bool) (ws : List Wp) : Prop :=
  EndsWell near ws ∧ Untasked ws ∧ ∀ w ∈ ws, w.actions = []

theorem stable_plain (near : Place → Place → Bool) : Stable (Plain near) := by
  have h1 := stable_endsWell near
  have h2 := stable_untasked
  refine ⟨⟨h1.nil, h2.nil, by simp⟩, ?_, ?_⟩
  · rintro ws ws' h ⟨a, b, d⟩
    refine ⟨h1.same h a, h2.same h b, ?_⟩
    intro w hw
    have hm : { w with number := 0 } ∈ ws'.map (fun w => { w with number := 0 }) := List.mem_map.mpr ⟨w, hw, rfl⟩
    rw [← h] at hm
    obtain ⟨u, hu, e⟩ := List.mem_map.mp hm
    have : u.actions = w.actions := by
      have := congrArg Wp.actions e
      exact this
    rw [← this]; exact d u hu
  · rintro ws n ⟨a, b, d⟩
    exact ⟨h1.restart n a, h2.restart n b, fun w hw => d w (restartFrom_mem n ws none false w hw)⟩

theorem idle_addAll (c : Config) (v : VConfig) (sb tr : Bool) {us : List Wp} (hu : ∀ w ∈ us, w.actions = []) {a : Acc}
    (h : ∀ w ∈ a.rev, w.actions = []) : ∀ w ∈ (a.addAll c v sb tr us).1.rev, w.actions = [] := by
  induction us generalizing a with
  | nil => exact h
  | cons u us ih =>
    refine ih (fun w hw => hu w (List.mem_cons_of_mem _ hw)) ?_
    have hu0 := hu u List.mem_cons_self
    rw [Acc.add]
    dsimp only
    cases hr : a.rev with
    | nil => intro w hw; rw [List.mem_singleton.mp hw]; exact hu0
    | cons b bs =>
      rw [hr] at h
      dsimp only
      split
      · intro w hw
        rcases List.mem_cons.mp hw with rfl | hw
        · exact hu0
        · exact h w (List.mem_cons_of_mem _ hw)
      · intro w hw
        rcases List.mem_cons.mp hw with rfl | hw
        · exact hu0
        · rcases List.mem_cons.mp hw with rfl | hw
          · exact h b List.mem_cons_self
          · exact h w (List.mem_cons_of_mem _ hw)

theorem idle_plans (c : Config) (v : VConfig) (sb : Bool) (tr : Int) {rs : Option (List Wp)}
    (hr : ∀ ws, rs = some ws → ∀ w ∈ ws, w.actions = []) {l : List (Int × RoutePlan)} (hl : ∀ p ∈ l, ∀ w ∈ p.2.wps, w.actions = [])
    {f : Bool} {a : Acc} (h : ∀ w ∈ a.rev, w.actions = []) : ∀ w ∈ (a.plans c v sb tr rs f l).1.rev, w.actions = [] := by
  induction l generalizing f a with
  | nil => exact h
  | cons x l ih =>
    obtain ⟨k, p⟩ := x
    rw [Acc.plans]
    dsimp only
    have hl' : ∀ p ∈ l, ∀ w ∈ p.2.wps, w.actions = [] := fun p hp => hl p (List.mem_cons_of_mem _ hp)
    split
    · rename_i heq
      refine ih hl' (idle_addAll c v sb _ ?_ h)
      split
      · exact fun _ h => by cases h
      · split at heq
        · cases heq
        · exact hr _ heq
    · exact ih hl' (idle_addAll c v sb _ (hl (k, p) List.mem_cons_self) h)

/-- An answer with waypoints is made from a list of waypoints of the vehicle without actions that leads nowhere at its end. -/
theorem answered {c : Config} {h : List In} (hf : Fine c h) {i : In} (hp : ∀ j ∈ h ++ [i], ∀ p ∈ j.plans, Plain c.near p.wps)
    {r : ImplResp} (hr : .implemented r ∈ sends c h i) (hne : r.wps ≠ []) :
    ∃ v ws us, firstConfig c h r.vehicle = some v ∧ c.finish ws = some us ∧ r.wps = terminal c.task us ∧
      (ws = [] ∨ ∃ l w, ws = l ++ [w] ∧ w.next = 0) ∧
      (∀ w ∈ ws, w.actions = []) ∧ (∀ w ∈ ws, OnlyFor c.task w) ∧ (∀ w ∈ ws, Nominal v w) ∧ us ≠ [] := by
  have hs := sound (stable_plain c.near) h hf (fun j hj => hp j (List.mem_append_left _ hj))
  obtain ⟨f⟩ := from_step (stable_plain c.near) hs (hp i (List.mem_append_right _ (List.mem_singleton.mpr rfl))) hr
  rcases conclude_mem f.mem with ⟨_, e⟩ | ⟨vc, us, hv, hw, hn, e⟩
  · rw [e] at hne; exact absurd rfl hne
  · refine ⟨vc, _, us, ?_, by rw [← f.sound.cfg]; exact hw, by rw [e, f.sound.cfg], ?_, ?_, ?_, ?_, hn⟩
    · rw [e, ← f.sound.conf]; exact hv
    · have hopen : Open (f.s.assemble f.sb vc f.q f.x).1 := by
        rw [St.assemble, f.sound.cfg]
        exact open_plans vc f.sb _ _ (fun ws e => (f.hx.2 ws e).1) (fun p hp => (f.hx.1 p hp).1) (Or.inl rfl)
      rcases hopen with h0 | ⟨w, bs, h0, hz⟩
      · exact Or.inl (by rw [h0]; rfl)
      · exact Or.inr ⟨bs.reverse, w, by rw [h0, List.reverse_cons], hz⟩
    · intro w hw
      exact idle_plans _ _ _ _ (fun ws e => (f.hx.2 ws e).2.2) (fun p hp => (f.hx.1 p hp).2.2) (fun _ h => (by cases h)) w
        (List.mem_reverse.mp hw)
    · intro w hw
      rw [St.assemble, f.sound.cfg] at hw
      exact onlyFor_plans vc f.sb _ _ (fun ws e => (f.hx.2 ws e).2.1) (fun p hp => (f.hx.1 p hp).2.1) (fun _ h => (by cases h)) w
        (List.mem_reverse.mp hw)
    · intro w hw
      exact nominal_plans _ _ _ _ _ (fun _ h => (by cases h)) w (List.mem_reverse.mp hw)

theorem onlyFor_set {t : Int} {w : Wp} (h : OnlyFor t w) : (if w.tasks = [] then [t] else w.tasks) = [t] := by
  split
  · rfl
  · rcases h with h | h
    · contradiction
    · exact h

/-! ### C180: loiter tasks -/

/-- **C180.**  The answer of a loiter task for a vehicle whose state is known: no action on the way; the action asked for, with the
altitude of the vehicle, at the last waypoint of the task; and once more at the copy of it with which the list ends. -/
theorem C180_loiter_partial {c : Config} {a : Desired} {alt : Int} (hfin : c.finish = loiter (some a) (some alt)) {h : List In}
    (hf : Fine c h) {i : In} (hp : ∀ j ∈ h ++ [i], ∀ p ∈ j.plans, Plain c.near p.wps) {r : ImplResp}
    (hr : .implemented r ∈ sends c h i) (hne : r.wps ≠ []) :
    ∃ pre x y, r.wps = pre ++ [x, y] ∧ (∀ w ∈ pre, w.actions = []) ∧ x.tasks = [c.task] ∧ y.tasks = [] ∧ x.place = y.place ∧
      x.actions = [.asked a.what a.place alt a.tasks] ∧ y.actions = [.asked a.what a.place alt a.tasks] ∧
      x.next = y.number ∧ y.next = y.number := by
  obtain ⟨v, ws, us, _, h1, h2, h3, h4, h5, _, hus⟩ := answered hf hp hr hne
  rw [hfin, loiter] at h1
  rcases h3 with rfl | ⟨l, w, rfl, hz⟩
  · rw [if_pos rfl] at h1; cases h1
  · rw [if_neg (by simp), addLast_snoc] at h1
    cases h1
    rw [h2, terminal_snoc, terminal, if_pos hz]
    have hw := h4 w (List.mem_append_right _ (List.mem_singleton.mpr rfl))
    exact ⟨l, _, _, rfl, fun u hu => h4 u (List.mem_append_left _ hu),
      onlyFor_set (h5 w (List.mem_append_right _ (List.mem_singleton.mpr rfl))), rfl, rfl, by simp [hw, Desired.at_],
      by simp [hw, Desired.at_], rfl, rfl⟩

/-- **C180.**  If the state of the vehicle is not known there is no action. -/
theorem C180_unknown {c : Config} {a : Option Desired} (hfin : c.finish = loiter a none) {h : List In}
    (hf : Fine c h) {i : In} (hp : ∀ j ∈ h ++ [i], ∀ p ∈ j.plans, Plain c.near p.wps) {r : ImplResp}
    (hr : .implemented r ∈ sends c h i) : ∀ w ∈ r.wps, w.actions = [] := by
  by_cases hne : r.wps = []
  · rw [hne]; exact fun _ h => by cases h
  obtain ⟨v, ws, us, _, h1, h2, h3, h4, h5, _, hus⟩ := answered hf hp hr hne
  have : us = ws := by
    rw [hfin] at h1
    cases a <;> exact (Option.some.inj h1).symm
  subst this
  rcases h3 with rfl | ⟨l, w, rfl, hz⟩
  · exact absurd rfl hus
  · rw [h2, terminal_snoc, terminal, if_pos hz]
    have hw := h4 w (List.mem_append_right _ (List.mem_singleton.mpr rfl))
    intro u hu
    rcases List.mem_append.mp hu with hu | hu
    · exact h4 u (List.mem_append_left _ hu)
    · rcases List.mem_cons.mp hu with rfl | hu
      · exact hw
      · rw [List.mem_singleton.mp hu]; exact hw

/-- **C180.**  The waypoints are still numbered one after the other: `C41_chain` holds for loiter tasks. -/
theorem C180_chain (a : Option Desired) (alt : Option Int) (n : Int) (ws ws' : List Wp) (h : Chain n ws)
    (e : loiter a alt ws = some ws') : Chain n ws' := by
  unfold loiter at e
  split at e
  · split at e
    · cases e
    · cases e
      induction ws using snocRec with
      | nil => exact h
      | append_singleton l w _ => rw [addLast_snoc]; exact chain_last h rfl
  · cases e; exact h

/-- Loiter task 7: 9 at place 3. -/
def exLoiter : Config := { task := 7, finish := loiter (some { what := 9, place := 3, tasks := [] }) (some 12) }

theorem exPlain (c : Config) (hn : c.near = fun a b => a == b) :
    ∀ j ∈ exAsked ++ [In.route exRoutes], ∀ p ∈ j.plans, Plain c.near p.wps := by
  intro j hj p hp
  have : p ∈ (exAsked ++ [In.route exRoutes]).flatMap In.plans := List.mem_flatMap.mpr ⟨j, hj, hp⟩
  have h : (exAsked ++ [In.route exRoutes]).flatMap In.plans =
      [{ id := 11, cost := 5 }, { id := 10, cost := 6 },
       { id := 2, cost := 6, wps := [{ place := 1 }, { place := 2 }] },
       { id := 1, cost := 9, wps := [{ place := 0 }, { place := 1 }] },
       { id := 3, cost := 5, wps := [{ place := 2 }, { place := 3 }] }] := by decide +kernel
  rw [h] at this
  rw [hn]
  simp only [List.mem_cons, List.not_mem_nil, or_false] at this
  rcases this with rfl | rfl | rfl | rfl | rfl
  · exact ⟨Or.inl rfl, by simp [Untasked], by simp⟩
  · exact ⟨Or.inl rfl, by simp [Untasked], by simp⟩
  all_goals exact ⟨Or.inr ⟨[], _, _, rfl, rfl, rfl⟩, by simp [Untasked], by simp⟩

example : Fine exLoiter exAsked ∧ (∀ j ∈ exAsked ++ [In.route exRoutes], ∀ p ∈ j.plans, Plain exLoiter.near p.wps) ∧
    ((implsOf (sends exLoiter exAsked (.route exRoutes))).map fun r => r.wps.length) = [5] :=
  ⟨by decide +kernel, exPlain _ rfl, by decide +kernel⟩

/-- **C180, what fails.**  The vehicle is told to loiter twice: after it has loitered for the time asked it goes on to the copy, where
it is told to do so again.  And it loiters at the altitude at which it happened to be when the routes came. -/
theorem C180_twice_violated : Fine exLoiter exAsked ∧
    ((implsOf (sends exLoiter exAsked (.route exRoutes))).map fun r => r.wps.map (·.actions)) =
      [[[], [], [], [.asked 9 3 12 []], [.asked 9 3 12 []]]] ∧
    ((implsOf (sends exLoiter exAsked (.route exRoutes))).map fun r => r.wps.map (·.alt)) = [[50, 50, 50, 50, 50]] := by
  decide +kernel

/-- **C180, what fails.**  A vehicle whose routes have all come back empty: the last of no waypoints is looked at. -/
theorem C180_empty_violated : Fine exLoiter exAsked ∧
    ¬ Fine exLoiter (exAsked ++ [.route { exRoutes with plans := exRoutes.plans.map fun p => { p with wps := [] } }]) ∧
    Fine exConfig (exAsked ++ [.route { exRoutes with plans := exRoutes.plans.map fun p => { p with wps := [] } }]) := by
  decide +kernel

/-! ### C181: must-fly tasks -/

/-- **C181.**  The waypoints of a must-fly task have the altitude of its position and the speed of the vehicle. -/
theorem C181_altitude {c : Config} {alt altType : Int} (hfin : c.finish = mustFly alt altType) {h : List In} (hf : Fine c h) {i : In}
    {r : ImplResp} (hr : .implemented r ∈ sends c h i) :
    (r.wps = [] ∧ firstConfig c h r.vehicle = none) ∨ ∃ v, firstConfig c h r.vehicle = some v ∧ r.wps ≠ [] ∧
      ∀ w ∈ r.wps, w.alt = alt ∧ w.altType = altType ∧ w.speed = v.speed := by
  have hs := sound stable_true h hf (fun _ _ _ _ => trivial)
  obtain ⟨f⟩ := from_step stable_true hs (fun _ _ => trivial) hr
  rcases conclude_mem f.mem with ⟨hv, e⟩ | ⟨vc, ws, hv, hw, hne, e⟩
  · refine Or.inl ⟨by rw [e], ?_⟩
    rw [e, ← f.sound.conf]; exact hv
  · refine Or.inr ⟨vc, ?_, ?_, ?_⟩
    · rw [e, ← f.sound.conf]; exact hv
    · rw [e]; exact terminal_ne_nil _ hne
    · rw [e]
      rw [f.sound.cfg, hfin] at hw
      cases hw
      refine nominal_terminal (v := { id := 0, alt := alt, altType := altType, speed := vc.speed }) _ (fun w hw => ?_)
      obtain ⟨u, hu, rfl⟩ := List.mem_map.mp hw
      exact ⟨rfl, rfl, (nominal_plans _ _ _ _ _ (fun _ h => (by cases h)) u (List.mem_reverse.mp hu)).2.2⟩

/-- **C181.**  `C41_chain` holds for must-fly tasks. -/
theorem C181_chain (alt altType : Int) (n : Int) (ws ws' : List Wp) (h : Chain n ws) (e : mustFly alt altType ws = some ws') :
    Chain n ws' := by
  cases e
  exact chain_map (fun w => { w with alt := alt, altType := altType }) (fun w => ⟨rfl, rfl⟩) h

/-- Not in the code: an example. -/
def exMustFly : Config := { task := 7, finish := mustFly 120 2 }

example : Fine exMustFly exAsked ∧
    ((implsOf (sends exMustFly exAsked (.route exRoutes))).map fun r => r.wps.map fun w => (w.alt, w.altType, w.speed)) =
      [[(120, 2, 20), (120, 2, 20), (120, 2, 20), (120, 2, 20), (120, 2, 20)]] := by decide +kernel

/-! ### C182: point searches -/

theorem addFirst_snoc {x : Action} {l : List Wp} {w : Wp} :
    ∃ l' w', addFirst x (l ++ [w]) = l' ++ [w'] ∧ w'.number = w.number ∧ w'.next = w.next ∧ w'.tasks = w.tasks ∧ w'.place = w.place ∧
      w'.alt = w.alt ∧ w'.short = w.short ∧ (∀ y ∈ w.actions, y ∈ w'.actions) ∧ l'.length = l.length ∧
      (∀ u ∈ l', ∀ y ∈ u.actions, y = x ∨ ∃ u' ∈ l, y ∈ u'.actions) ∧
      (∀ u, (l' ++ [w']).head? = some u → x ∈ u.actions) ∧ (∀ y ∈ w'.actions, y = x ∨ y ∈ w.actions) := by
  cases l with
  | nil =>
    refine ⟨[], { w with actions := w.actions ++ [x] }, rfl, rfl, rfl, rfl, rfl, rfl, rfl, ?_, rfl, by simp, by simp, ?_⟩
    · intro y hy; exact List.mem_append_left _ hy
    · intro y hy
      rcases List.mem_append.mp hy with hy | hy
      · exact Or.inr hy
      · exact Or.inl (List.mem_singleton.mp hy)
  | cons b l =>
    refine ⟨{ b with actions := b.actions ++ [x] } :: l, w, rfl, rfl, rfl, rfl, rfl, rfl, rfl, fun y hy => hy, rfl, ?_, by simp,
      fun y hy => Or.inr hy⟩
    intro u hu y hy
    rcases List.mem_cons.mp hu with rfl | hu
    · rcases List.mem_append.mp hy with hy | hy
      · exact Or.inr ⟨b, List.mem_cons_self, hy⟩
      · exact Or.inl (List.mem_singleton.mp hy)
    · exact Or.inr ⟨u, List.mem_cons_of_mem _ hu, hy⟩

theorem head_terminal (t : Int) {l : List Wp} {w u : Wp} (h : (terminal t (l ++ [w])).head? = some u) :
    ∃ u', (l ++ [w]).head? = some u' ∧ u.actions = u'.actions := by
  rw [terminal_snoc] at h
  cases l with
  | nil =>
    rw [List.nil_append, terminal] at h
    split at h
    · cases h; exact ⟨w, rfl, rfl⟩
    · cases h; exact ⟨w, rfl, rfl⟩
  | cons b l =>
    have e : b = u := Option.some.inj h
    exact ⟨b, rfl, by rw [e]⟩

/-- **C182.**  The answer of a point search for a vehicle that is not a surface vehicle: the list ends in two waypoints at the same
place, the first for the task and the other, which leads to itself, not, so that the task can complete.  At the first of these is the
action that is asked for, if any, with the altitude of the waypoint.  The first waypoint of the list has the vehicle look at the place
with the last of its gimbals. -/
theorem C182_point_partial {c : Config} {a : Option Desired} {gs : List Int} {target : Place}
    (hfin : c.finish = pointSearch c.task a (some false) gs target) {h : List In}
    (hf : Fine c h) {i : In} (hp : ∀ j ∈ h ++ [i], ∀ p ∈ j.plans, Plain c.near p.wps) {r : ImplResp}
    (hr : .implemented r ∈ sends c h i) (hne : r.wps ≠ []) :
    (∃ pre x y, r.wps = pre ++ [x, y] ∧ x.tasks = [c.task] ∧ y.tasks = [] ∧ x.place = y.place ∧ x.next = y.number ∧ y.next = y.number ∧
      (∀ b, a = some b → ∃ ts, c.task ∈ ts ∧ (∀ t ∈ b.tasks, t ∈ ts) ∧ .asked b.what b.place x.alt ts ∈ x.actions) ∧
      (∀ w ∈ pre, ∀ z ∈ w.actions, z = .stare (gs.getLastD 0) target)) ∧
    ∀ w, r.wps.head? = some w → .stare (gs.getLastD 0) target ∈ w.actions := by
  obtain ⟨v, ws, us, _, h1, h2, h3, h4, h5, _, hus⟩ := answered hf hp hr hne
  rw [hfin] at h1
  unfold pointSearch at h1
  dsimp only at h1
  injection h1 with h1
  rcases h3 with rfl | ⟨l, w, rfl, hz⟩
  · exfalso; apply hus; rw [← h1]; cases a <;> rfl
  · have hw0 := h4 w (List.mem_append_right _ (List.mem_singleton.mpr rfl))
    have hl0 : ∀ u ∈ l, u.actions = [] := fun u hu => h4 u (List.mem_append_left _ hu)
    have ht := onlyFor_set (h5 w (List.mem_append_right _ (List.mem_singleton.mpr rfl)))
    obtain ⟨w1, e1, p1, p2, p3, p4, p5, p6⟩ : ∃ w1 : Wp, addDesired c.task false a (l ++ [w]) = l ++ [w1] ∧ w1.number = w.number ∧ w1.next = w.next ∧ w1.tasks = w.tasks ∧ w1.place = w.place ∧
        w1.alt = w.alt ∧ (∀ b, a = some b → (b.for_ c.task).at_ w1.alt ∈ w1.actions) := by
      cases a with
      | none => exact ⟨w, rfl, rfl, rfl, rfl, rfl, rfl, by simp⟩
      | some b =>
        refine ⟨{ w with actions := w.actions ++ [(b.for_ c.task).at_ w.alt], short := true }, by rw [addDesired, addFinal_snoc]; rfl, rfl, rfl, rfl, rfl,
          rfl, ?_⟩
        intro b' e; cases e; simp
    rw [e1] at h1
    obtain ⟨l2, w2, e2, q1, q2, q3, q4, q5, _, q6, q7, q8, q9, _⟩ := addFirst_snoc (x := .stare (gs.getLastD 0) target) (l := l) (w := w1)
    rw [e2] at h1
    subst h1
    constructor
    · rw [h2, terminal_snoc, terminal, if_pos (by rw [q2, p2]; exact hz)]
      refine ⟨l2, _, _, rfl, by dsimp only; rw [q3, p3]; exact ht, rfl, rfl, rfl, rfl, ?_, ?_⟩
      · intro b hb
        refine ⟨(b.for_ c.task).tasks, ?_, ?_, ?_⟩
        · unfold Desired.for_; dsimp only; split
          · assumption
          · simp
        · intro t ht'; unfold Desired.for_; dsimp only; split
          · exact ht'
          · exact List.mem_append_left _ ht'
        · have := q6 _ (p6 b hb)
          dsimp only
          rw [q5]
          exact this
      · intro u hu z hz'
        rcases q8 u hu z hz' with h | ⟨u', hu', h⟩
        · exact h
        · rw [hl0 u' hu'] at h; cases h
    · intro u hu
      rw [h2] at hu
      obtain ⟨u', e, e'⟩ := head_terminal _ hu
      rw [e']
      exact q9 u' e

/-- **C182.**  `C41_chain` holds for point searches. -/
theorem C182_chain (t : Int) (a : Option Desired) (s : Option Bool) (gs : List Int) (target : Place) (n : Int) (ws ws' : List Wp)
    (h : Chain n ws) (e : pointSearch t a s gs target ws = some ws') : Chain n ws' := by
  unfold pointSearch at e
  split at e
  · cases e; exact h
  · cases e
    refine chain_addFirst _ ?_
    cases a with
    | some a => exact chain_addFinal _ _ h
    | none => exact h

/-- **C182, what fails.**  For a surface vehicle that is asked to do something at the place, the last waypoint, which leads to itself,
is for the task in every answer: the vehicle never leaves the task, so that its completion (C50) is never reported. -/
theorem C182_surface_violated {c : Config} {a : Desired} {gs : List Int} {target : Place}
    (hfin : c.finish = pointSearch c.task (some a) (some true) gs target) {h : List In}
    (hf : Fine c h) {i : In} (hp : ∀ j ∈ h ++ [i], ∀ p ∈ j.plans, Plain c.near p.wps) {r : ImplResp}
    (hr : .implemented r ∈ sends c h i) (hne : r.wps ≠ []) (hpos : ∀ w ∈ r.wps, w.number ≠ 0) :
    ∃ pre y, r.wps = pre ++ [y] ∧ y.next = y.number ∧ y.tasks = [c.task] := by
  obtain ⟨v, ws, us, _, h1, h2, h3, h4, h5, _, hus⟩ := answered hf hp hr hne
  rw [hfin] at h1
  unfold pointSearch at h1
  dsimp only at h1
  injection h1 with h1
  rcases h3 with rfl | ⟨l, w, rfl, hz⟩
  · exfalso; apply hus; rw [← h1]; rfl
  · have ht := onlyFor_set (h5 w (List.mem_append_right _ (List.mem_singleton.mpr rfl)))
    rw [addDesired, addFinal_snoc, addFinal, if_pos rfl, show ∀ x y : Wp, l ++ [x, y] = (l ++ [x]) ++ [y] from fun x y => by simp] at h1
    obtain ⟨l2, w2, e2, q1, q2, q3, _⟩ := addFirst_snoc (x := .stare (gs.getLastD 0) target) (l := l ++ [{ w with next := w.number + 1 }])
      (w := { w with number := w.number + 1, next := w.number + 1, actions := w.actions ++ [(a.for_ c.task).at_ w.alt], short := true })
    rw [e2] at h1
    subst h1
    rw [h2, terminal_snoc, terminal] at hpos ⊢
    by_cases h0 : w2.next = 0
    · rw [if_pos h0] at hpos
      exfalso
      exact hpos _ (List.mem_append_right _ List.mem_cons_self) (by dsimp only; rw [q1]; rw [q2] at h0; exact h0)
    · rw [if_neg h0]
      exact ⟨l2, _, rfl, by dsimp only; rw [q1, q2], by dsimp only; rw [q3]; exact ht⟩

/-- Point search 7 of place 5, with something to do at place 3. -/
def exPoint (surface : Bool) (gs : List Int) : Config :=
  { task := 7, finish := pointSearch 7 (some { what := 9, place := 3, tasks := [] }) (some surface) gs 5 }

example : (implsOf (sends (exPoint false [21, 22]) exAsked (.route exRoutes))).map (fun r => r.wps.map fun w => (w.number, w.next, w.tasks, w.actions)) =
    [[(30, 31, [], [.stare 22 5]), (31, 32, [7], []), (32, 33, [7], []), (33, 34, [7], [.asked 9 3 50 [7]]),
      (34, 34, [], [.asked 9 3 50 [7]])]] := by decide +kernel

example : Fine (exPoint true [21]) exAsked ∧ (∀ j ∈ exAsked ++ [In.route exRoutes], ∀ p ∈ j.plans, Plain (exPoint true [21]).near p.wps) ∧
    (implsOf (sends (exPoint true [21]) exAsked (.route exRoutes))).map (fun r => r.wps.map fun w => (w.number, w.next, w.tasks, w.actions)) =
    [[(30, 31, [], [.stare 21 5]), (31, 32, [7], []), (32, 33, [7], []), (33, 34, [7], []), (34, 34, [7], [.asked 9 3 50 [7]])]] :=
  ⟨by decide +kernel, exPlain _ rfl, by decide +kernel⟩

/-- **C182, what fails.**  The action is twice in the answer, as with C180; and a vehicle without a gimbal is told to look with its
payload 0. -/
theorem C182_twice_violated : Fine (exPoint false []) exAsked ∧
    (implsOf (sends (exPoint false []) exAsked (.route exRoutes))).map (fun r => r.wps.map (·.actions)) =
    [[[.stare 0 5], [], [], [.asked 9 3 50 [7]], [.asked 9 3 50 [7]]]] := by decide +kernel

end Verif.Task
