import Verif.Rendezvous.Arrive

/-!
# C135: the answer to a request to meet
-/

namespace Verif.Rendezvous

open Real Verif.Earth Verif.Extend

/-- A waypoint as the request asks for: speed, kind of speed, altitude and its type. -/
def AsAsked (V : ℝ) (goal : Goal) (w : Wp) : Prop :=
  w.speed = V ∧ w.rest.airspeed = true ∧ w.rest.altitude = goal.altitude ∧ w.rest.altType = goal.altType

theorem prepare_asked (task : ℤ) (st : Ent) (V : ℝ) (goal : Goal) (wpId : ℤ) (ws : List Wp) :
    ∀ w ∈ prepare task st V goal wpId ws, AsAsked V goal w := by
  unfold prepare
  dsimp only
  generalize hv : (List.map _ (if ws.isEmpty = true then _ else ws)) = vs
  have hall : ∀ w ∈ vs, AsAsked V goal w := by
    rw [← hv]
    intro w hw
    obtain ⟨x, _, rfl⟩ := List.mem_map.1 hw
    exact ⟨rfl, rfl, rfl, rfl⟩
  intro w hw
  split at hw
  · rename_i x
    obtain ⟨h1, h2, h3, h4⟩ := hall x (by simp)
    simp only [List.mem_cons, List.not_mem_nil, or_false] at hw
    rcases hw with rfl | rfl <;> exact ⟨h1, h2, h3, h4⟩
  · exact hall w hw

theorem prepare_length (task : ℤ) (st : Ent) (V : ℝ) (goal : Goal) (wpId : ℤ) (ws : List Wp) :
    2 ≤ (prepare task st V goal wpId ws).length := by
  unfold prepare
  dsimp only
  generalize hv : (List.map _ (if ws.isEmpty = true then _ else ws)) = vs
  have hne : vs ≠ [] := by
    rw [← hv]
    cases ws <;> simp
  split
  · simp
  · rename_i h
    match vs, hne, h with
    | [x], _, h => exact absurd rfl (h x)
    | x :: y :: more, _, _ => simp

/-- **C135.**  The route prepared for the meeting: the waypoints given, in place; without any, the place of the option; and a
single one after the position of the vehicle. -/
theorem C135_route (task : ℤ) (st : Ent) (V : ℝ) (goal : Goal) (wpId : ℤ) (ws : List Wp) :
    (prepare task st V goal wpId ws).map (fun w => (w.lat, w.lon)) =
      match ws with
      | [] => [(st.lat, st.lon), (goal.lat, goal.lon)]
      | [w] => [(st.lat, st.lon), (w.lat, w.lon)]
      | ws => ws.map (fun w => (w.lat, w.lon)) := by
  match ws with
  | [] => simp [prepare]
  | [w] => simp [prepare]
  | w :: w2 :: more => simp [prepare]

/-- **C135.**  The task leads on: each waypoint of the route prepared from none or a single one names the next. -/
theorem C135_linked (task : ℤ) (st : Ent) (V : ℝ) (goal : Goal) (wpId : ℤ) {ws : List Wp} (h : ws.length ≤ 1) :
    ∃ a b, prepare task st V goal wpId ws = [a, b] ∧ a.next = b.number ∧ b.next = b.number ∧ a.number + 1 = b.number ∧
      (ws = [] → a.number = wpId ∧ a.rest.tasks = [task] ∧ b.rest.tasks = [task]) ∧
      ∀ w, ws = [w] → a.number = w.number ∧ a.rest.tasks = w.rest.tasks ∧ b.rest.tasks = w.rest.tasks := by
  match ws, h with
  | [], _ => exact ⟨_, _, rfl, rfl, rfl, rfl, fun _ => ⟨rfl, rfl, rfl⟩, fun w hw => by cases hw⟩
  | [w], _ => exact ⟨_, _, rfl, rfl, rfl, rfl, (fun hw => by cases hw), (fun w1 hw => by cases hw; exact ⟨rfl, rfl, rfl⟩)⟩

/-- **C135.**  The answer for a vehicle whose state is known, when assignment, cost matrix and start times of the request are:
for every route, every order in which the maps are run through and every time of arrival.  With `A` the latest arrival of the
vehicles assigned, the last vehicle keeps its route, as does one that is late or at most a second early; if a straight piece of
the route is six turn radii long, the route is extended and arrives within a millisecond of `A`; if not, it is extended by a
circle or not at all. -/
theorem C135_answer_partial {arr : List (ℤ × ℤ) → List (ℤ × ℤ)} (harr : ∀ l, (arr l).Perm l) {asserts speedOnly : Bool} {task : ℤ}
    {t : Times} {st : Ent} {cfg : Option Cfg} {goal : Goal} {req vehicle wpId : ℤ} {ws rs : List Wp}
    {list : List Asg} {costs : List Cost} {starts : Map ℤ} {start : ℤ} {w0 : Wp}
    (hlist : t.summary.get req = some list) (hcosts : t.matrix.get req = some costs) (hstarts : t.start.get req = some starts)
    (hstart : starts.get vehicle = some start)
    (hV : 1 / 10000 ≤ planSpeed st cfg) (hb : BankOk (cfg.bind (·.air)))
    (hw : (prepare task st (planSpeed st cfg) goal wpId ws).head? = some w0) (hpole : 0 < cos (origin_ w0).1)
    (h : implement arr asserts speedOnly task t (some st) cfg goal req vehicle wpId ws = .ok rs) :
    ∃ A last, Latest task list costs starts st.time A last ∧
      Met speedOnly (planSpeed st cfg) (cfg.bind (·.air)) (last = vehicle) A start w0
        (prepare task st (planSpeed st cfg) goal wpId ws) rs := by
  unfold implement at h
  dsimp only at h
  rw [hlist, hcosts, hstarts] at h
  dsimp only at h
  rw [hstart] at h
  dsimp only at h
  exact ⟨_, _, latest_chosen harr task list costs starts st.time,
    stretch_spec hV hb hw (prepare_length ..) (fun w hw => (prepare_asked _ _ _ _ _ _ w hw).1) hpole h⟩

/-- **C135.**  If a straight piece of the route is six turn radii long, and speed alone is not preferred: every vehicle but the
last arrives at most a second before the latest arrival `A`, or is late already on its own route. -/
theorem C135_on_time {V : ℝ} {air : Option (ℝ × ℝ × ℝ)} {isLast : Prop} {A start : ℤ} {w0 : Wp} {ws rs : List Wp}
    (h : Met false V air isLast A start w0 ws rs) (hlong : ¬TooShort (radius V air) w0 ws) :
    (rs = ws ∧ (isLast ∨ (A : ℝ) - 1000 ≤ arrival start V (wayLength (origin_ w0) ws))) ∨
      ∃ ms len cut, Lengthened (radius V air) ms w0 ws rs len cut ∧
        (A : ℝ) - 6 / 100000 * radius V air / V ≤ arrival start V (wayLength (origin_ w0) ws + (len - cut)) ∧
        arrival start V (wayLength (origin_ w0) ws + (len - cut)) < A + 1 := by
  cases h with
  | last h => exact .inl ⟨rfl, .inl h⟩
  | enough h => exact .inl ⟨rfl, .inr h⟩
  | speed h => cases h
  | extended ms _ len cut h hlo hhi => exact .inr ⟨ms, len, cut, h, hlo, hhi⟩
  | circle _ _ _ _ hs => exact absurd hs hlong
  | short hs => exact absurd hs hlong

theorem lengthened_asked {R : ℝ} {ms : ℤ} {V : ℝ} {goal : Goal} {w0 : Wp} {ws rs : List Wp} {len cut : ℝ}
    (h : Lengthened R ms w0 ws rs len cut) (hall : ∀ w ∈ ws, AsAsked V goal w) : ∀ w ∈ rs, AsAsked V goal w := by
  obtain ⟨i, a, b, m, mid, post, psi, s, N, dub, zs, h, _⟩ := h
  intro w hw
  rw [h.list] at hw
  simp only [List.mem_append] at hw
  rcases hw with (hw | hw) | hw
  · exact hall w (List.mem_of_mem_take hw)
  · obtain ⟨h1, h2⟩ := h.copied w hw
    obtain ⟨b1, b2⟩ := hall b (List.mem_of_getElem? h.seg.2)
    unfold AsAsked
    rw [h1, h2]
    exact ⟨b1, b2⟩
  · have hk := h.kept
    have : ∀ {l1 l2 : List Wp}, List.Forall₂ Same l1 l2 → (∀ x ∈ l2, AsAsked V goal x) → ∀ x ∈ l1, AsAsked V goal x := by
      intro l1 l2 hl
      induction hl with
      | nil => intro _ x hx; cases hx
      | cons hs _ ih =>
        intro ha x hx
        rcases List.mem_cons.1 hx with rfl | hx
        · obtain ⟨_, _, e1, e2⟩ := hs
          have := ha _ List.mem_cons_self
          unfold AsAsked at this ⊢
          rw [e1, e2]
          exact this
        · exact ih (fun y hy => ha y (List.mem_cons_of_mem _ hy)) x hx
    exact this hk (fun x hx => hall x (List.mem_of_mem_drop hx)) w hw

/-- **C135.**  Whatever the answer, all its waypoints have the speed planned with, as an airspeed, and the altitude of the
option. -/
theorem C135_asked {speedOnly : Bool} {V : ℝ} {air : Option (ℝ × ℝ × ℝ)} {isLast : Prop} {A start : ℤ} {goal : Goal} {w0 : Wp}
    {ws rs : List Wp} (h : Met speedOnly V air isLast A start w0 ws rs) (hall : ∀ w ∈ ws, AsAsked V goal w) :
    ∀ w ∈ rs, AsAsked V goal w := by
  cases h with
  | last h => exact hall
  | enough h => exact hall
  | speed h => exact hall
  | extended ms _ len cut h => exact lengthened_asked h hall
  | circle _ _ _ _ _ h => exact lengthened_asked h hall
  | short hs => exact hall

/-- **C135.**  Without the state of the vehicle the route stays as it is; without assignment, costs or start times it is only
prepared. -/
theorem C135_unknown {arr : List (ℤ × ℤ) → List (ℤ × ℤ)} {asserts speedOnly : Bool} {task : ℤ} {t : Times} {st : Option Ent}
    {cfg : Option Cfg} {goal : Goal} {req vehicle wpId : ℤ} {ws : List Wp} :
    (st = none → implement arr asserts speedOnly task t st cfg goal req vehicle wpId ws = .ok ws) ∧
    ∀ s, st = some s → (t.summary.get req = none ∨ t.matrix.get req = none ∨ t.of req vehicle = none) →
      implement arr asserts speedOnly task t st cfg goal req vehicle wpId ws =
        .ok (prepare task s (planSpeed s cfg) goal wpId ws) := by
  refine ⟨fun h => by rw [h]; rfl, ?_⟩
  rintro s rfl h
  unfold implement
  dsimp only
  unfold Times.of at h
  cases h1 : t.summary.get req with
  | none => rfl
  | some a =>
    cases h2 : t.matrix.get req with
    | none => rfl
    | some b =>
      cases h3 : t.start.get req with
      | none => rfl
      | some c =>
        simp only [h1, h2, h3, Option.bind_some, reduceCtorEq, false_or] at h
        dsimp only
        rw [h]

end Verif.Rendezvous
