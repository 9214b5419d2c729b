import Verif.Rendezvous.Times
import Verif.Extend.Answer

/-!
# C135: the routes planned end at the same time
-/

namespace Verif.Rendezvous

open Real Verif.Earth Verif.Extend

/-! ## Who arrives last -/

/-- The option a vehicle was assigned for the meeting: the last one, if there are several. -/
def optionOf (task v : ℤ) (list : List Asg) : Option ℤ :=
  (list.filter fun a => a.task == task && a.vehicle == v).getLast?.map (·.option)

/-- What a vehicle was assigned to do before the meeting: task and option, or zeroes. -/
def beforeOf (task v : ℤ) (list : List Asg) : ℤ × ℤ :=
  (((list.takeWhile fun a => !(a.task == task && a.vehicle == v)).filter (·.vehicle == v)).getLast?.map
    fun a => (a.task, a.option)).getD (0, 0)

/-- A time at which the vehicle reaches its place at the earliest, according to the cost matrix. -/
def Arrives (task : ℤ) (list : List Asg) (costs : List Cost) (start : Map ℤ) (now v t : ℤ) : Prop :=
  ∃ c ∈ costs, c.vehicle = v ∧ c.toTask = task ∧ optionOf task v list = some c.toOption ∧
    (c.fromTask, c.fromOption) = beforeOf task v list ∧ t = c.time + (start.get v).getD now

theorem chosen_snoc (task : ℤ) (a : Asg) : ∀ (l : List Asg) (m : Map ℤ × Map (ℤ × ℤ)),
    chosen task (l ++ [a]) m = chosen task [a] (chosen task l m)
  | [], m => rfl
  | b :: l, (sel, prev) => by
    rw [List.cons_append]
    show chosen task (l ++ [a]) _ = chosen task [a] (chosen task l _)
    rw [chosen_snoc task a l]

theorem optionOf_snoc (task v : ℤ) (l : List Asg) (a : Asg) :
    optionOf task v (l ++ [a]) = if a.task = task ∧ a.vehicle = v then some a.option else optionOf task v l := by
  unfold optionOf
  rw [List.filter_append]
  by_cases h : a.task = task ∧ a.vehicle = v
  · simp [h]
  · rw [if_neg h]
    have : (a.task == task && a.vehicle == v) = false := by
      rw [Bool.eq_false_iff]
      simpa using h
    simp [this]

theorem optionOf_none (task v : ℤ) (l : List Asg) :
    optionOf task v l = none ↔ ∀ a ∈ l, ¬(a.task = task ∧ a.vehicle = v) := by
  simp [optionOf]

/-- What a vehicle does before, as an option. -/
def prevOf (task v : ℤ) (list : List Asg) : Option (ℤ × ℤ) :=
  ((list.takeWhile fun a => !(a.task == task && a.vehicle == v)).filter (·.vehicle == v)).getLast?.map
    fun a => (a.task, a.option)

theorem prevOf_snoc (task v : ℤ) (l : List Asg) (a : Asg) :
    prevOf task v (l ++ [a]) =
      if optionOf task v l = none ∧ a.vehicle = v ∧ a.task ≠ task then some (a.task, a.option) else prevOf task v l := by
  unfold prevOf
  by_cases h : optionOf task v l = none
  · have hall := (optionOf_none task v l).1 h
    have e : ∀ r, (l ++ r).takeWhile (fun a => !(a.task == task && a.vehicle == v)) =
        l ++ r.takeWhile (fun a => !(a.task == task && a.vehicle == v)) := by
      intro r
      apply List.takeWhile_append_of_pos
      intro x hx
      have := hall x hx
      simp only [Bool.not_eq_true', Bool.and_eq_false_iff, beq_eq_false_iff_ne]
      exact not_and_or.1 this
    have e0 := e []
    rw [List.append_nil] at e0
    rw [e, e0]
    by_cases hv : a.vehicle = v
    · by_cases ht : a.task = task
      · simp [h, hv, ht]
      · simp [h, hv, ht]
    · simp [hv]
  · rw [if_neg (fun c => h c.1)]
    have : ∃ x ∈ l, (!(x.task == task && x.vehicle == v)) = false := by
      rw [optionOf_none] at h
      push Not at h
      obtain ⟨x, hx, h1, h2⟩ := h
      exact ⟨x, hx, by simp [h1, h2]⟩
    have e : (l ++ [a]).takeWhile (fun a => !(a.task == task && a.vehicle == v)) =
        l.takeWhile (fun a => !(a.task == task && a.vehicle == v)) := by
      obtain ⟨x, hx, hf⟩ := this
      clear h
      induction l with
      | nil => cases hx
      | cons y l ih =>
        rw [List.cons_append, List.takeWhile_cons, List.takeWhile_cons]
        by_cases hy : (!(y.task == task && y.vehicle == v)) = true
        · rw [if_pos hy, if_pos hy]
          congr 1
          rcases List.mem_cons.1 hx with rfl | hx
          · rw [hf] at hy; cases hy
          · exact ih hx
        · rw [if_neg hy, if_neg hy]
    rw [e]

theorem chosen_spec (task : ℤ) : ∀ l : List Asg, ((chosen task l ([], [])).1.map (·.1)).Nodup ∧
    ∀ v, (chosen task l ([], [])).1.get v = optionOf task v l ∧ (chosen task l ([], [])).2.get v = prevOf task v l := by
  intro l
  induction l using List.reverseRecOn with
  | nil => exact ⟨List.nodup_nil, fun v => ⟨rfl, rfl⟩⟩
  | append_singleton l a ih =>
    obtain ⟨ih0, ih⟩ := ih
    rw [chosen_snoc]
    generalize chosen task l ([], []) = m at *
    obtain ⟨sel, prev⟩ := m
    dsimp only at ih0 ih
    unfold chosen chosen
    by_cases ht : a.task = task
    · rw [if_pos ht]
      refine ⟨Map.nodup_put ih0 _ _, fun v => ?_⟩
      dsimp only
      rw [Map.get_put, optionOf_snoc, prevOf_snoc, (ih v).1, (ih v).2]
      simp [ht, eq_comm]
    · rw [if_neg ht]
      by_cases hs : (sel.get a.vehicle).isNone = true
      · rw [if_pos hs]
        refine ⟨ih0, fun v => ?_⟩
        dsimp only
        rw [Map.get_put, optionOf_snoc, prevOf_snoc, (ih v).1, (ih v).2]
        by_cases hv : v = a.vehicle
        · subst hv
          rw [(ih a.vehicle).1] at hs
          simp [ht, Option.isNone_iff_eq_none.1 hs]
        · simp [ht, hv, Ne.symm hv]
      · rw [if_neg hs]
        refine ⟨ih0, fun v => ?_⟩
        dsimp only
        rw [optionOf_snoc, prevOf_snoc, (ih v).1, (ih v).2]
        refine ⟨by simp [ht], ?_⟩
        rw [if_neg]
        rintro ⟨c1, rfl, _⟩
        rw [(ih a.vehicle).1, c1] at hs
        exact hs rfl

theorem inner_spec (leads : Cost → Bool) (arr : Cost → ℤ) (v : ℤ) : ∀ (costs : List Cost) (b : ℤ × ℤ),
    let r := costs.foldl (fun best c => if leads c then (if arr c > best.1 then (arr c, v) else best) else best) b
    b.1 ≤ r.1 ∧ (∀ c ∈ costs, leads c = true → arr c ≤ r.1) ∧ (r = b ∨ ∃ c ∈ costs, leads c = true ∧ r = (arr c, v))
  | [], b => ⟨le_refl _, (by simp), Or.inl rfl⟩
  | c :: costs, b => by
    dsimp only
    rw [List.foldl_cons]
    obtain ⟨h1, h2, h3⟩ := inner_spec leads arr v costs
      (if leads c then (if arr c > b.1 then (arr c, v) else b) else b)
    generalize List.foldl _ _ costs = r at *
    have hb : b.1 ≤ (if leads c then (if arr c > b.1 then (arr c, v) else b) else b).1 := by
      split
      · split
        · rename_i h; exact le_of_lt h
        · exact le_refl _
      · exact le_refl _
    refine ⟨hb.trans h1, ?_, ?_⟩
    · intro x hx hl
      rcases List.mem_cons.1 hx with rfl | hx
      · rw [if_pos hl] at h1
        split at h1
        · exact h1
        · rename_i h; exact (not_lt.1 h).trans h1
      · exact h2 x hx hl
    · rcases h3 with h3 | ⟨x, hx, hl, hr⟩
      · by_cases hl : leads c = true
        · rw [if_pos hl] at h3
          split at h3
          · exact .inr ⟨c, by simp, hl, h3⟩
          · exact .inl h3
        · rw [if_neg hl] at h3
          exact .inl h3
      · exact .inr ⟨x, List.mem_cons_of_mem _ hx, hl, hr⟩

theorem latest_spec (task : ℤ) (prev : Map (ℤ × ℤ)) (costs : List Cost) (start : Map ℤ) (now : ℤ) :
    ∀ (ops : List (ℤ × ℤ)) (b : ℤ × ℤ),
    let r := latestArrival task prev costs start now ops b
    b.1 ≤ r.1 ∧ (∀ v o, (v, o) ∈ ops → ∀ c ∈ costs, c.leads task v o ((prev.get v).getD (0, 0)) = true →
        c.time + (start.get v).getD now ≤ r.1) ∧
      (r = b ∨ ∃ v o, (v, o) ∈ ops ∧ ∃ c ∈ costs, c.leads task v o ((prev.get v).getD (0, 0)) = true ∧
        r = (c.time + (start.get v).getD now, v))
  | [], b => ⟨le_refl _, (by simp), Or.inl rfl⟩
  | (v, o) :: ops, b => by
    dsimp only
    unfold latestArrival
    obtain ⟨i1, i2, i3⟩ := inner_spec (fun c => c.leads task v o ((prev.get v).getD (0, 0)))
      (fun c => c.time + (start.get v).getD now) v costs b
    generalize List.foldl _ b costs = b' at *
    obtain ⟨h1, h2, h3⟩ := latest_spec task prev costs start now ops b'
    generalize latestArrival task prev costs start now ops b' = r at *
    refine ⟨i1.trans h1, ?_, ?_⟩
    · intro v' o' hm c hc hl
      rcases List.mem_cons.1 hm with hm | hm
      · cases hm
        exact (i2 c hc hl).trans h1
      · exact h2 v' o' hm c hc hl
    · rcases h3 with rfl | ⟨v', o', hm, c, hc, hl, hr⟩
      · rcases i3 with i3 | ⟨c, hc, hl, hr⟩
        · exact .inl i3
        · exact .inr ⟨v, o, by simp, c, hc, hl, hr⟩
      · exact .inr ⟨v', o', List.mem_cons_of_mem _ hm, c, hc, hl, hr⟩

/-- `A` is the latest of the arrivals after 0, of the vehicle `last`; or there is none, and both are 0. -/
def Latest (task : ℤ) (list : List Asg) (costs : List Cost) (start : Map ℤ) (now A last : ℤ) : Prop :=
  (∀ v t, Arrives task list costs start now v t → t ≤ A) ∧
    (A = 0 ∧ last = 0 ∨ Arrives task list costs start now last A)

theorem latest_chosen {arr : List (ℤ × ℤ) → List (ℤ × ℤ)} (harr : ∀ l, (arr l).Perm l) (task : ℤ) (list : List Asg)
    (costs : List Cost) (start : Map ℤ) (now : ℤ) :
    Latest task list costs start now
      (latestArrival task (chosen task list ([], [])).2 costs start now (arr (chosen task list ([], [])).1) (0, 0)).1
      (latestArrival task (chosen task list ([], [])).2 costs start now (arr (chosen task list ([], [])).1) (0, 0)).2 := by
  obtain ⟨h0, h⟩ := chosen_spec task list
  obtain ⟨_, h2, h3⟩ := latest_spec task (chosen task list ([], [])).2 costs start now (arr (chosen task list ([], [])).1) (0, 0)
  generalize latestArrival task (chosen task list ([], [])).2 costs start now (arr (chosen task list ([], [])).1) (0, 0) = r at *
  have hmem : ∀ v o, (v, o) ∈ arr (chosen task list ([], [])).1 ↔ optionOf task v list = some o := by
    intro v o
    rw [(harr _).mem_iff, Map.mem_iff_get h0, (h v).1]
  have hlead : ∀ (c : Cost) (v o : ℤ), c.leads task v o (((chosen task list ([], [])).2.get v).getD (0, 0)) = true ↔
      c.vehicle = v ∧ c.toTask = task ∧ c.toOption = o ∧ (c.fromTask, c.fromOption) = beforeOf task v list := by
    intro c v o
    rw [(h v).2]
    show _ ↔ _ ∧ _ ∧ _ ∧ _ = (prevOf task v list).getD (0, 0)
    simp [Cost.leads, Prod.ext_iff, and_assoc]
  constructor
  · rintro v t ⟨c, hc, e1, e2, e3, e4, rfl⟩
    exact h2 v c.toOption ((hmem _ _).2 e3) c hc ((hlead _ _ _).2 ⟨e1, e2, rfl, e4⟩)
  · rcases h3 with rfl | ⟨v, o, hm, c, hc, hl, rfl⟩
    · exact .inl ⟨rfl, rfl⟩
    · obtain ⟨e1, e2, rfl, e4⟩ := (hlead _ _ _).1 hl
      exact .inr ⟨c, hc, e1, e2, (hmem _ _).1 hm, e4, rfl⟩

/-! ## The length of the way -/

/-- The length of the way through waypoints, in the plane of an origin. -/
noncomputable def wayLength (o : ℝ × ℝ) : List Wp → ℝ
  | a :: b :: more => gap o a b + wayLength o (b :: more)
  | _ => 0

theorem travel_eq (asserts : Bool) (o : ℝ × ℝ) : ∀ (ws : List Wp) (w : Wp),
    travel asserts ws (at_ o) (plane o w).2 (plane o w).1 = .ok (wayLength o (w :: ws))
  | [], w => rfl
  | b :: ws, w => by
    unfold travel
    rw [toNorthEast_plane, Outcome.bind_ok]
    dsimp only
    rw [travel_eq asserts o ws b, Outcome.bind_ok, wayLength, gap]
    congr 3
    ring

theorem plane_origin (w : Wp) : plane (origin_ w) w = (0, 0) := by simp [plane, origin_]

theorem travelDist_eq (asserts : Bool) (w : Wp) (ws : List Wp) :
    travelDist asserts (w :: ws) = .ok (wayLength (origin_ w) (w :: ws)) := by
  unfold travelDist
  dsimp only
  rw [initialize_new, Outcome.bind_ok]
  have := travel_eq asserts (origin_ w) ws w
  rw [plane_origin] at this
  exact this

theorem wayLength_nonneg (o : ℝ × ℝ) : ∀ ws : List Wp, 0 ≤ wayLength o ws
  | [] => le_refl _
  | [_] => le_refl _
  | a :: b :: more => by
    unfold wayLength
    have := wayLength_nonneg o (b :: more)
    have : 0 ≤ gap o a b := Real.sqrt_nonneg _
    linarith

theorem toInt64_spec {x : ℝ} {n : ℤ} (hx : 0 ≤ x) (h : toInt64 x = .ok n) : 0 ≤ n ∧ (n : ℝ) ≤ x ∧ x < n + 1 := by
  unfold toInt64 at h
  dsimp only at h
  rw [if_pos hx] at h
  split at h
  · obtain rfl := Outcome.ok.inj h
    exact ⟨Int.floor_nonneg.2 hx, Int.floor_le x, Int.lt_floor_add_one x⟩
  · cases h

/-- The time of arrival of a vehicle that is free at `start` and flies a way of a length at a speed. -/
noncomputable def arrival (start : ℤ) (V len : ℝ) : ℝ := start + 1000 * len / V

/-- The bank angle of a turn, in degrees: 20 for a vehicle that is not known to be an aircraft, else that of the configuration
without its sign, and at least 1. -/
noncomputable def bankAngle : Option (ℝ × ℝ × ℝ) → ℝ
  | none => 20
  | some (_, _, bank) => max 1 |bank|

/-- The turn radius: 1.2 times the radius of a level turn with the bank angle. -/
noncomputable def radius (V : ℝ) (air : Option (ℝ × ℝ × ℝ)) : ℝ :=
  12 / 10 * (V ^ 2 / (980665 / 100000 * tan (bankAngle air * (π / 180))))

/-- How slow a vehicle may fly: an aircraft not slower than its configuration permits, and not further below the speed of the
plan than it may fly above it. -/
noncomputable def slowest (V : ℝ) : Option (ℝ × ℝ × ℝ) → ℝ
  | none => V
  | some (lo, hi, _) => max lo (V - max 0 (hi - V))

theorem manoeuvre_eq (V : ℝ) (air : Option (ℝ × ℝ × ℝ)) : manoeuvre V air = (radius V air, slowest V air) := by
  unfold manoeuvre radius slowest bankAngle
  rcases air with _ | ⟨lo, hi, bank⟩
  · dsimp only
    rw [Prod.mk.injEq]
    exact ⟨by rw [div_div, pow_two]; ring, rfl⟩
  · have e : (if |bank| < 1 then 1 else |bank|) = max 1 |bank| := by
      rcases lt_or_ge |bank| 1 with c | c
      · rw [if_pos c, max_eq_left c.le]
      · rw [if_neg (not_lt.2 c), max_eq_right c]
    dsimp only
    rw [Prod.mk.injEq]
    refine ⟨?_, ?_⟩
    · rw [← e, div_div, pow_two]
    · rw [max_comm 0 (hi - V)]
      by_cases c : max (hi - V) 0 < max (V - lo) 0
      · rw [if_pos c, max_eq_right (a := lo)]
        rcases lt_max_iff.1 c with c | c
        · linarith
        · exact absurd c (not_lt.2 (le_max_right _ _))
      · rw [if_neg c, max_eq_left (a := lo)]
        have := le_trans (le_max_left (V - lo) 0) (not_lt.1 c)
        linarith

/-- The bank angle of the configuration is below a right angle. -/
def BankOk (air : Option (ℝ × ℝ × ℝ)) : Prop := ∀ lo hi bank, air = some (lo, hi, bank) → |bank| < 90

theorem tan_pos_deg {x : ℝ} (h0 : 0 < x) (h1 : x < 90) : 0 < tan (x * (π / 180)) := by
  have := pi_pos
  apply tan_pos_of_pos_of_lt_pi_div_two (by positivity)
  have := mul_lt_mul_of_pos_right h1 (show 0 < π / 180 by positivity)
  linarith

theorem radius_pos {V : ℝ} {air : Option (ℝ × ℝ × ℝ)} (hV : 0 < V) (hb : BankOk air) : 0 < radius V air := by
  have h : 0 < tan (bankAngle air * (π / 180)) := by
    rcases air with _ | ⟨lo, hi, bank⟩
    · exact tan_pos_deg (x := 20) (by norm_num) (by norm_num)
    · exact tan_pos_deg (lt_max_of_lt_left one_pos) (max_lt (by norm_num) (hb lo hi bank rfl))
  unfold radius
  positivity

theorem speedOn_same {V : ℝ} : ∀ {ws : List Wp} {j : ℕ}, (∀ w ∈ ws, w.speed = V) → speedOn V ws j = V
  | [], _, _ => rfl
  | w :: ws, j, h => by
    have hw : prevail V w.speed = V := by
      rw [h w (by simp)]
      unfold prevail
      simp
    cases j with
    | zero => exact hw
    | succ j =>
      unfold speedOn
      rw [hw]
      exact speedOn_same fun x hx => h x (by simp [hx])

/-- The route was extended by a path of the length `len` in place of a piece of the length `cut`. -/
def Lengthened (R : ℝ) (ms : ℤ) (w0 : Wp) (ws rs : List Wp) (len cut : ℝ) : Prop :=
  ∃ i a b m mid post psi s N dub zs,
    Extended ms R (2 * π * R / 8) w0 ws rs i a b m mid post psi s cut N dub zs ∧ total dub = len

/-- No straight piece of the route is six turn radii long. -/
def TooShort (R : ℝ) (w0 : Wp) (ws : List Wp) : Prop :=
  ∀ j a b : _, ws[j]? = some a → ws[j + 1]? = some b → gap (origin_ w0) a b < 6 * R ∨ gap (origin_ w0) a b ≤ 1 / 10000

/-- What the answer to a request to meet at `A` is, for a vehicle that starts at `start` and flies at `V`. -/
inductive Met (speedOnly : Bool) (V : ℝ) (air : Option (ℝ × ℝ × ℝ)) (isLast : Prop) (A start : ℤ) (w0 : Wp) (ws : List Wp) :
    List Wp → Prop
  /-- The last vehicle keeps its route. -/
  | last (h : isLast) : Met speedOnly V air isLast A start w0 ws ws
  /-- A vehicle that is late, or at most a second early, keeps its route. -/
  | enough (h : (A : ℝ) - 1000 ≤ arrival start V (wayLength (origin_ w0) ws)) : Met speedOnly V air isLast A start w0 ws ws
  /-- A vehicle that is to adapt its speed only keeps its route. -/
  | speed (h : speedOnly = true) (h1 : V - slowest V air > 1 / 10000)
    (h2 : ((A : ℝ) - arrival start V (wayLength (origin_ w0) ws)) * (V - slowest V air) <
      wayLength (origin_ w0) ws * 1000) :
    Met speedOnly V air isLast A start w0 ws ws
  /-- The route is extended and ends at `A`. -/
  | extended (ms : ℤ) (rs : List Wp) (len cut : ℝ) (h : Lengthened (radius V air) ms w0 ws rs len cut)
    (hlo : (A : ℝ) - 6 / 100000 * radius V air / V ≤ arrival start V (wayLength (origin_ w0) ws + (len - cut)))
    (hhi : arrival start V (wayLength (origin_ w0) ws + (len - cut)) < A + 1) : Met speedOnly V air isLast A start w0 ws rs
  /-- All straight pieces are too short: the route is extended by a circle and a second of straight flight. -/
  | circle (ms : ℤ) (rs : List Wp) (len cut : ℝ) (hs : TooShort (radius V air) w0 ws)
    (h : Lengthened (radius V air) ms w0 ws rs len cut)
    (hlo : 2 * π * radius V air + V - V / 1000 - 6 * radius V air / 100000000 ≤ len - cut)
    (hhi : len - cut ≤ 2 * π * radius V air + V) : Met speedOnly V air isLast A start w0 ws rs
  /-- All straight pieces are too short even for that. -/
  | short (hs : TooShort (radius V air) w0 ws) : Met speedOnly V air isLast A start w0 ws ws

theorem extended_len {ms : ℤ} {R d V : ℝ} {w0 : Wp} {ws rs : List Wp} {i : ℕ} {a b : Wp} {m : ℝ}
    {mid post : List Wp} {psi s L : ℝ} {N : ℕ} {dub : List Dubins} {zs : List (ℝ × ℝ)}
    (h : Extended ms R d w0 ws rs i a b m mid post psi s L N dub zs) (hw : ws.head? = some w0) (hsp : ∀ w ∈ ws, w.speed = V) :
    total dub - L ≤ ms / 1000 * V ∧ ms / 1000 * V - 6 * R / 100000000 ≤ total dub - L := by
  have h0 : w0.speed = V := hsp w0 (List.mem_of_mem_head? hw)
  have hsame : speedOn w0.speed ws.tail i = V := by
    rw [h0]
    exact speedOn_same fun x hx => hsp x (List.mem_of_mem_tail hx)
  obtain ⟨l1, l2⟩ := h.length
  rw [hsame] at l1 l2
  constructor <;> linarith

theorem stretch_spec {asserts speedOnly : Bool} {V : ℝ} {air : Option (ℝ × ℝ × ℝ)} {vehicle start : ℤ} {best : ℤ × ℤ}
    {w0 : Wp} {ws rs : List Wp} (hV : 1 / 10000 ≤ V) (hb : BankOk air) (hw : ws.head? = some w0)
    (hlen : 2 ≤ ws.length) (hsp : ∀ w ∈ ws, w.speed = V) (hpole : 0 < cos (origin_ w0).1)
    (h : stretch asserts speedOnly V air vehicle best start ws = .ok rs) :
    Met speedOnly V air (best.2 = vehicle) best.1 start w0 ws rs := by
  have hV0 : 0 < V := by linarith
  have hR := radius_pos hV0 hb
  obtain ⟨w, more, rfl⟩ : ∃ w more, ws = w :: more := by
    cases ws with
    | nil => cases hw
    | cons w more => exact ⟨w, more, rfl⟩
  obtain rfl : w = w0 := by simpa using hw
  unfold stretch at h
  simp only [manoeuvre_eq] at h
  rw [travelDist_eq, Outcome.bind_ok, if_neg hV0.ne', Outcome.bind_eq_ok] at h
  have hway := wayLength_nonneg (origin_ w) (w :: more)
  obtain ⟨t, ht, h⟩ := h
  obtain ⟨t0, t1, t2⟩ := toInt64_spec (by positivity) ht
  have hq : wayLength (origin_ w) (w :: more) / V * 1000 = 1000 * wayLength (origin_ w) (w :: more) / V := by ring
  rw [hq] at t1 t2
  by_cases hc : best.1 - t - start ≤ 1000 ∨ best.2 = vehicle
  · rw [if_pos hc] at h
    obtain rfl := Outcome.ok.inj h
    rcases hc with hc | hc
    · refine .enough ?_
      have : ((best.1 - t - start : ℤ) : ℝ) ≤ 1000 := by exact_mod_cast hc
      push_cast at this
      unfold arrival
      linarith
    · exact .last hc
  rw [if_neg hc] at h
  have hext : 1000 < best.1 - t - start := not_le.1 fun c => hc (.inl c)
  generalize he : best.1 - t - start = ext at *
  have heR : (best.1 : ℝ) - t - start = ext := by exact_mod_cast he
  by_cases hs : speedOnly = true ∧ V - slowest V air > 1 / 10000 ∧
      ext * (V - slowest V air) < wayLength (origin_ w) (w :: more) * 1000
  · have h' : Outcome.ok (w :: more) = Outcome.ok rs := by
      rw [← h]
      simp only [if_pos hs]
    obtain rfl := Outcome.ok.inj h'
    refine .speed hs.1 hs.2.1 (lt_of_le_of_lt ?_ hs.2.2)
    apply mul_le_mul_of_nonneg_right _ (by linarith [hs.2.1])
    unfold arrival
    linarith
  simp only [if_neg hs] at h
  rw [Outcome.bind_eq_ok] at h
  obtain ⟨⟨done, rs1⟩, hx, h⟩ := h
  have hd : 0 < 2 * π * radius V air / 8 := by have := pi_pos; positivity
  cases done with
  | true =>
    dsimp only at h
    rw [if_pos rfl] at h
    obtain rfl := Outcome.ok.inj h
    obtain ⟨i, a, b, m, mid, post, psi, s, L, N, dub, zs, hE⟩ := C131_extend hR hd (by omega) hw hpole hx
    obtain ⟨l1, l2⟩ := extended_len hE hw hsp
    refine .extended ext rs1 (total dub) L ⟨i, a, b, m, mid, post, psi, s, N, dub, zs, hE, rfl⟩ ?_ ?_
    · unfold arrival
      rw [mul_add, add_div]
      have : 1000 * (ext / 1000 * V - 6 * radius V air / 100000000) / V ≤ 1000 * (total dub - L) / V := by
        gcongr
      have e : 1000 * (ext / 1000 * V - 6 * radius V air / 100000000) / V =
          ext - 6 / 100000 * radius V air / V := by
        field_simp
        ring
      rw [e] at this
      linarith
    · unfold arrival
      rw [mul_add, add_div]
      have : 1000 * (total dub - L) / V ≤ 1000 * (ext / 1000 * V) / V := by
        gcongr
      have e : 1000 * (ext / 1000 * V) / V = (ext : ℝ) := by field_simp
      rw [e] at this
      linarith
  | false =>
    dsimp only at h
    rw [if_neg (by simp), Outcome.bind_eq_ok] at h
    obtain ⟨circle, hci, h⟩ := h
    rw [Outcome.bind_eq_ok] at h
    obtain ⟨⟨done2, rs2⟩, hx2, h⟩ := h
    obtain rfl := Outcome.ok.inj h
    obtain ⟨rfl, hre⟩ := C131_refused hx
    have hshort : TooShort (radius V air) w (w :: more) := by
      rcases hre with hre | ⟨w', hw', hre⟩
      · omega
      obtain rfl : w = w' := by simpa using hw'
      have h0 : w.speed = V := hsp w (by simp)
      rcases hre with hre | hre
      · rw [h0] at hre; linarith
      intro j a b ha hb'
      obtain ⟨m, hm, hg⟩ := hre j a b ha hb'
      rw [h0, speedOn_same fun x hx => hsp x (by simp_all)] at hm
      have hext' : (0 : ℝ) ≤ ext := by exact_mod_cast (by omega : (0 : ℤ) ≤ ext)
      have := (C130_required hR (by positivity) hm).2
      rcases hg with hg | hg
      · exact .inl (lt_of_lt_of_le hg this)
      · exact .inr hg
    have hpos : 0 ≤ 1000 * (2 * π * radius V air / 8) * 8 / V + 1000 := by positivity
    obtain ⟨c0, c1, c2⟩ := toInt64_spec hpos hci
    have hcirc : 1000 * (2 * π * radius V air / 8) * 8 / V + 1000 = (1000 * (2 * π * radius V air) + 1000 * V) / V := by
      field_simp
    rw [hcirc] at c1 c2
    rw [le_div_iff₀ hV0] at c1
    rw [div_lt_iff₀ hV0] at c2
    cases done2 with
    | true =>
      obtain ⟨i, a, b, m, mid, post, psi, s, L, N, dub, zs, hE⟩ := C131_extend hR hd c0 hw hpole hx2
      obtain ⟨l1, l2⟩ := extended_len hE hw hsp
      refine .circle circle rs2 (total dub) L hshort ⟨i, a, b, m, mid, post, psi, s, N, dub, zs, hE, rfl⟩ ?_ ?_
      · linarith
      · linarith
    | false =>
      obtain ⟨rfl, _⟩ := C131_refused hx2
      exact .short hshort

end Verif.Rendezvous
