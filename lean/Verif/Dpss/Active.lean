import Verif.Dpss.OfferCases
import Verif.Stare.Commands

/-!
# What a vehicle that searches a line is told (C170)

`CmasiLineSearchTaskService` and `ImpactLineSearchTaskService`: `m_optionIdVsDpss`, `isProcessTaskImplementationRouteResponse` and
`activeEntityState`, for the messages that `TaskServiceBase` passes on.  Plans are those in one direction (C168).
-/

namespace Verif.Dpss

open Complex
open Verif.Escort (along)
open Verif.Stare (len len_nil len_single len_cons len_nonneg Payload firstGimbal Sent along_zero)

/-- `std::unordered_map::insert`: an entry that is there stays. -/
def putNew {β : Type} (m : Map β) (x : ℤ × β) : Map β := if (m.get x.1).isSome then m else x :: m

/-- What happens to the task. -/
inductive Event where
  /-- A request to plan: the options that are made, with what `SetObjective` was given for them (CmasiLineSearchTaskService.cpp
  399 and 554, ImpactLineSearchTaskService.cpp 417 and 485). -/
  | plan (made : List (ℤ × Objective))
  /-- The routes to an option have come and the option is handed out (TaskServiceBase.cpp 966). -/
  | implement (option : ℤ)
  /-- The configuration of a vehicle that may do the task (TaskServiceBase.cpp 130 and 312). -/
  | config (vehicle : ℤ) (payloads : List Payload)
  /-- The state of a vehicle that works on the task (TaskServiceBase.cpp 265). -/
  | state (vehicle : ℤ) (pos : ℂ)

/-- `m_optionIdVsDpss`, in the order of insertion, `m_activeDpss`, `m_entityConfigurations`. -/
structure Line where
  table : List (ℤ × Objective) := []
  active : Option Objective := none
  configs : Map (List Payload) := []

/-- What is in the table under an id, in the order of insertion. -/
def under (i : ℤ) (l : List (ℤ × Objective)) : List Objective := (l.filter (·.1 == i)).map (·.2)

/-- `std::unordered_multimap::find` (CmasiLineSearchTaskService.h 183, ImpactLineSearchTaskService.h 178): one of the entries with the
key.  Which one, the standard leaves open; in the GNU library the last that was put in, in that of LLVM the first. -/
def Finds (look : List Objective → Option Objective) : Prop := look [] = none ∧ ∀ l, l ≠ [] → ∃ o ∈ l, look l = some o

/-- One message.  TaskServiceBase.cpp 527-537 clears what it keeps of the options of the last request; `m_optionIdVsDpss` is not
cleared.  CmasiLineSearchTaskService.cpp 585-599 and 601-690, ImpactLineSearchTaskService.cpp 520-534 and 536-625; the altitude of the
point is left out (0). -/
noncomputable def Line.step (look : List Objective → Option Objective) (task : ℤ) (s : Line) : Event → Line × List Sent
  | .plan made => ({ s with table := s.table ++ made }, [])
  | .implement i => ({ s with active := (look (under i s.table)).or s.active }, [])
  | .config v ps => ({ s with configs := putNew s.configs (v, ps) }, [])
  | .state v pos =>
      (s, match s.active with
          | none => []
          | some o => [.stare v (firstGimbal (s.configs.get v)) [task] (some (starePoint o pos)) 0, .record])

/-- A sequence of messages. -/
noncomputable def Line.after (look : List Objective → Option Objective) (task : ℤ) (s : Line) (es : List Event) : Line :=
  es.foldl (fun s e => (s.step look task e).1) s

theorem putNew_get {β : Type} (m : Map β) (x : ℤ × β) (k : ℤ) :
    (putNew m x).get k = if (m.get k).isSome then m.get k else if x.1 = k then some x.2 else none := by
  have hc : Map.get (x :: m) k = if x.1 = k then some x.2 else m.get k := by
    unfold Map.get
    rw [List.find?_cons]
    by_cases h : x.1 = k
    · simp [h]
    · rw [beq_false_of_ne h, if_neg h]
  unfold putNew
  by_cases h : (m.get x.1).isSome
  · rw [if_pos h]
    by_cases hk : (m.get k).isSome
    · rw [if_pos hk]
    · rw [if_neg hk, if_neg]
      · simpa using hk
      · rintro rfl; exact hk h
  · rw [if_neg h, hc]
    by_cases hk : (m.get k).isSome
    · rw [if_pos hk, if_neg]
      rintro rfl; exact h hk
    · rw [if_neg hk]
      split
      · rfl
      · simpa using hk

/-- The options of all requests to plan, in order. -/
def planned : List Event → List (ℤ × Objective)
  | [] => []
  | .plan made :: es => made ++ planned es
  | _ :: es => planned es

variable {look : List Objective → Option Objective}

theorem after_table (task : ℤ) : ∀ (es : List Event) (s : Line), (s.after look task es).table = s.table ++ planned es
  | [], s => by simp [Line.after, planned]
  | e :: es, s => by
      show ((s.step look task e).1.after look task es).table = _
      rw [after_table task es]
      cases e <;> simp [Line.step, planned]

theorem after_active (task : ℤ) : ∀ (es : List Event) (s : Line), (∀ i, Event.implement i ∉ es) → (s.after look task es).active = s.active
  | [], _, _ => rfl
  | e :: es, s, h => by
      show ((s.step look task e).1.after look task es).active = _
      rw [after_active task es _ fun i hi => h i (List.mem_cons_of_mem _ hi)]
      cases e with
      | implement i => exact absurd (List.mem_cons_self) (h i)
      | _ => rfl

/-- The first configuration of a vehicle. -/
def firstConfig (v : ℤ) : List Event → Option (List Payload)
  | [] => none
  | .config w ps :: es => if w = v then some ps else firstConfig v es
  | _ :: es => firstConfig v es

theorem after_configs (task : ℤ) (v : ℤ) : ∀ (es : List Event) (s : Line),
    (s.after look task es).configs.get v = if (s.configs.get v).isSome then s.configs.get v else firstConfig v es
  | [], s => by cases h : s.configs.get v <;> simp [Line.after, firstConfig, h]
  | e :: es, s => by
      show ((s.step look task e).1.after look task es).configs.get v = _
      rw [after_configs task v es]
      cases e with
      | config w ps =>
          simp only [Line.step, firstConfig, putNew_get]
          by_cases h : (s.configs.get v).isSome
          · simp [h]
          · by_cases hw : w = v <;> simp [h, hw]
      | _ => rfl

/-- **C170.**  A vehicle that searches a line, after one option of the task was handed out last: it is told to point the first
gimbal of its first known configuration (0 without) at the point for where it is of what was made under the id of that option; where
more than one was made under it, of one of them. -/
theorem C170_one {task : ℤ} {before since : List Event} {i v : ℤ} {pos : ℂ} {o : Objective}
    (hs : ∀ j, Event.implement j ∉ since) (ho : look (under i (planned before)) = some o) :
    ((Line.after look task {} (before ++ .implement i :: since)).step look task (.state v pos)).2 =
      [.stare v (firstGimbal (firstConfig v (before ++ .implement i :: since))) [task] (some (starePoint o pos)) 0, .record] := by
  have ha : (Line.after look task {} (before ++ .implement i :: since)).active = some o := by
    unfold Line.after
    rw [List.foldl_append, List.foldl_cons]
    show (Line.after look task _ since).active = some o
    rw [after_active task since _ hs]
    show (look (under i (Line.after look task {} before).table)).or _ = some o
    rw [after_table, List.nil_append, ho]
    rfl
  have hc' : (Line.after look task {} (before ++ .implement i :: since)).configs.get v = firstConfig v (before ++ .implement i :: since) := by
    rw [after_configs]; simp [Map.get]
  simp only [Line.step, ha, hc']

/-- **C170.**  Before an option was handed out nothing is sent. -/
theorem C170_silent {task : ℤ} {before : List Event} {v : ℤ} {pos : ℂ} (hs : ∀ j, Event.implement j ∉ before) :
    ((Line.after look task {} before).step look task (.state v pos)).2 = [] := by
  have := after_active (look := look) task before {} hs
  simp only [Line.step, this]

/-- **C170.**  An option under whose id nothing was made changes nothing. -/
theorem C170_unknown (hl : Finds look) {task i : ℤ} {before : List Event} (hi : ∀ o, (i, o) ∉ planned before) :
    Line.after look task {} (before ++ [.implement i]) = Line.after look task {} before := by
  unfold Line.after
  rw [List.foldl_append]
  show Line.mk _ ((look (under i (Line.after look task {} before).table)).or _) _ = Line.after look task {} before
  rw [after_table, List.nil_append]
  have : under i (planned before) = [] := by
    unfold under
    rw [List.map_eq_nil_iff, List.filter_eq_nil_iff]
    rintro ⟨j, o⟩ hm hj
    have : j = i := by simpa using hj
    exact hi o (this ▸ hm)
  rw [this, hl.1]
  rfl

/-- **C170.**  For a task that made one option under the id that was handed out last, as after one request to plan: a vehicle looks at
the line at the same share of its length as the nearest point of the route of the option is of the length of the route. -/
theorem C170_looks_partial (hl : Finds look) {task : ℤ} {before since : List Event} {i v : ℤ} {pos : ℂ}
    {road plan : List ℂ} {o : Objective} (hm : (i, o) ∈ planned before) (hn : ∀ o', (i, o') ∈ planned before → o' = o)
    (ho : setObjective road plan = some o) (hs : ∀ j, Event.implement j ∉ since) :
    ∃ p d, ((Line.after look task {} (before ++ .implement i :: since)).step look task (.state v pos)).2 =
        [.stare v (firstGimbal (firstConfig v (before ++ .implement i :: since))) [task] (some p) 0, .record] ∧
      0 ≤ d ∧ d ≤ len plan ∧
      (∀ e, 0 ≤ e → e ≤ len plan → ‖along plan d - pos‖ ≤ ‖along plan e - pos‖ + 4e-5) ∧
      ‖p - along road (d / len plan * len road)‖ ≤ 2e-6 + 1e-5 * (len road / len plan) + 1e-6 * len road := by
  have hu : ∀ o', o' ∈ under i (planned before) ↔ (i, o') ∈ planned before := by
    intro o'
    unfold under
    rw [List.mem_map]
    constructor
    · rintro ⟨⟨j, x⟩, hx, rfl⟩
      have := List.mem_filter.1 hx
      have hj : j = i := by simpa using this.2
      exact hj ▸ this.1
    · intro hx
      exact ⟨(i, o'), List.mem_filter.2 ⟨hx, by simp⟩, rfl⟩
  obtain ⟨x, hx, hlx⟩ := hl.2 (under i (planned before)) (List.ne_nil_of_mem ((hu o).2 hm))
  obtain rfl := hn x ((hu x).1 hx)
  obtain ⟨d, d0, d1, d2, d3⟩ := C168_share_partial ho pos
  exact ⟨_, d, C170_one hs hlx, d0, d1, d2, d3⟩

/-! ### Planned again -/

/-- Looking ahead, 45 degrees down, from the height `h`. -/
noncomputable def ahead (h : ℝ) : Look := ⟨0, Real.pi / 4, h⟩

theorem ahead_reach (h : ℝ) : reach (ahead h) false = h := by
  have hp := Real.pi_pos
  unfold reach ahead
  rw [if_neg (by rintro (h | h) <;> simp only at h <;> linarith)]
  simp

/-- 1 km to the north. -/
noncomputable def north : List Pt := [pt 0 0, pt 1000 0]

theorem north_raw (h : ℝ) : forwardRaw (ahead h) north = [pt (-h) 0, pt (1000 - h) 0] := by
  have hl : (1e-10 : ℝ) < ‖(pt 1000 0).at_ - (pt 0 0).at_‖ := by
    simp only [pt]; rw [norm_level]; norm_num
  have hc : course (pt 0 0).at_ (pt 1000 0).at_ = 1 := by
    unfold course
    have e : (pt 1000 0).at_ - (pt 0 0).at_ = ((1000 : ℝ) : ℂ) := by apply Complex.ext <;> simp [pt]
    rw [e, norm_real]; norm_num
  have he : exp (-(((ahead h).azimuth : ℂ) * I)) = 1 := by simp [ahead]
  have hat : ∀ p : Pt, (beside (pt 0 0) (pt 1000 0) p (Real.pi - (ahead h).azimuth) (reach (ahead h) false)).at_ = p.at_ - h := by
    intro p
    have := beside_end hl (ahead h) p
    rw [hc, he, ahead_reach] at this
    rw [ahead_reach]
    linear_combination -this
  have hz : ∀ p : Pt, (beside (pt 0 0) (pt 1000 0) p (Real.pi - (ahead h).azimuth) (reach (ahead h) false)).z = p.z := by
    intro p
    simp [beside, pt]
  unfold north
  rw [forwardRaw, besideFrom]
  congr 1
  · apply Pt.ext
    · rw [hat]; apply Complex.ext <;> simp [pt]
    · rw [hz]; rfl
    · rfl
  · congr 1
    apply Pt.ext
    · rw [hat]; apply Complex.ext <;> simp [pt]
    · rw [hz]; rfl
    · rfl

theorem north_plan {h : ℝ} (hh : 1 ≤ |1000 - h|) : planFor (ahead h) 200 north = .ok [pt (-h) 0, pt (1000 - h) 0] := by
  have p1 : preProcess north = north := by simp [north, preProcess, straighten]
  have c1 : chosen 200 north = north := by
    unfold chosen
    rw [p1]
    apply (C165_plan north _).2.2.2.2.1
    simp [north]
  have a1 : north.IsChain Apart := by
    refine List.isChain_cons_cons.2 ⟨?_, by simp⟩
    unfold Apart
    simp only [pt]
    rw [norm_level]; norm_num
  have a2 : [pt (-h) 0, pt (1000 - h) 0].IsChain Apart := by
    refine List.isChain_cons_cons.2 ⟨?_, by simp⟩
    unfold Apart
    simp only [pt]
    rw [norm_level, sub_zero]
    refine le_trans (by norm_num) hh
  have z1 := (C166_removed_partial _).2.2.2 a1
  have z2 := (C166_removed_partial _).2.2.2 a2
  unfold planFor offsetForward
  rw [c1, p1, z1]
  show (cleanUp _ (removeZero (forwardRaw (ahead h) north))).bind _ = _
  rw [north_raw, z2]
  show (cleanUp [(pt 0 0).at_, (pt 1000 0).at_] _).bind _ = _
  rw [clean_two, Outcome.bind_ok, z2]

/-- The line and a route of one leg, along the first coordinate. -/
theorem leg_spec (x : ℝ) : len [(pt x 0).at_, (pt (1000 + x) 0).at_] = 1000 ∧
    ∀ d, 0 ≤ d → d ≤ 1000 → along [(pt x 0).at_, (pt (1000 + x) 0).at_] d = ((x + d : ℝ) : ℂ) := by
  have n : ‖(pt (1000 + x) 0).at_ - (pt x 0).at_‖ = 1000 := by
    simp only [pt]; rw [norm_level, show 1000 + x - x = 1000 by ring]; norm_num
  constructor
  · rw [len_cons, len_single, n]; norm_num
  · intro d d0 d1
    rw [along, if_pos (by rw [n]; exact d1), n]
    apply Complex.ext
    · simp only [pt, add_re, sub_re, re_ofReal_mul, ofReal_re]; ring
    · simp only [pt, add_im, sub_im, im_ofReal_mul, ofReal_im]; ring

/-- Where a vehicle at `y` looks that follows the plan from `x` on. -/
theorem leg_looks {x y : ℝ} {o : Objective} (ho : setObjective (north.map (·.at_)) [(pt x 0).at_, (pt (1000 + x) 0).at_] = some o) :
    ∃ d, 0 ≤ d ∧ d ≤ 1000 ∧ (∀ e, 0 ≤ e → e ≤ 1000 → |x + d - y| ≤ |x + e - y| + 4e-5) ∧ ‖starePoint o (y : ℂ) - (d : ℂ)‖ ≤ 0.01 := by
  obtain ⟨n1, n2⟩ := leg_spec 0
  obtain ⟨l1, l2⟩ := leg_spec x
  have hN : north.map (·.at_) = [(pt 0 0).at_, (pt (1000 + 0) 0).at_] := by simp [north]
  obtain ⟨d, d0, d1, hd, hx⟩ := C168_share_partial ho (y : ℂ)
  rw [l1] at d1 hd hx
  rw [hN, n1] at hx
  refine ⟨d, d0, d1, ?_, ?_⟩
  · intro e e0 e1
    have := hd e e0 e1
    rw [l2 d d0 d1, l2 e e0 e1, ← ofReal_sub, ← ofReal_sub, norm_real, norm_real] at this
    exact this
  · rw [show d / 1000 * 1000 = d by ring, n2 d d0 d1, zero_add] at hx
    refine hx.trans (by norm_num)

/-- **C170, what fails.**  A straight line of 1 km is searched looking ahead, 45 degrees down.  The task is planned for a vehicle that
flies at 100 m, then for one that flies at 2000 m; the option of the second request is handed out.  Half way along its route the
vehicle is to look at the middle of the line, and is told to look 499 m away or more, as what was made first stays under the id of
the option and a search for it may give what was made first. -/
theorem C170_again_violated : Finds List.head? ∧ ∃ (low high : Objective) (p : ℂ),
    (∃ plan, planFor (ahead 100) 200 north = .ok plan ∧ setObjective (north.map (·.at_)) (plan.map (·.at_)) = some low) ∧
    (∃ plan, planFor (ahead 2000) 200 north = .ok plan ∧ setObjective (north.map (·.at_)) (plan.map (·.at_)) = some high ∧
      along (plan.map (·.at_)) 500 = -1500) ∧
    ((Line.after List.head? 7 {} [.plan [(1, low)], .plan [(1, high)], .implement 1]).step List.head? 7 (.state 4 (-1500))).2 =
      [.stare 4 0 [7] (some p) 0, .record] ∧
    ‖starePoint high (-1500) - 500‖ ≤ 0.02 ∧ 499 ≤ ‖p - 500‖ := by
  have hN : north.map (·.at_) = [(pt 0 0).at_, (pt (1000 + 0) 0).at_] := by simp [north]
  have hNl : len (north.map (·.at_)) = 1000 := by rw [hN]; exact (leg_spec 0).1
  have e1 : ([pt (-100) 0, pt (1000 - 100) 0].map (·.at_)) = [(pt (-100) 0).at_, (pt (1000 + -100) 0).at_] := by norm_num
  have e2 : ([pt (-2000) 0, pt (1000 - 2000) 0].map (·.at_)) = [(pt (-2000) 0).at_, (pt (1000 + -2000) 0).at_] := by norm_num
  obtain ⟨low, hlow⟩ := C168_set (road := north.map (·.at_)) (plan := [(pt (-100) 0).at_, (pt (1000 + -100) 0).at_])
    (by rw [hNl]; norm_num) (by rw [(leg_spec (-100)).1]; norm_num)
  obtain ⟨high, hhigh⟩ := C168_set (road := north.map (·.at_)) (plan := [(pt (-2000) 0).at_, (pt (1000 + -2000) 0).at_])
    (by rw [hNl]; norm_num) (by rw [(leg_spec (-2000)).1]; norm_num)
  have hy : ((-1500 : ℝ) : ℂ) = -1500 := by push_cast; rfl
  refine ⟨⟨rfl, fun l hl => by cases l with | nil => exact absurd rfl hl | cons a l => exact ⟨a, List.mem_cons_self, rfl⟩⟩, low, high, starePoint low (-1500), ⟨_, north_plan (by norm_num), by rw [e1]; exact hlow⟩,
    ⟨_, north_plan (by norm_num), by rw [e2]; exact hhigh, ?_⟩, ?_, ?_, ?_⟩
  · rw [e2, (leg_spec (-2000)).2 500 (by norm_num) (by norm_num)]; push_cast; norm_num
  · exact C170_one (before := [.plan [(1, low)], .plan [(1, high)]]) (since := []) (by simp) (by simp [planned, under])
  · obtain ⟨d, d0, d1, hd, hx⟩ := leg_looks (y := -1500) hhigh
    have := hd 500 (by norm_num) (by norm_num)
    norm_num at this
    rw [hy] at hx
    have h5 : ‖((d : ℝ) : ℂ) - 500‖ ≤ 4e-5 := by
      have e : ((d : ℝ) : ℂ) - 500 = ((d - 500 : ℝ) : ℂ) := by push_cast; ring
      rw [e, norm_real, Real.norm_eq_abs]
      rw [show -2000 + d + 1500 = d - 500 by ring] at this
      norm_num
      exact this
    have := norm_sub_le_norm_sub_add_norm_sub (starePoint high (-1500)) ((d : ℝ) : ℂ) 500
    norm_num at hx h5 ⊢
    linarith
  · obtain ⟨d, d0, d1, hd, hx⟩ := leg_looks (y := -1500) hlow
    have := hd 0 (by norm_num) (by norm_num)
    norm_num at this
    rw [hy] at hx
    rw [abs_of_nonneg (by linarith)] at this
    have h5 : 499.5 ≤ ‖((d : ℝ) : ℂ) - 500‖ := by
      have e : ((d : ℝ) : ℂ) - 500 = ((d - 500 : ℝ) : ℂ) := by push_cast; ring
      rw [e, norm_real, Real.norm_eq_abs, abs_of_nonpos (by linarith)]
      norm_num at this ⊢
      linarith
    have := norm_sub_le_norm_sub_add_norm_sub ((d : ℝ) : ℂ) (starePoint low (-1500)) 500
    rw [norm_sub_rev ((d : ℝ) : ℂ) (starePoint low (-1500))] at this
    norm_num at hx h5 ⊢
    linarith

/-- **C170.**  Where the last is found, as with the GNU library, what the last request made is what counts. -/
theorem C170_last {task : ℤ} {before since : List Event} {made : List (ℤ × Objective)} {i v : ℤ} {pos : ℂ} {o : Objective}
    (hs : ∀ j, Event.implement j ∉ since) (hn : (made.map (·.1)).Nodup) (hm : (i, o) ∈ made) :
    ((Line.after List.getLast? task {} ((before ++ [.plan made]) ++ .implement i :: since)).step List.getLast? task (.state v pos)).2 =
      [.stare v (firstGimbal (firstConfig v ((before ++ [.plan made]) ++ .implement i :: since))) [task] (some (starePoint o pos)) 0,
        .record] := by
  refine C170_one hs ?_
  have hp : ∀ es : List Event, planned (es ++ [.plan made]) = planned es ++ made := by
    intro es
    induction es with
    | nil => simp [planned]
    | cons e es ih => cases e <;> simp [planned, ih]
  have hu : ∀ l : List (ℤ × Objective), (l.map (·.1)).Nodup → (i, o) ∈ l → under i l = [o] := by
    intro l
    induction l with
    | nil => intro _ h; exact absurd h (List.not_mem_nil)
    | cons x l ih =>
        intro hn hm
        rw [List.map_cons, List.nodup_cons] at hn
        rcases List.mem_cons.1 hm with rfl | hm
        · have : l.filter (·.1 == i) = [] := by
            rw [List.filter_eq_nil_iff]
            intro y hy hyi
            exact hn.1 (List.mem_map.2 ⟨y, hy, by simpa using hyi⟩)
          simp [under, this]
        · have hx : x.1 ≠ i := fun h => hn.1 (List.mem_map.2 ⟨_, hm, h.symm⟩)
          have := ih hn.2 hm
          unfold under at this ⊢
          rw [List.filter_cons_of_neg (by simpa using hx), this]
  rw [hp]
  have : under i (planned before ++ made) = under i (planned before) ++ under i made := by simp [under]
  rw [this, hu made hn hm, List.getLast?_concat]

/-- **C170, what fails.**  What is looked at changes when another option of the task is handed out, whether or not the vehicle that is
on the task has changed its way. -/
theorem C170_switch_violated (hl : Finds look) {task v : ℤ} {pos : ℂ} {o o' : Objective} (h : starePoint o pos ≠ starePoint o' pos) :
    ((Line.after look task {} [.plan [(1, o), (2, o')], .implement 1]).step look task (.state v pos)).2 ≠
    ((Line.after look task {} [.plan [(1, o), (2, o')], .implement 1, .implement 2]).step look task (.state v pos)).2 := by
  have h1 : ∀ x, look [x] = some x := fun x => by
    obtain ⟨y, hy, e⟩ := hl.2 [x] (by simp)
    rw [List.mem_singleton] at hy
    rw [e, hy]
  rw [show (Line.after look task {} [.plan [(1, o), (2, o')], .implement 1]) =
      Line.after look task {} ([.plan [(1, o), (2, o')]] ++ .implement 1 :: []) from rfl,
    show (Line.after look task {} [.plan [(1, o), (2, o')], .implement 1, .implement 2]) =
      Line.after look task {} ([.plan [(1, o), (2, o')], .implement 1] ++ .implement 2 :: []) from rfl,
    C170_one (o := o) (by simp) (by simp [planned, under, h1]), C170_one (o := o') (by simp) (by simp [planned, under, h1])]
  intro hh
  simp only [List.cons.injEq, Sent.stare.injEq, Option.some.injEq] at hh
  exact h hh.1.2.2.2.1

/-- The hypotheses can be met: the task is planned for the lower height, its option handed out, and a vehicle with a gimbal 3 looks
at the middle of the line half way along its route. -/
example : ∃ o : Objective, setObjective (north.map (·.at_)) [(pt (-100) 0).at_, (pt (1000 + -100) 0).at_] = some o ∧
    ∃ p, ((Line.after List.getLast? 7 {} [.config 4 [.camera 2 0, .gimbal 3], .plan [(1, o)], .implement 1]).step List.getLast? 7
      (.state 4 400)).2 = [.stare 4 3 [7] (some p) 0, .record] ∧ ‖p - 500‖ ≤ 0.02 := by
  have hN : north.map (·.at_) = [(pt 0 0).at_, (pt (1000 + 0) 0).at_] := by simp [north]
  have hNl : len (north.map (·.at_)) = 1000 := by rw [hN]; exact (leg_spec 0).1
  obtain ⟨o, ho⟩ := C168_set (road := north.map (·.at_)) (plan := [(pt (-100) 0).at_, (pt (1000 + -100) 0).at_])
    (by rw [hNl]; norm_num) (by rw [(leg_spec (-100)).1]; norm_num)
  refine ⟨o, ho, starePoint o 400, ?_, ?_⟩
  · exact C170_one (before := [.config 4 [.camera 2 0, .gimbal 3], .plan [(1, o)]]) (since := []) (by simp) (by simp [planned, under])
  · obtain ⟨d, d0, d1, hd, hx⟩ := leg_looks (y := 400) ho
    have := hd 500 (by norm_num) (by norm_num)
    norm_num at this
    rw [show ((400 : ℝ) : ℂ) = 400 by norm_num] at hx
    have h5 : ‖((d : ℝ) : ℂ) - 500‖ ≤ 4e-5 := by
      have e : ((d : ℝ) : ℂ) - 500 = ((d - 500 : ℝ) : ℂ) := by push_cast; ring
      rw [e, norm_real, Real.norm_eq_abs]
      rw [show -100 + d - 400 = d - 500 by ring] at this
      norm_num
      exact this
    have := norm_sub_le_norm_sub_add_norm_sub (starePoint o 400) ((d : ℝ) : ℂ) 500
    norm_num at hx h5 ⊢
    linarith

end Verif.Dpss
