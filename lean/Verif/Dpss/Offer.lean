import Verif.Dpss.SteerNear
import Verif.Dpss.Cases

/-!
# The options of a line search (C169)

`CmasiLineSearchTaskService::isCalculateOption` and `ImpactLineSearchTaskService::isCalculateOption`: what a published option says of
its route.  The ids of the options and the composition are those of C96.
-/

namespace Verif.Dpss

open Complex
open Verif.Stare (len len_nil len_single len_cons len_nonneg)

/-- `distance_m`, `startHeading_deg` and `endHeading_deg` (CmasiLineSearchTaskService.cpp 356-358). -/
structure Walk where
  dist : ℝ
  startHeading : ℝ
  endHeading : ℝ

/-- DpssDataTypes.h 49, in degrees. -/
noncomputable def headingDeg (p q : ℂ) : ℝ := arg (q - p) * (180 / Real.pi)

/-- CmasiLineSearchTaskService.cpp 359-389 (482-512) and ImpactLineSearchTaskService.cpp 374-404 (445-473): the waypoints after the
first; `first`: `itWaypointlast` is the first.  `orElse`: the second of the two tests is made only if the first fails, as in the
latter. -/
noncomputable def walkFrom (orElse : Bool) : Bool → ℂ → Walk → List ℂ → Walk
  | _, _, w, [] => w
  | first, p, w, q :: l =>
      walkFrom orElse false q
        { dist := w.dist + ‖q - p‖
          startHeading := if first then headingDeg p q else w.startHeading
          endHeading := if l.isEmpty ∧ ¬ (orElse ∧ first) then headingDeg p q else w.endHeading } l

/-- A published option, with its route. -/
structure Offer where
  cost : ℤ
  start : Pt
  startHeading : ℝ
  finish : Pt
  endHeading : ℝ
  route : List Pt

/-- CmasiLineSearchTaskService.cpp 328-414 and ImpactLineSearchTaskService.cpp 348-431: the option for a plan with at least two
waypoints.  The conversion to an integer (396) cuts off.  Simplified: waypoints are given by their coordinates rather than by latitude
and longitude, and times of more than 2^63 ms, for which the conversion is not defined, are not looked at. -/
noncomputable def offer (orElse : Bool) (speed : ℝ) : List Pt → Option Offer
  | a :: b :: l =>
      let w := walkFrom orElse true a.at_ ⟨0, 0, 0⟩ ((b :: l).map (·.at_))
      some { cost := ⌊(if 0 < speed then w.dist / speed else 0) * 1000⌋, start := a, startHeading := w.startHeading,
             finish := (b :: l).getLast (by simp), endHeading := w.endHeading, route := a :: b :: l }
  | _ => none

/-- CmasiLineSearchTaskService.cpp 282-322 with `step` 200 and ImpactLineSearchTaskService.cpp 304-340 with `step` 50: the points for
which waypoints are laid out. -/
noncomputable def chosen (step : ℝ) (road : List Pt) : List Pt :=
  (planQuickly (preProcess road) (max 2 ⌊lengthOf (road.map (·.at_)) / step⌋)).map (·.pt)

/-- CmasiLineSearchTaskService.cpp 282-326: the plan in the direction of the points. -/
noncomputable def planFor (k : Look) (step : ℝ) (road : List Pt) : Outcome (List Pt) :=
  offsetForward k ((preProcess road).map (·.at_)) (chosen step road)

/-- ImpactLineSearchTaskService.cpp 342-344: the plan in the other direction.  `OffsetPlanForward` has already been through the points
(16); `m_SameSidePlan` is 0 (Dpss.cpp 28). -/
noncomputable def planBack (k : Look) (step : ℝ) (road : List Pt) : Outcome (List Pt) :=
  offsetReverse k false ((preProcess road).map (·.at_)) (removeZero (chosen step road))

/-- CmasiLineSearchTaskService.cpp 255-580: the options that are published, and whether they become part of the composition. -/
noncomputable def cmasi (k : Look) (speed : ℝ) (both : Bool) (road : List Pt) : Outcome (List Offer × Bool) :=
  if road.length < 2 then .ok ([], false)
  else (planFor k 200 road).bind fun p =>
    match offer false speed p with
    | none => .ok ([], false)
    | some o =>
        if both then
          (planFor k 200 road.reverse).bind fun p' =>
            match offer false speed p' with
            | none => .ok ([o], false)
            | some o' => .ok ([o, o'], true)
        else .ok ([o], true)

/-- ImpactLineSearchTaskService.cpp 269-518. -/
noncomputable def impact (k : Look) (speed : ℝ) (both : Bool) (road : List Pt) : Outcome (List Offer × Bool) :=
  if road.length < 2 then .ok ([], false)
  else (planFor k 50 road).bind fun p => (planBack k 50 road).bind fun p' =>
    match offer true speed p, offer true speed p' with
    | some o, some o' => .ok (if both then [o, o'] else [o], true)
    | _, _ => .ok ([], false)

/-! ### What an option says -/

theorem walkFrom_spec (e : Bool) : ∀ (l : List ℂ) (f : Bool) (p : ℂ) (w : Walk), l ≠ [] →
    (walkFrom e f p w l).dist = w.dist + len (p :: l) ∧
    (walkFrom e f p w l).startHeading = (if f then headingDeg p (l.headD 0) else w.startHeading) ∧
    (2 ≤ l.length ∨ ¬ (e = true ∧ f = true) → (walkFrom e f p w l).endHeading = headingDeg ((p :: l).getD (l.length - 1) 0) ((p :: l).getD l.length 0)) ∧
    (l.length = 1 → e = true → f = true → (walkFrom e f p w l).endHeading = w.endHeading)
  | [], _, _, _, h => absurd rfl h
  | [q], f, p, w, _ => by
      refine ⟨by simp [walkFrom, len_cons], by simp [walkFrom], ?_, ?_⟩
      · intro h
        rcases h with h | h
        · simp at h
        · simp only [walkFrom, List.isEmpty_nil, true_and, h, not_false_iff, if_true]
          rfl
      · rintro _ rfl rfl; simp [walkFrom]
  | q :: x :: l, f, p, w, _ => by
      rw [walkFrom]
      obtain ⟨h1, h2, h3, _⟩ := walkFrom_spec e (x :: l) false q
        { dist := w.dist + ‖q - p‖
          startHeading := if f then headingDeg p q else w.startHeading
          endHeading := if (x :: l).isEmpty ∧ ¬ (e ∧ f) then headingDeg p q else w.endHeading } (by simp)
      refine ⟨by rw [h1, len_cons p]; ring, by rw [h2]; simp, ?_, ?_⟩
      · intro _
        rw [h3 (Or.inr (by simp))]
        simp
      · intro h; simp at h

/-- **C169.**  What an option says of its route: it starts at the first and ends at the last waypoint, the headings are those of
the first and the last leg, and the cost is the time for the length of the route in milliseconds, less what is cut off.  (For the
options of `ImpactLineSearchTaskService` the heading at the end only if there are three waypoints or more.) -/
theorem C169_says_partial {e : Bool} {speed : ℝ} {plan : List Pt} {o : Offer} (h : offer e speed plan = some o) :
    2 ≤ plan.length ∧ o.route = plan ∧ plan.head? = some o.start ∧ plan.getLast? = some o.finish ∧
    (∀ p q l, plan = p :: q :: l → o.startHeading = arg (q.at_ - p.at_) * (180 / Real.pi)) ∧
    (e = false ∨ 3 ≤ plan.length → ∀ p q l, plan = l ++ [p, q] → o.endHeading = arg (q.at_ - p.at_) * (180 / Real.pi)) ∧
    (0 < speed → o.cost ≤ len (plan.map (·.at_)) / speed * 1000 ∧ len (plan.map (·.at_)) / speed * 1000 < o.cost + 1) ∧
    (speed ≤ 0 → o.cost = 0) := by
  match plan, h with
  | a :: b :: l, h =>
      simp only [offer, Option.some.injEq] at h
      obtain ⟨h1, h2, h3, _⟩ := walkFrom_spec e ((b :: l).map (·.at_)) true a.at_ ⟨0, 0, 0⟩ (by simp)
      subst h
      refine ⟨by simp, rfl, rfl, ?_, ?_, ?_, ?_, ?_⟩
      · simp only [List.getLast?_cons_cons, List.getLast?_eq_some_getLast (show b :: l ≠ [] by simp)]
      · rintro p q l' h'
        obtain ⟨rfl, rfl, rfl⟩ : a = p ∧ b = q ∧ l = l' := by simpa using h'
        exact h2
      · intro hc p q l' h'
        have := h3 (by
          rcases hc with rfl | hc
          · right; simp
          · left; simpa using hc)
        refine this.trans ?_
        have e1 : a.at_ :: (b :: l).map (·.at_) = (l' ++ [p, q]).map (·.at_) := by rw [← h']; rfl
        have e2 : ((b :: l).map (fun x : Pt => x.at_)).length = l'.length + 1 := by
          have := congrArg List.length h'
          simp at this ⊢; omega
        rw [e1, e2]
        simp [headingDeg, List.getD_eq_getElem?_getD]
      · intro hs
        rw [h1, zero_add]
        simp only [hs, if_true]
        exact ⟨Int.floor_le _, Int.lt_floor_add_one _⟩
      · intro hs
        simp [not_lt.2 hs]
  | [], h => simp [offer] at h
  | [_], h => simp [offer] at h

/-- **C169.**  There is an option exactly for a plan of two waypoints or more. -/
theorem C169_some (e : Bool) (speed : ℝ) (plan : List Pt) : (∃ o, offer e speed plan = some o) ↔ 2 ≤ plan.length := by
  match plan with
  | [] => simp [offer]
  | [_] => simp [offer]
  | _ :: _ :: _ => simp [offer]

/-! ### From the points of the task to its options -/

theorem offset_length {k : Look} {road : List ℂ} {l p : List Pt} (h : offsetForward k road l = .ok p) : p.length ≤ l.length := by
  have hr := (C166_removed_partial l).1.length_le
  unfold offsetForward at h
  split at h
  · simp only [Outcome.ok.injEq] at h; subst h; simp
  · rename_i a he
    simp only [Outcome.ok.injEq] at h; subst h
    rw [he] at hr; exact hr
  · rename_i a b l' he
    rw [he] at hr
    cases road with
    | nil => simp [cleanUp, Outcome.bind] at h
    | cons r road =>
        simp only [cleanUp, Outcome.bind_ok, Outcome.ok.injEq] at h
        subst h
        refine (C166_removed_partial _).1.length_le.trans ?_
        have h1 := (C166_removed_partial (forwardRaw k (a :: b :: l'))).1.length_le
        rw [forwardRaw_length] at h1
        refine le_trans ?_ (h1.trans hr)
        set m := removeZero (forwardRaw k (a :: b :: l')) with hm
        rcases Nat.lt_or_ge m.length 2 with h2 | h2
        · rw [show m.length - 2 = 0 by omega]; exact le_refl _
        · obtain ⟨p, e1, _, e2, _⟩ := C167_clean (r := r) (road := road) h2
          simp only [cleanUp, Outcome.ok.injEq] at e1
          rw [e1]; exact e2

theorem offsetReverse_length {k : Look} {s : Bool} {road : List ℂ} {l p : List Pt} (h : offsetReverse k s road l = .ok p) :
    p.length ≤ l.length := by
  have hr := (C166_removed_partial l).1.length_le
  unfold offsetReverse at h
  split at h
  · simp only [Outcome.ok.injEq] at h; subst h; simp
  · simp only [Outcome.ok.injEq] at h; subst h; simp
  · rename_i a b l' he
    rw [he] at hr
    cases road with
    | nil => simp [cleanUp, Outcome.bind] at h
    | cons r road =>
        simp only [cleanUp, Outcome.bind_ok, Outcome.ok.injEq] at h
        subst h
        refine (C166_removed_partial _).1.length_le.trans ?_
        rw [List.length_reverse]
        have h1 := (C166_removed_partial (reverseRaw k s (a :: b :: l'))).1.length_le
        unfold reverseRaw at h1
        rw [forwardRaw_length, List.length_reverse] at h1
        refine le_trans ?_ (h1.trans hr)
        set m := removeZero (reverseRaw k s (a :: b :: l')) with hm
        rw [show removeZero (forwardRaw { azimuth := if s = true then -k.azimuth else k.azimuth, elevation := k.elevation, altitude := k.altitude }
          (a :: b :: l').reverse) = m from rfl]
        rcases Nat.lt_or_ge m.reverse.length 2 with h2 | h2
        · rw [show m.reverse.length - 2 = 0 by omega, cleanLoop, List.length_reverse]
        · obtain ⟨p, e1, _, e2, _⟩ := C167_clean (r := r) (road := road) h2
          simp only [cleanUp, Outcome.ok.injEq] at e1
          rw [e1]
          rw [List.length_reverse] at e2; exact e2

theorem straighten_length : ∀ (l : List Pt) (a : Pt), (straighten a l).length ≤ l.length
  | [], _ => by simp [straighten]
  | [b], _ => by simp [straighten]
  | b :: c :: l, a => by
      rw [straighten]
      split
      · exact (straighten_length (c :: l) a).trans (by simp)
      · have := straighten_length (c :: l) b
        simpa using this

theorem chosen_length (step : ℝ) (road : List Pt) : (chosen step road).length ≤ road.length := by
  have h := (C165_plan (preProcess road) (max 2 ⌊lengthOf (road.map (·.at_)) / step⌋)).1.length_le
  refine h.trans ?_
  cases road with
  | nil => simp [preProcess]
  | cons a l => simpa [preProcess] using straighten_length l a

/-- **C169.**  The options of a line search, in the order in which they are published: for its points as they come and, if both
directions are wanted, for the points in the opposite order.  They become part of the composition if all of them can be made. -/
theorem C169_cmasi {k : Look} {speed : ℝ} {both : Bool} {road : List Pt} (hr : 2 ≤ road.length) :
    ∃ p p', planFor k 200 road = .ok p ∧ planFor k 200 road.reverse = .ok p' ∧
      ∃ os done, cmasi k speed both road = .ok (os, done) ∧
      (done = true ↔ 2 ≤ p.length ∧ (both = true → 2 ≤ p'.length)) ∧
      (done = true → os.map (·.route) = if both then [p, p'] else [p]) ∧
      ∀ o ∈ os, offer false speed o.route = some o := by
  have hne : ∀ l : List Pt, 2 ≤ l.length → (preProcess l).map (·.at_) ≠ [] := by
    intro l hl
    cases l with
    | nil => simp at hl
    | cons a l => simp [preProcess]
  obtain ⟨p, hp⟩ := (C167_total k (hne road hr) (chosen 200 road)).1
  obtain ⟨p', hp'⟩ := (C167_total k (hne road.reverse (by simpa using hr)) (chosen 200 road.reverse)).1
  have hoff : ∀ q o, offer false speed q = some o → o.route = q := fun q o h => (C169_says_partial h).2.1
  refine ⟨p, p', hp, hp', ?_⟩
  unfold cmasi
  rw [if_neg (by omega), planFor, hp, Outcome.bind_ok, planFor, hp']
  simp only [Outcome.bind_ok]
  cases ho : offer false speed p with
  | none =>
      refine ⟨[], false, rfl, ?_, by simp, by simp⟩
      have : ¬ 2 ≤ p.length := fun h => by
        obtain ⟨o, h'⟩ := (C169_some false speed p).2 h
        rw [ho] at h'; simp at h'
      simp [this]
  | some o =>
      have h2 : 2 ≤ p.length := (C169_some false speed p).1 ⟨o, ho⟩
      cases both with
      | false =>
          refine ⟨[o], true, rfl, by simp [h2], by simp [hoff p o ho], ?_⟩
          intro x hx
          obtain rfl : x = o := by simpa using hx
          rw [hoff p x ho, ho]
      | true =>
          simp only [if_true]
          cases ho' : offer false speed p' with
          | none =>
              have : ¬ 2 ≤ p'.length := fun h => by
                obtain ⟨o, h'⟩ := (C169_some false speed p').2 h
                rw [ho'] at h'; simp at h'
              refine ⟨[o], false, rfl, by simp [this], by simp, ?_⟩
              intro x hx
              obtain rfl : x = o := by simpa using hx
              rw [hoff p x ho, ho]
          | some o' =>
              have h2' : 2 ≤ p'.length := (C169_some false speed p').1 ⟨o', ho'⟩
              refine ⟨[o, o'], true, rfl, by simp [h2, h2'], by simp [hoff p o ho, hoff p' o' ho'], ?_⟩
              intro x hx
              rcases List.mem_cons.1 hx with rfl | hx
              · rw [hoff p x ho, ho]
              · obtain rfl : x = o' := by simpa using hx
                rw [hoff p' x ho', ho']

/-- **C169, what fails.**  For a task of two points `ImpactLineSearchTaskService` publishes options that say that they end heading
north, whatever the direction of the line. -/
theorem C169_straight_violated {k : Look} {speed : ℝ} {both : Bool} {a b : Pt} {os : List Offer} {done : Bool}
    (h : impact k speed both [a, b] = .ok (os, done)) : ∀ o ∈ os, o.endHeading = 0 := by
  have key : ∀ p o, p.length ≤ 2 → offer true speed p = some o → o.endHeading = 0 := by
    intro p o hp ho
    match p with
    | [] => simp [offer] at ho
    | [_] => simp [offer] at ho
    | [x, y] =>
        simp only [offer, Option.some.injEq] at ho
        subst ho
        simp [walkFrom]
    | _ :: _ :: _ :: _ => simp at hp
  unfold impact at h
  rw [if_neg (by simp), Outcome.bind_eq_ok] at h
  obtain ⟨p, hp, h⟩ := h
  rw [Outcome.bind_eq_ok] at h
  obtain ⟨p', hp', h⟩ := h
  have l1 : p.length ≤ 2 := (offset_length hp).trans (chosen_length 50 [a, b])
  have l2 : p'.length ≤ 2 :=
    ((offsetReverse_length hp').trans (C166_removed_partial _).1.length_le).trans (chosen_length 50 [a, b])
  split at h
  · rename_i o o' ho ho'
    simp only [Outcome.ok.injEq, Prod.mk.injEq] at h
    obtain ⟨rfl, _⟩ := h
    intro x hx
    cases both with
    | true =>
        rcases List.mem_cons.1 hx with rfl | hx
        · exact key p _ l1 ho
        · obtain rfl : x = o' := by simpa using hx
          exact key p' _ l2 ho'
    | false =>
        obtain rfl : x = o := by simpa using hx
        exact key p _ l1 ho
  · simp only [Outcome.ok.injEq, Prod.mk.injEq] at h
    obtain ⟨rfl, _⟩ := h
    simp

end Verif.Dpss
