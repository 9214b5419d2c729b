import Verif.Routes.Props

/-! What the entries of a cost matrix of the route aggregator are about, for any history. -/

namespace Verif.Routes

open Verif

theorem number_pair {m : MRoute} : ∀ {next : Int} {ls : List (Point × Point × Pair)}, m ∈ number next ls → ∃ l ∈ ls, m.pair = l.2.2
  | _, [], h => by simp [number] at h
  | next, l :: ls, h => by
    simp only [number, List.mem_cons] at h
    rcases h with rfl | h
    · exact ⟨l, by simp, rfl⟩
    · obtain ⟨l', h1, h2⟩ := number_pair h
      exact ⟨l', by simp [h1], h2⟩

theorem legs_pair {v : Int} {p : Point} {os : List Opt} {l : Point × Point × Pair} (h : l ∈ legs v p os) :
    l.2.2.vehicle = v ∧ ∃ o ∈ os, l.2.2.task = o.task ∧ l.2.2.option = o.option := by
  unfold legs at h
  rcases List.mem_append.1 h with h | h
  · obtain ⟨o, ho, rfl⟩ := List.mem_map.1 h
    exact ⟨rfl, o, ho, rfl, rfl⟩
  · obtain ⟨a, -, h⟩ := List.mem_flatMap.1 h
    obtain ⟨b, hb, rfl⟩ := List.mem_map.1 h
    exact ⟨rfl, b.1, (List.mem_zipIdx' (List.mem_filter.1 hb).1).2 ▸ List.getElem_mem _, rfl, rfl⟩

theorem vehicleReqs_pair {s : St} {r : AutoReq} : ∀ {vs : List Int} {next : Int} {q : VReq}, q ∈ vehicleReqs s r vs next →
    q.vehicle ∈ vs ∧ ∀ m ∈ q.routes, m.pair.vehicle = q.vehicle ∧
      ∃ o ∈ eligible s.options r.tasks q.vehicle, m.pair.task = o.task ∧ m.pair.option = o.option
  | [], _, _, h => by simp [vehicleReqs] at h
  | v :: vs, next, q, h => by
    unfold vehicleReqs at h
    cases e : startOf s r v with
    | none =>
      rw [e] at h
      obtain ⟨h1, h2⟩ := vehicleReqs_pair h
      exact ⟨by simp [h1], h2⟩
    | some p =>
      rw [e] at h
      rcases List.mem_cons.1 h with rfl | h
      · refine ⟨by simp, ?_⟩
        intro m hm
        obtain ⟨l, hl, e⟩ := number_pair hm
        obtain ⟨h1, o, h2, h3, h4⟩ := legs_pair hl
        exact ⟨by rw [e]; exact h1, o, h2, by rw [e]; exact h3, by rw [e]; exact h4⟩
      · obtain ⟨h1, h2⟩ := vehicleReqs_pair h
        exact ⟨by simp [h1], h2⟩

theorem sent_split {s : St} {o : Out} (h : List In) (ho : o ∈ sent s h) : ∃ A i B, h = A ++ i :: B ∧ o ∈ reply s A i := by
  induction h using snocRec with
  | nil => simp [sent] at ho
  | append_singleton h i ih =>
    rw [sent_snoc, List.mem_append] at ho
    rcases ho with ho | ho
    · obtain ⟨A, j, B, e, hr⟩ := ih ho
      exact ⟨A, j, B ++ [i], by rw [e]; simp, hr⟩
    · exact ⟨h, i, [], rfl, ho⟩

theorem mem_requestsOf {h : List In} {r : AutoReq} (hr : r ∈ requestsOf h) : .request r ∈ h := by
  obtain ⟨i, hi, e⟩ := List.mem_filterMap.1 hr
  cases i <;> simp only [reduceCtorEq, Option.some.injEq] at e
  subst e; exact hi

/-- What routes were asked for: each is for a vehicle of the request, if it names some, to an option of one of its tasks for which the
vehicle is eligible. -/
theorem asked_leg (d : Point → Point → Int) (h : List In) (k : Int) (reqs : List VReq) (hs : .ask k reqs ∈ sent (start d) h) :
    ∃ r, 1 ≤ k ∧ (requestsOf h)[(k - 1).toNat]? = some r ∧ ∀ m ∈ routesOf reqs, (r.vehicles ≠ [] → m.pair.vehicle ∈ r.vehicles) ∧
      ∃ t ∈ r.tasks, ∃ os o, .options t os ∈ h ∧ o ∈ os ∧ (o.eligible = [] ∨ m.pair.vehicle ∈ o.eligible) ∧ m.pair.task = o.task ∧
        m.pair.option = o.option := by
  obtain ⟨A, i, B, e, hr⟩ := sent_split h hs
  obtain ⟨-, s', r, r0, -, -, hopts, hk, hreq, hst, hb, -, -⟩ := ask_origin d A i k reqs hr
  have e' : h = (A ++ [i]) ++ B := by rw [e]; simp
  refine ⟨r0, hk, ?_, ?_⟩
  · rw [e', show requestsOf (A ++ [i] ++ B) = requestsOf (A ++ [i]) ++ requestsOf B from List.filterMap_append,
      List.getElem?_append_left (List.getElem?_eq_some_iff.1 hreq).1, hreq]
  intro m hm
  unfold St.build at hb
  simp only [Out.ask.injEq, true_and] at hb
  obtain ⟨q, hq, hmq⟩ := List.mem_flatMap.1 hm
  rw [hb] at hq
  obtain ⟨h1, h2⟩ := vehicleReqs_pair hq
  obtain ⟨h3, o, ho, h4, h5⟩ := h2 m hmq
  refine ⟨?_, ?_⟩
  · intro hne
    have hv := hst.vehicles (.inl hne)
    rw [if_neg (by simp [hv, hne]), hv] at h1
    rw [h3]; exact h1
  · have ht : (if r.vehicles.isEmpty = true then { r with vehicles := s'.states.map (·.1) } else r).tasks = r.tasks := by
      split <;> rfl
    unfold eligible at ho
    rw [ht] at ho
    obtain ⟨t, ht, ho⟩ := List.mem_flatMap.1 ho
    obtain ⟨ho, hel⟩ := List.mem_filter.1 ho
    cases hg : s'.options.get t with
    | none => rw [hg] at ho; simp at ho
    | some os =>
      rw [hg] at ho
      obtain ⟨A', B', e1, -, -⟩ := (hopts t os).1 hg
      refine ⟨t, by rw [← hst.tasks]; exact ht, os, o, by rw [e', e1]; simp, by simpa using ho, ?_, h4, h5⟩
      rw [h3]
      simpa using hel

/-- A matrix is for a request that was received; each entry is for a vehicle of the request, if it names some, to an option of one of
its tasks for which the vehicle is eligible, with a cost that a planner reported. -/
theorem matrix_leg (d : Point → Point → Int) (h : List In) (k n g : Int) (ts : List Int) (es : List Entry)
    (hs : .matrix k n g ts es ∈ sent (start d) h) :
    ∃ r, .request r ∈ h ∧ n = r.id ∧ g = r.region ∧ ts = r.tasks ∧ ∀ e ∈ es, (r.vehicles ≠ [] → e.pair.vehicle ∈ r.vehicles) ∧
      (∃ t ∈ r.tasks, ∃ os o, .options t os ∈ h ∧ o ∈ os ∧ (o.eligible = [] ∨ e.pair.vehicle ∈ o.eligible) ∧ e.pair.task = o.task ∧
        e.pair.option = o.option) ∧ ∃ q id, .response q ∈ h ∧ (id, e.cost) ∈ q.routes := by
  obtain ⟨A, i, B, e, hr⟩ := sent_split h hs
  obtain ⟨q, r, reqs, hi, hk, hreq, h1, h2, h3, -, hl, -, hlen, hes⟩ := C26_matrix_partial d A i k n g ts es hr
  have hask : .ask k reqs ∈ sent (start d) A := by
    obtain ⟨o, ho, e⟩ := List.mem_filterMap.1 (List.mem_of_getLast? hl)
    cases o <;> simp only [askOf, reduceCtorEq] at e
    split at e
    · simp only [Option.some.injEq] at e; subst e; rename_i e2; subst e2; exact ho
    · simp at e
  obtain ⟨r', -, hreq', hleg⟩ := asked_leg d A k reqs hask
  rw [hreq] at hreq'
  simp only [Option.some.injEq] at hreq'
  subst hreq'
  refine ⟨r, ?_, h1, h2, h3, ?_⟩
  · rw [e]; exact List.mem_append_left _ (mem_requestsOf (List.mem_of_getElem? hreq))
  intro x hx
  obtain ⟨j, hj, rfl⟩ := List.getElem_of_mem hx
  obtain ⟨hp, y, hy⟩ := hes j hj (by omega)
  obtain ⟨g1, t, ht, os, o, g2, g3⟩ := hleg _ (List.getElem_mem (show j < (routesOf reqs).length by omega))
  rw [hp]
  refine ⟨g1, ⟨t, ht, os, o, by rw [e]; exact List.mem_append_left _ g2, g3⟩, ?_⟩
  have := List.mem_of_getLast? hy
  obtain ⟨z, hz, e2⟩ := List.mem_map.1 this
  obtain ⟨hz, -⟩ := List.mem_filter.1 hz
  obtain ⟨u, hu, hz⟩ := List.mem_flatMap.1 hz
  obtain ⟨w, hw, rfl⟩ := List.mem_map.1 hz
  simp only [Prod.mk.injEq] at e2
  refine ⟨u, w.1, ?_, by rw [← e2.2]; exact hw⟩
  obtain ⟨c, hc, e3⟩ := List.mem_filterMap.1 hu
  cases c <;> simp only [reduceCtorEq, Option.some.injEq] at e3
  subst e3
  rw [e]
  rcases List.mem_append.1 hc with hc | hc
  · exact List.mem_append_left _ hc
  · simp only [List.mem_singleton] at hc; rw [hc]; simp

end Verif.Routes
