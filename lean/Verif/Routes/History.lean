import Verif.Routes.Steps

/-! The invariants for every history. -/

namespace Verif.Routes

open Verif

variable {R : List AutoReq} {Q : List Resp} {W : List RouteReq} {outs : List Out} {s : St}

/-- The service at the start, without fast planning. -/
def start (dist : Point → Point → Int) : St := { dist := dist }

theorem Full.start (dist : Point → Point → Int) : Full [] [] [] [] (start dist) where
  fast := rfl
  ub := rfl
  a := by
    refine ⟨List.nodup_nil, ?_, (by decide : (1 : Int) ≤ 1), ?_, ?_, ?_, ?_, ?_⟩ <;> simp [since, Routes.start, Map.get, answers]
  b := by
    constructor <;> simp [Routes.start, Map.get, matrixKeys, lastAsk, askedIds, matrixIds] <;> omega
  compA := by simp [Routes.start, Map.get, lastResp, since]
  compB := by simp [Routes.start, Map.get, lastReport, reports]

theorem Full.frame (h : Full R Q W outs s) (a : Map Point) (b : List Int) (c : Map (List Opt)) (e : Map Int) :
    Full R Q W outs { s with states := a, ground := b, options := c, speeds := e } :=
  ⟨h.fast, h.ub, h.a, h.b, h.compA, h.compB⟩

theorem Full.request (h : Full R Q W outs s) (r : AutoReq) :
    Full (R ++ [r]) Q W outs { s with requests := s.requests.put s.autoId r, autoId := s.autoId + 1 } :=
  ⟨h.fast, h.ub, h.a, h.b.request r, h.compA, h.compB⟩

/-- What `checkOptions` does. -/
theorem checkOptions_cases (h : Full R Q W outs s) (k : Int) :
    (s.checkOptions k = (s, []) ∧ ∀ r, s.requests.get k = some r → ∃ t ∈ r.tasks, s.options.get t = none) ∨
    ∃ r, s.requests.get k = some r ∧ (∀ t ∈ r.tasks, (s.options.get t).isSome = true) ∧
      s.checkOptions k = ((s.build k r).1, [(s.build k r).2]) := by
  simp only [St.checkOptions, h.ub, h.fast, Bool.false_eq_true, if_false]
  cases hg : s.requests.get k with
  | none => exact .inl ⟨rfl, by simp⟩
  | some r =>
    by_cases ha : (r.tasks.all fun t => (s.options.get t).isSome) = true
    · exact .inr ⟨r, rfl, by simpa using ha, by simp [ha]⟩
    · refine .inl ⟨by simp [ha], ?_⟩
      rintro _ ⟨rfl⟩
      simpa using ha

theorem Full.build (h : Full R Q W outs s) {k : Int} {r : AutoReq} (hr : s.requests.get k = some r) :
    Full R Q W (outs ++ [(s.build k r).2]) (s.build k r).1 := by
  have hB := h.b.build hr
  obtain ⟨reqs, e1, e2, hnd, hb⟩ := build_spec s k r
  have hother : ∀ o ∈ [(s.build k r).2], Other o := by
    intro o ho
    simp only [List.mem_singleton] at ho
    rw [ho, e1]
    constructor <;> simp
  refine ⟨by rw [e2]; exact h.fast, by rw [e2]; exact h.ub, ?_, hB, ?_, ?_⟩
  · have := h.a.mono (fun _ _ x => x) hother
    rw [e2]
    exact this
  · intro hc j hj1 hj2
    simp only [since_other hother] at hj2
    rw [e2] at hj2 ⊢
    exact h.compA hc j hj1 hj2
  · intro hc id hid1 hid2
    rw [e2] at hid2 ⊢
    refine h.compB hc id hid1 ?_
    rcases hid2 with hid2 | ⟨k', ids, hg, hin⟩
    · left
      have hid2 : s.routeId + (routesOf reqs).length ≤ id := hid2
      omega
    · have hg : (s.pendingAuto.put k ((routesOf reqs).map (·.route.id))).get k' = some ids := hg
      rw [Map.get_put] at hg
      split at hg
      · simp only [Option.some.injEq] at hg
        subst hg
        exact .inl (hb id hin).1
      · exact .inr ⟨k', ids, hg, hin⟩

theorem checkAll : ∀ (ks : List Int) (s : St) (outs : List Out), ks.Nodup → Full R Q W outs s →
    Full R Q W (outs ++ (forKeys St.checkOptions s ks).2) (forKeys St.checkOptions s ks).1 ∧
    (forKeys St.checkOptions s ks).1.states = s.states ∧ (forKeys St.checkOptions s ks).1.options = s.options ∧
    (∀ o ∈ (forKeys St.checkOptions s ks).2, ∃ (k : Int) (s' : St) (r : AutoReq), k ∈ ks ∧ s'.states = s.states ∧ s'.options = s.options ∧
      s.requests.get k = some r ∧ o = (s'.build k r).2 ∧ ∀ t ∈ r.tasks, (s.options.get t).isSome = true) ∧
    ∀ k ∈ ks, ∀ r, s.requests.get k = some r → (∀ t ∈ r.tasks, (s.options.get t).isSome = true) →
      ∃ reqs, .ask k reqs ∈ (forKeys St.checkOptions s ks).2
  | [], s, outs, _, h => by
    simp only [forKeys, List.append_nil]
    exact ⟨h, trivial, trivial, by simp, by simp⟩
  | k :: ks, s, outs, hnd, h => by
    rw [List.nodup_cons] at hnd
    have key : Full R Q W (outs ++ (s.checkOptions k).2) (s.checkOptions k).1 ∧ (s.checkOptions k).1.states = s.states ∧
        (s.checkOptions k).1.options = s.options ∧
        (∀ k', k' ≠ k → (s.checkOptions k).1.requests.get k' = s.requests.get k') ∧
        (∀ o ∈ (s.checkOptions k).2, ∃ r, s.requests.get k = some r ∧ o = (s.build k r).2 ∧
          ∀ t ∈ r.tasks, (s.options.get t).isSome = true) ∧
        ∀ r, s.requests.get k = some r → (∀ t ∈ r.tasks, (s.options.get t).isSome = true) →
          ∃ reqs, .ask k reqs ∈ (s.checkOptions k).2 := by
      rcases checkOptions_cases h k with ⟨e, hn⟩ | ⟨r, hr, ht, e⟩
      · rw [e]
        simp only [List.append_nil]
        refine ⟨h, trivial, trivial, fun _ _ => trivial, by simp, ?_⟩
        intro r hr hall
        obtain ⟨t, ht, hn⟩ := hn r hr
        have := hall t ht
        rw [hn] at this
        simp at this
      · rw [e]
        obtain ⟨reqs, e1, e2, _⟩ := build_spec s k r
        refine ⟨h.build hr, by rw [e2], by rw [e2], ?_, ?_, ?_⟩
        · intro k' hne
          rw [e2]
          show (s.requests.put k _).get k' = _
          rw [Map.get_put, if_neg hne]
        · intro o ho
          simp only [List.mem_singleton] at ho
          exact ⟨r, hr, ho, ht⟩
        · intro _ _ _
          exact ⟨reqs, by rw [e1]; simp⟩
    obtain ⟨f1, f2, f3, f4, f5, f6⟩ := key
    obtain ⟨g1, g2, g3, g4, g5⟩ := checkAll ks _ _ hnd.2 f1
    have ne : ∀ k' ∈ ks, k' ≠ k := fun k' hk e => hnd.1 (e ▸ hk)
    simp only [forKeys]
    refine ⟨by rw [← List.append_assoc]; exact g1, by rw [g2, f2], by rw [g3, f3], ?_, ?_⟩
    · intro o ho
      rw [List.mem_append] at ho
      rcases ho with ho | ho
      · obtain ⟨r, a, b, c⟩ := f5 o ho
        exact ⟨k, s, r, by simp, rfl, rfl, a, b, c⟩
      · obtain ⟨k', s', r, a, b, c, d, e, f⟩ := g4 o ho
        refine ⟨k', s', r, by simp [a], by rw [b, f2], by rw [c, f3], by rw [← f4 k' (ne k' a)]; exact d, e, ?_⟩
        rw [← f3]; exact f
    · intro k' hk' r hr ht
      simp only [List.mem_cons] at hk'
      rcases hk' with rfl | hk'
      · obtain ⟨reqs, hm⟩ := f6 r hr ht
        exact ⟨reqs, List.mem_append_left _ hm⟩
      · obtain ⟨reqs, hm⟩ := g5 k' hk' r (by rw [f4 k' (ne k' hk')]; exact hr) (by rw [f3]; exact ht)
        exact ⟨reqs, List.mem_append_right _ hm⟩

theorem Full.routeRequest (h : Full R Q W outs s) (r : RouteReq) :
    Full R Q (W ++ [r]) (outs ++ (s.routeRequest r).2) (s.routeRequest r).1 ∧
    (s.routeRequest r).1.states = s.states ∧ (s.routeRequest r).1.options = s.options ∧
    (∀ o ∈ (s.routeRequest r).2, ∃ q j v g rs, o = .askRoute q j v g rs) ∧
    (s.routeRequest r).2.length = (if r.vehicles = [] then s.states.map (·.1) else r.vehicles).length ∧
    ∀ k (hk : k < (s.routeRequest r).2.length), ∃ v,
      (if r.vehicles = [] then s.states.map (·.1) else r.vehicles)[k]? = some v ∧
      (s.routeRequest r).2[k] = .askRoute r.id (s.routeReqId + k) v (s.ground.contains v) r.routes := by
  generalize hvs : (if r.vehicles = [] then s.states.map (·.1) else r.vehicles) = vs
  have e : s.routeRequest r = s.routeVehicles r vs := by
    simp only [St.routeRequest, h.fast, Bool.false_eq_true, if_false, List.isEmpty_iff, hvs]
  rw [e]
  have hlen : ∀ q, (W.filter fun x => x.id = q).length ≤ ((W ++ [r]).filter fun x => x.id = q).length := by
    intro q; simp
  have hA : s.InvA Q (W ++ [r]) outs :=
    { h.a with count := fun q => Nat.le_trans (h.a.count q) (hlen q) }
  have hc : (answers outs).count r.id + 1 ≤ ((W ++ [r]).filter fun x => x.id = r.id).length := by
    have := h.a.count r.id
    simp
    omega
  obtain ⟨g1, ⟨a, b, g2, hb⟩, g3, g4⟩ := routeVehicles_spec r vs s outs h.fast hA hc
  have hask : ∀ o ∈ (s.routeVehicles r vs).2, ∃ j v g rs, o = .askRoute r.id j v g rs ∧ s.routeReqId ≤ j := by
    intro o ho
    obtain ⟨k, hk, rfl⟩ := List.mem_iff_getElem.mp ho
    obtain ⟨v, _, e⟩ := g4 k hk
    exact ⟨_, _, _, _, e, by omega⟩
  have hplain : ∀ o ∈ (s.routeVehicles r vs).2, Plain o := by
    intro o ho
    obtain ⟨_, _, _, _, rfl, _⟩ := hask o ho
    constructor <;> simp
  refine ⟨⟨by rw [g2]; exact h.fast, by rw [g2]; exact h.ub, g1, ?_, ?_, ?_⟩, by rw [g2], by rw [g2], ?_, g3, g4⟩
  · have := h.b.mono (fun _ _ x => x) hplain
    rw [g2]
    exact this
  · intro hcl j hj1 hj2
    have hj2' : s.routeReqId ≤ j ∨ ∃ q, j ∈ since outs q := by
      rcases hj2 with hj2 | ⟨q, hq⟩
      · rw [g2] at hj2
        have hj2 : b ≤ j := hj2
        exact .inl (by omega)
      · -- what is pending was pending or is new
        have key : ∀ (os : List Out) (l : List Out), (∀ o ∈ os, ∃ j v g rs, o = .askRoute r.id j v g rs ∧ s.routeReqId ≤ j) →
            (∀ q, j ∈ since l q → s.routeReqId ≤ j ∨ ∃ q, j ∈ since outs q) → ∀ q, j ∈ since (l ++ os) q →
            s.routeReqId ≤ j ∨ ∃ q, j ∈ since outs q := by
          intro os
          induction os with
          | nil => intro l _ hl q hq; rw [List.append_nil] at hq; exact hl q hq
          | cons o os ih =>
            intro l hos hl q hq
            have e : l ++ o :: os = (l ++ [o]) ++ os := by simp
            rw [e] at hq
            refine ih _ (fun o' ho' => hos o' (by simp [ho'])) ?_ q hq
            intro q hq
            obtain ⟨j', v, g, rs, rfl, hj'⟩ := hos o (by simp)
            rw [since_ask] at hq
            split at hq
            · rw [List.mem_append, List.mem_singleton] at hq
              rcases hq with hq | rfl
              · exact hl q hq
              · exact .inl hj'
            · exact hl q hq
        exact key _ outs hask (fun q hq => .inr ⟨q, hq⟩) q hq
    rw [g2]
    exact h.compA hcl j hj1 hj2'
  · intro hcl id h1 h2
    rw [g2] at h2 ⊢
    exact h.compB hcl id h1 h2
  · intro o ho
    obtain ⟨_, _, _, _, rfl, _⟩ := hask o ho
    exact ⟨_, _, _, _, _, rfl⟩

theorem sent_append (s : St) (a b : List In) : ∃ x, sent s (a ++ b) = sent s a ++ x := by
  simp only [sent, runM_append, List.flatten_append]
  exact ⟨_, rfl⟩

theorem snoc_split' {α : Type} {xs A B : List α} {x y : α} (h : xs ++ [x] = A ++ y :: B) :
    (xs = A ∧ x = y ∧ B = []) ∨ ∃ B', B = B' ++ [x] ∧ xs = A ++ y :: B' := by
  rcases List.eq_nil_or_concat B with rfl | ⟨B', b, rfl⟩
  · have := List.append_inj' h rfl
    simp only [List.cons.injEq, and_true] at this
    exact .inl ⟨this.1, this.2, rfl⟩
  · rw [List.concat_eq_append] at h ⊢
    have e : A ++ y :: (B' ++ [b]) = (A ++ y :: B') ++ [b] := by simp
    rw [e] at h
    have := List.append_inj' h rfl
    simp only [List.cons.injEq, and_true] at this
    exact .inr ⟨B', by rw [this.2], this.1⟩

theorem known_snoc (s : St) (h : List In) (i : In) (t : Int) (os : List Opt) :
    Known s (h ++ [i]) t os ↔ matrixKeys (reply s h i) = [] ∧
      (i = .options t os ∨ (∀ os', i ≠ .options t os') ∧ Known s h t os) := by
  constructor
  · rintro ⟨A, B, e, hB, hm⟩
    have hpre : ∃ x, matrixKeys (sent s h) = matrixKeys (sent s A) ++ x := by
      rcases snoc_split' e with ⟨rfl, _, _⟩ | ⟨B', _, rfl⟩
      · exact ⟨[], by simp⟩
      · obtain ⟨x, hx⟩ := sent_append s A (.options t os :: B')
        exact ⟨matrixKeys x, by rw [hx, matrixKeys_append]⟩
    obtain ⟨x, hx⟩ := hpre
    rw [sent_snoc, matrixKeys_append, hx] at hm
    have hl := congrArg List.length hm
    simp only [List.length_append] at hl
    have h1 : matrixKeys (reply s h i) = [] := List.length_eq_zero_iff.mp (by omega)
    have h2 : x = [] := List.length_eq_zero_iff.mp (by omega)
    refine ⟨h1, ?_⟩
    rcases snoc_split' e with ⟨_, rfl, _⟩ | ⟨B', rfl, e'⟩
    · exact .inl rfl
    · refine .inr ⟨fun os' e => hB os' (by simp [e]), A, B', e', fun os' hh => hB os' (by simp [hh]), ?_⟩
      rw [hx, h2, List.append_nil]
  · rintro ⟨hm, rfl | ⟨hi, A, B, e, hB, hk⟩⟩
    · refine ⟨h, [], rfl, by simp, ?_⟩
      rw [sent_snoc, matrixKeys_append, hm, List.append_nil]
    · refine ⟨A, B ++ [i], by rw [e]; simp, ?_, ?_⟩
      · intro os' hh
        rw [List.mem_append, List.mem_singleton] at hh
        exact hh.elim (hB os') fun e => hi os' e.symm
      · rw [sent_snoc, matrixKeys_append, hm, List.append_nil, hk]

/-- What is known after a history. -/
structure Hist (d : Point → Point → Int) (h : List In) (s : St) : Prop where
  full : Full (requestsOf h) (responsesOf h) (routeRequestsOf h) (sent (start d) h) s
  statesNd : (s.states.map (·.1)).Nodup
  states : ∀ v, s.states.get v = lastState h v
  options : ∀ t os, s.options.get t = some os ↔ Known (start d) h t os

theorem lastState_snoc (h : List In) (i : In) (v : Int) :
    lastState (h ++ [i]) v = match i with
      | .state id p _ => if id = v then some p else lastState h v
      | _ => lastState h v := by
  simp only [lastState, List.filterMap_append, List.filterMap_cons, List.filterMap_nil]
  cases i with
  | state id p g => by_cases e : id = v <;> simp [e]
  | _ => simp

theorem requests_nodup (h : Full R Q W outs s) : (s.requests.map (·.1)).Nodup := h.b.reqNd

theorem lastState_of_not {i : In} (hi : ∀ id p g, i ≠ .state id p g) (h : List In) (v : Int) :
    lastState (h ++ [i]) v = lastState h v := by
  rw [lastState_snoc]
  cases i with
  | state id p g => exact absurd rfl (hi id p g)
  | _ => rfl

theorem keys_of_asks {os : List Out} (h : ∀ o ∈ os, ∀ k n g ts es, o ≠ .matrix k n g ts es) : matrixKeys os = [] := by
  rw [matrixKeys, List.filterMap_eq_nil_iff]
  intro o ho
  cases o with
  | matrix k n g ts es => exact absurd rfl (h _ ho k n g ts es)
  | _ => rfl

theorem build_ask (s : St) (k : Int) (r : AutoReq) : ∃ reqs, (s.build k r).2 = .ask k reqs := ⟨_, rfl⟩

theorem requestsOf_snoc (h : List In) (i : In) :
    requestsOf (h ++ [i]) = requestsOf h ++ (match i with | .request r => [r] | _ => []) := by
  cases i <;> simp [requestsOf]

theorem responsesOf_snoc (h : List In) (i : In) :
    responsesOf (h ++ [i]) = responsesOf h ++ (match i with | .response r => [r] | _ => []) := by
  cases i <;> simp [responsesOf]

theorem routeRequestsOf_snoc (h : List In) (i : In) :
    routeRequestsOf (h ++ [i]) = routeRequestsOf h ++ (match i with | .routeRequest r => [r] | _ => []) := by
  cases i <;> simp [routeRequestsOf]

theorem history (d : Point → Point → Int) (h : List In) : Hist d h (runM step (start d) h).1 := by
  refine runM_induction (step := step) (s0 := start d)
    (P := fun (h : List In) (s : St) (_ : List (List Out)) => Hist d h s) ?_ ?_ h
  · refine ⟨Full.start d, by simp [start], by simp [start, lastState, Map.get], ?_⟩
    intro t os
    simp only [start, Map.get, List.find?_nil, Option.map_none, reduceCtorEq, false_iff]
    rintro ⟨A, B, e, _⟩
    simp at e
  · intro h i ih
    have hsent := sent_snoc (start d) h i
    have hrep : reply (start d) h i = (step (runM step (start d) h).1 i).2 := rfl
    rw [hrep] at hsent
    have hknown := fun t os => known_snoc (start d) h i t os
    rw [hrep] at hknown
    generalize (runM step (start d) h).1 = s at *
    have hub := ih.full.ub
    cases i with
    | state id p g =>
      have hst : step s (.state id p g) = ({ s with states := s.states.put id p, ground := if g then id :: s.ground else s.ground }, []) := by
        simp only [step]; rw [if_neg (by rw [hub]; simp)]
      rw [hst] at hsent ⊢
      simp only [hst] at hknown
      refine ⟨?_, Map.nodup_put ih.statesNd _ _, ?_, ?_⟩
      · rw [hsent, List.append_nil]
        rw [requestsOf_snoc, responsesOf_snoc, routeRequestsOf_snoc]
        simp only [List.append_nil]
        exact ih.full.frame _ _ _ _
      · intro v
        rw [lastState_snoc]
        show (s.states.put id p).get v = _
        rw [Map.get_put]
        by_cases e : id = v
        · simp [e]
        · simp only [if_neg e, if_neg (fun e' : v = id => e e'.symm)]; exact ih.states v
      · intro t os
        rw [hknown]
        simp only [ne_eq, reduceCtorEq, not_false_eq_true, implies_true, true_and, false_or]
        exact (ih.options t os).trans ⟨fun x => ⟨rfl, x⟩, fun x => x.2⟩
    | config id g x =>
      have hst : step s (.config id g x) = ({ s with speeds := s.speeds.put id x, ground := if g then id :: s.ground else s.ground }, []) := by
        simp only [step]; rw [if_neg (by rw [hub]; simp)]
      rw [hst] at hsent ⊢
      simp only [hst] at hknown
      refine ⟨?_, ih.statesNd, ?_, ?_⟩
      · rw [hsent, List.append_nil]
        rw [requestsOf_snoc, responsesOf_snoc, routeRequestsOf_snoc]
        simp only [List.append_nil]
        exact ih.full.frame _ _ _ _
      · intro v
        rw [lastState_of_not (by simp)]
        exact ih.states v
      · intro t os
        rw [hknown]
        simp only [ne_eq, reduceCtorEq, not_false_eq_true, implies_true, true_and, false_or]
        exact (ih.options t os).trans ⟨fun x => ⟨rfl, x⟩, fun x => x.2⟩
    | request r =>
      have hst : step s (.request r) = { s with requests := s.requests.put s.autoId r, autoId := s.autoId + 1 }.checkAllOptions := by
        simp only [step]; rw [if_neg (by rw [hub]; simp)]
      rw [hst] at hsent ⊢
      simp only [hst] at hknown
      have hF := ih.full.request r
      obtain ⟨g1, g2, g3, g4, _⟩ := checkAll _ _ _ (requests_nodup hF) hF
      have hk : matrixKeys (St.checkAllOptions { s with requests := s.requests.put s.autoId r, autoId := s.autoId + 1 }).2 = [] := by
        refine keys_of_asks fun o ho => ?_
        obtain ⟨k, s', r', _, _, _, _, e, _⟩ := g4 o ho
        obtain ⟨reqs, e'⟩ := build_ask s' k r'
        rw [e, e']; simp
      refine ⟨?_, ?_, ?_, ?_⟩
      · rw [hsent]
        rw [requestsOf_snoc, responsesOf_snoc, routeRequestsOf_snoc]
        simp only [List.append_nil]
        exact g1
      · show (List.map _ (forKeys St.checkOptions _ _).1.states).Nodup
        rw [g2]; exact ih.statesNd
      · intro v
        rw [lastState_of_not (by simp)]
        show (forKeys St.checkOptions _ _).1.states.get v = _
        rw [g2]; exact ih.states v
      · intro t os
        rw [hknown, hk]
        simp only [ne_eq, reduceCtorEq, not_false_eq_true, implies_true, true_and, false_or]
        show (forKeys St.checkOptions _ _).1.options.get t = _ ↔ _
        rw [g3]; exact ih.options t os
    | options t0 os0 =>
      have hst : step s (.options t0 os0) = { s with options := s.options.put t0 os0 }.checkAllOptions := by
        simp only [step]; rw [if_neg (by rw [hub]; simp)]
      rw [hst] at hsent ⊢
      simp only [hst] at hknown
      have hF := ih.full.frame s.states s.ground (s.options.put t0 os0) s.speeds
      obtain ⟨g1, g2, g3, g4, _⟩ := checkAll _ _ _ (requests_nodup hF) hF
      have hk : matrixKeys (St.checkAllOptions { s with options := s.options.put t0 os0 }).2 = [] := by
        refine keys_of_asks fun o ho => ?_
        obtain ⟨k, s', r', _, _, _, _, e, _⟩ := g4 o ho
        obtain ⟨reqs, e'⟩ := build_ask s' k r'
        rw [e, e']; simp
      refine ⟨?_, ?_, ?_, ?_⟩
      · rw [hsent]
        rw [requestsOf_snoc, responsesOf_snoc, routeRequestsOf_snoc]
        simp only [List.append_nil]
        exact g1
      · show (List.map _ (forKeys St.checkOptions _ _).1.states).Nodup
        rw [g2]; exact ih.statesNd
      · intro v
        rw [lastState_of_not (by simp)]
        show (forKeys St.checkOptions _ _).1.states.get v = _
        rw [g2]; exact ih.states v
      · intro t os
        rw [hknown, hk]
        show (forKeys St.checkOptions _ _).1.options.get t = _ ↔ _
        rw [g3]
        show (s.options.put t0 os0).get t = _ ↔ _
        rw [Map.get_put]
        by_cases e : t = t0
        · subst e; simp
        · rw [if_neg e]
          have : ∀ os', In.options t0 os0 ≠ .options t os' := by
            intro os' hh; simp only [In.options.injEq] at hh; exact e hh.1.symm
          simp only [ne_eq, this os, this, not_false_eq_true, implies_true, true_and, false_or]
          exact ih.options t os
    | routeRequest r =>
      have hst : step s (.routeRequest r) = s.routeRequest r := by
        simp only [step]; rw [if_neg (by rw [hub]; simp)]
      rw [hst] at hsent ⊢
      simp only [hst] at hknown
      obtain ⟨g1, g2, g3, g4, _⟩ := ih.full.routeRequest r
      have hk : matrixKeys (s.routeRequest r).2 = [] := by
        refine keys_of_asks fun o ho => ?_
        obtain ⟨_, _, _, _, _, rfl⟩ := g4 o ho
        simp
      refine ⟨?_, by rw [g2]; exact ih.statesNd, ?_, ?_⟩
      · rw [hsent]
        rw [requestsOf_snoc, responsesOf_snoc, routeRequestsOf_snoc]
        simp only [List.append_nil]
        exact g1
      · intro v
        rw [lastState_of_not (by simp), g2]; exact ih.states v
      · intro t os
        rw [hknown, hk, g3]
        simp only [ne_eq, reduceCtorEq, not_false_eq_true, implies_true, true_and, false_or]
        exact ih.options t os
    | response r =>
      have hst : step s (.response r) = (s.store r).checkPlans := by
        simp only [step]; rw [if_neg (by rw [hub]; simp)]
      rw [hst] at hsent ⊢
      simp only [hst] at hknown
      obtain ⟨g1, g2, g3, g4, g5, g6, g7⟩ := (ih.full.store r).checkPlans
      refine ⟨?_, by rw [g5]; exact ih.statesNd, ?_, ?_⟩
      · rw [hsent]
        rw [requestsOf_snoc, responsesOf_snoc, routeRequestsOf_snoc]
        simp only [List.append_nil]
        exact g1
      · intro v
        rw [lastState_of_not (by simp), g5]; exact ih.states v
      · intro t os
        rw [hknown]
        simp only [ne_eq, reduceCtorEq, not_false_eq_true, implies_true, true_and, false_or]
        by_cases e : matrixKeys (s.store r).checkPlans.2 = []
        · rw [g6 e]
          simp only [e, true_and]
          exact ih.options t os
        · rw [g7 e]
          simp [e, Map.get]

end Verif.Routes
