import Verif.Routes.Matrix

/-! Lemmas about the loops of the route aggregator. -/

namespace Verif.Routes

open Verif

theorem forKeys_induct {f : St → Int → St × List Out} {P : St → List Out → Prop}
    (hs : ∀ s outs k, P s outs → P (f s k).1 (outs ++ (f s k).2)) :
    ∀ (ks : List Int) (s : St) (outs : List Out), P s outs → P (forKeys f s ks).1 (outs ++ (forKeys f s ks).2)
  | [], s, outs, h => by simpa [forKeys] using h
  | k :: ks, s, outs, h => by
    have := forKeys_induct hs ks (f s k).1 (outs ++ (f s k).2) (hs s outs k h)
    simpa [forKeys, List.append_assoc] using this

/-- Something established for each key and kept by the rest of the loop. -/
theorem forKeys_all {f : St → Int → St × List Out} {I : St → Prop} {D : Int → St → Prop}
    (hI : ∀ s k, I s → I (f s k).1) (hk : ∀ s k, I s → D k (f s k).1)
    (hd : ∀ s k j, I s → D j s → D j (f s k).1) :
    ∀ (ks : List Int) (s : St), I s →
      (I (forKeys f s ks).1 ∧ ∀ j, D j s ∨ j ∈ ks → D j (forKeys f s ks).1)
  | [], s, h => by simp [forKeys, h]
  | k :: ks, s, h => by
    obtain ⟨h1, h2⟩ := forKeys_all hI hk hd ks (f s k).1 (hI s k h)
    simp only [forKeys, List.mem_cons]
    refine ⟨h1, ?_⟩
    rintro j (hj | rfl | hj)
    · exact h2 j (.inl (hd s k j h hj))
    · exact h2 _ (.inl (hk s _ h))
    · exact h2 j (.inr hj)

theorem get_dels (m : Map (Int × Int)) (l : List (Int × Int)) (id : Int) :
    (l.foldl (fun m p => m.del p.1) m).get id = if id ∈ l.map (·.1) then none else m.get id := by
  induction l generalizing m with
  | nil => simp
  | cons p l ih =>
    simp only [List.foldl_cons, ih, Map.get_del, List.map_cons, List.mem_cons]
    grind

theorem get_puts (m : Map (Int × Int)) (rid : Int) (l : List (Int × Int)) (id : Int) :
    (l.foldl (fun m p => m.put p.1 (rid, p.2)) m).get id =
      match ((l.filter fun p => p.1 = id).getLast?) with
      | some p => some (rid, p.2)
      | none => m.get id := by
  induction l generalizing m with
  | nil => simp
  | cons p l ih =>
    simp only [List.foldl_cons, ih, Map.get_put, List.filter_cons]
    by_cases h : p.1 = id
    · simp only [h, decide_true, if_true]
      rw [List.getLast?_cons]
      cases (l.filter fun p => p.1 = id).getLast? <;> simp [h]
    · have h' : ¬ id = p.1 := fun e => h e.symm
      simp only [h, h', decide_false, if_false, Bool.false_eq_true]

/-- What `collect` does. -/
theorem collect_spec : ∀ (ids : List Int) (s : St), ids.Nodup → (∀ id ∈ ids, (s.responses.get id).isSome = true) →
    (s.collect ids).2.map some = ids.map s.responses.get ∧
    (∃ a b, (s.collect ids).1 = { s with responses := a, plans := b }) ∧
    (∀ j, (s.collect ids).1.responses.get j = if j ∈ ids then none else s.responses.get j) ∧
    (∀ x, (∃ r ∈ (s.collect ids).2, x ∈ r.routes.map (·.1)) → (s.collect ids).1.plans.get x = none) ∧
    ∀ x, (¬ ∃ r ∈ (s.collect ids).2, x ∈ r.routes.map (·.1)) → (s.collect ids).1.plans.get x = s.plans.get x
  | [], s, _, _ => by simp [St.collect]; exact ⟨s.responses, s.plans, rfl⟩
  | id :: ids, s, hnd, hp => by
    rw [List.nodup_cons] at hnd
    obtain ⟨r, hr⟩ := Option.isSome_iff_exists.mp (hp id (by simp))
    simp only [St.collect, hr]
    generalize hs' : ({ s with plans := r.routes.foldl (fun m p => m.del p.1) s.plans, responses := s.responses.del id } : St) = s'
    have hg : ∀ j ∈ ids, s'.responses.get j = s.responses.get j := by
      intro j hj
      have : j ≠ id := fun e => hnd.1 (e ▸ hj)
      rw [← hs']
      simp [Map.get_del, this]
    obtain ⟨h1, ⟨a, b, h2⟩, h3, h4, h5⟩ := collect_spec ids s' hnd.2 (fun j hj => by rw [hg j hj]; exact hp j (by simp [hj]))
    have hpl : ∀ x, s'.plans.get x = if x ∈ r.routes.map (·.1) then none else s.plans.get x := by
      intro x; rw [← hs']; exact get_dels _ _ _
    refine ⟨?_, ⟨a, b, by rw [h2, ← hs']⟩, ?_, ?_, ?_⟩
    · simp only [List.map_cons, h1, hr]
      congr 1
      exact List.map_congr_left hg
    · intro j
      rw [h3, ← hs']
      simp only [Map.get_del, List.mem_cons]
      grind
    · rintro x ⟨r', hr', hx⟩
      by_cases hin : ∃ r ∈ (s'.collect ids).2, x ∈ r.routes.map (·.1)
      · exact h4 x hin
      · rw [h5 x hin, hpl]
        simp only [List.mem_cons] at hr'
        rcases hr' with rfl | hr'
        · simp [hx]
        · exact absurd ⟨r', hr', hx⟩ hin
    · intro x hx
      rw [h5 x (fun ⟨r', hr', hx'⟩ => hx ⟨r', by simp [hr'], hx'⟩), hpl, if_neg]
      exact fun hh => hx ⟨r, by simp, hh⟩

/-- What the loop of `sendMatrix` does. -/
theorem entries_spec : ∀ (ids : List Int) (s : St) (g : Int → Pair) (c : Int → Int × Int), ids.Nodup →
    (∀ id ∈ ids, s.pairing.get id = some (g id)) → (∀ id ∈ ids, s.plans.get id = some (c id)) →
    (s.entries ids).2 = (ids.map fun id => { pair := g id, cost := (c id).2 }) ∧
    (∃ x y z, (s.entries ids).1 = { s with pairing := x, responses := y, plans := z }) ∧
    (∀ j, (s.entries ids).1.pairing.get j = if j ∈ ids then none else s.pairing.get j) ∧
    (∀ j, (s.entries ids).1.plans.get j = if j ∈ ids then none else s.plans.get j) ∧
    ∀ j, (s.entries ids).1.responses.get j = if j ∈ ids.map (fun id => (c id).1) then none else s.responses.get j
  | [], s, _, _, _, _, _ => by simp [St.entries]; exact ⟨s.pairing, s.responses, s.plans, rfl⟩
  | id :: ids, s, g, c, hnd, hp, hq => by
    rw [List.nodup_cons] at hnd
    have e1 := hp id (by simp)
    have e2 := hq id (by simp)
    simp only [St.entries, e1, e2]
    generalize hs' : ({ s with pairing := s.pairing.del id, responses := s.responses.del (c id).1, plans := s.plans.del id } : St) = s'
    have ne : ∀ j ∈ ids, j ≠ id := fun j hj e => hnd.1 (e ▸ hj)
    obtain ⟨h1, ⟨x, y, z, h2⟩, h3, h4, h5⟩ := entries_spec ids s' g c hnd.2
      (fun j hj => by rw [← hs']; simp [Map.get_del, ne j hj, hp j (by simp [hj])])
      (fun j hj => by rw [← hs']; simp [Map.get_del, ne j hj, hq j (by simp [hj])])
    refine ⟨?_, ⟨x, y, z, by rw [h2, ← hs']⟩, ?_, ?_, ?_⟩
    · simp [h1]
    · intro j; rw [h3, ← hs']; simp only [Map.get_del, List.mem_cons]; grind
    · intro j; rw [h4, ← hs']; simp only [Map.get_del, List.mem_cons]; grind
    · intro j; rw [h5, ← hs']; simp only [Map.get_del, List.mem_cons, List.map_cons]; grind

/-- What was sent without one more step. -/
theorem sent_snoc (s : St) (h : List In) (i : In) : sent s (h ++ [i]) = sent s h ++ reply s h i := by
  simp [sent, reply, runM_snoc]

theorem since_append (outs os : List Out) (q : Int) (h : ∀ o ∈ os, (∀ j v g r, o ≠ .askRoute q j v g r) ∧ ∀ rs, o ≠ .answer q rs) :
    since (outs ++ os) q = since outs q := by
  induction os generalizing outs with
  | nil => simp
  | cons o os ih =>
    have e : outs ++ o :: os = (outs ++ [o]) ++ os := by simp
    rw [e, ih _ (fun o' ho' => h o' (by simp [ho']))]
    have ho := h o (by simp)
    simp only [since, List.foldl_append, List.foldl_cons, List.foldl_nil]
    cases o with
    | ask k reqs => rfl
    | matrix => rfl
    | askRoute q' j v g r =>
      have : q' ≠ q := fun e => ho.1 j v g r (by rw [e])
      simp [this]
    | answer q' rs =>
      have : q' ≠ q := fun e => ho.2 rs (by rw [e])
      simp [this]

theorem since_answer (outs : List Out) (q q' : Int) (rs : List Resp) :
    since (outs ++ [.answer q rs]) q' = if q = q' then [] else since outs q' := by
  simp only [since, List.foldl_append, List.foldl_cons, List.foldl_nil]

theorem since_ask (outs : List Out) (q q' j v : Int) (g : Bool) (r : List Route) :
    since (outs ++ [.askRoute q j v g r]) q' = if q = q' then since outs q' ++ [j] else since outs q' := by
  simp only [since, List.foldl_append, List.foldl_cons, List.foldl_nil]

/-- Without new plan requests, what is pending is what was pending. -/
theorem since_of_ne_nil (outs os : List Out) (q : Int) (h : ∀ o ∈ os, ∀ j v g r, o ≠ .askRoute q j v g r)
    (hn : since (outs ++ os) q ≠ []) : since (outs ++ os) q = since outs q := by
  refine since_append outs os q fun o ho => ⟨h o ho, ?_⟩
  rintro rs rfl
  obtain ⟨A, B, e⟩ := List.append_of_mem ho
  subst e
  apply hn
  have key : ∀ (B : List Out) (l : List Out), (∀ o ∈ B, ∀ j v g r, o ≠ .askRoute q j v g r) → since l q = [] →
      since (l ++ B) q = [] := by
    intro B
    induction B with
    | nil => intro l _ hl; simpa using hl
    | cons o B ih =>
      intro l hB hl
      have e : l ++ o :: B = (l ++ [o]) ++ B := by simp
      rw [e]
      refine ih _ (fun o' ho' => hB o' (by simp [ho'])) ?_
      have ho := hB o (by simp)
      cases o with
      | ask k reqs => simpa [since] using hl
      | matrix => simpa [since] using hl
      | askRoute q' j v g r =>
        have : q' ≠ q := fun e => ho j v g r (by rw [e])
        rw [since_ask, if_neg this, hl]
      | answer q' rs => rw [since_answer, hl]; simp
  have e : outs ++ (A ++ .answer q rs :: B) = ((outs ++ A) ++ [.answer q rs]) ++ B := by simp
  rw [e]
  refine key B _ (fun o' ho' => h o' (by simp [ho'])) ?_
  rw [since_answer, if_pos rfl]

end Verif.Routes
