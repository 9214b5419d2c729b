import Verif.Assign.SearchLemmas

/-! The nodes of the search are the schedules of the specification. -/

namespace Verif.Assign

open Verif.Algebra (Tree Alg nextActions Run Offers Word)

/-- The problem the search solves: as the code does, an option that is known but for which the
vehicle is not eligible has duration -1. -/
def relaxed (I : Inst) : Problem where
  tree := I.tree
  vehicles := I.vehicles
  travel := fun v f o => if 0 ≤ I.travelTime v f o then some (I.travelTime v f o) else none
  duration := fun o v => if I.known o then some (I.taskTime o v) else none

theorem id_roundtrip (o : Int) : taskAndOptionId (taskIdOf o) (optionIdOf o) = o := by
  simp only [taskAndOptionId, taskIdOf, optionIdOf]
  have := Int.mul_tdiv_add_tmod o 100000
  omega

/-- Where a vehicle is at the end of a timeline. -/
def lastAt (at_ : Int) (l : List (Int × Int)) : Int := ((l.getLast?).map Prod.fst).getD at_

/-- When a timeline that starts at `t` is over. -/
def finishAt (t : Int) (l : List (Int × Int)) : Int := ((l.getLast?).map Prod.snd).getD t

theorem lastAt_cons (a : Int) (e : Int × Int) (l : List (Int × Int)) :
    lastAt a (e :: l) = lastAt e.1 l := by
  cases l with
  | nil => rfl
  | cons x xs => simp [lastAt, List.getLast?_cons]

theorem finishAt_cons (a : Int) (e : Int × Int) (l : List (Int × Int)) :
    finishAt a (e :: l) = finishAt e.2 l := by
  cases l with
  | nil => rfl
  | cons x xs => simp [finishAt, List.getLast?_cons]

theorem timeline_snoc (P : Problem) (v o : Int) : ∀ (os : List Int) (at_ t : Int),
    timeline P v at_ t (os ++ [o]) =
      (timeline P v at_ t os).bind fun l =>
        match P.travel v (lastAt at_ l) o, P.duration o v with
        | some a, some d => some (l ++ [(o, finishAt t l + a + d)])
        | _, _ => none
  | [], at_, t => by
    simp only [List.nil_append, timeline, Option.bind_some, lastAt, finishAt]
    simp only [List.getLast?_nil, Option.map_none, Option.getD_none]
    rcases P.travel v at_ o with _ | a
    · rfl
    · rcases P.duration o v with _ | d
      · rfl
      · rfl
  | x :: os, at_, t => by
    simp only [List.cons_append, timeline]
    rcases h1 : P.travel v at_ x with _ | a
    · simp
    · rcases h2 : P.duration x v with _ | d
      · simp
      · simp only [timeline_snoc P v o os]
        rcases h3 : timeline P v x (t + a + d) os with _ | l
        · simp
        · simp only [Option.bind_some, Option.map_some, lastAt_cons, finishAt_cons]
          split <;> simp

theorem share_snoc (s : Schedule) (o w v : Int) :
    share (s ++ [(o, w)]) v = if w = v then share s v ++ [o] else share s v := by
  by_cases h : w = v <;> simp [share, h]

theorem plan_snoc (P : Problem) (s : Schedule) (o w v : Int) :
    vehiclePlan P (s ++ [(o, w)]) v =
      if w = v then (vehiclePlan P s v).bind fun l =>
        match P.travel v (lastAt v l) o, P.duration o v with
        | some a, some d => some (l ++ [(o, finish l + a + d)])
        | _, _ => none
      else vehiclePlan P s v := by
  simp only [vehiclePlan, share_snoc]
  split
  · rw [timeline_snoc]; rfl
  · rfl

/-- The nodes of the tree with the decisions that lead to them. -/
inductive Path (I : Inst) : Schedule → Node → Prop where
  | root : Path I [] rootNode
  | snoc {s n o v m} : Path I s n → o ∈ offersAt I n → v ∈ I.vehicles → Child I n o v m →
      Path I (s ++ [(o, v)]) m

theorem path_desc {I : Inst} {s : Schedule} {k : Node} (h : Path I s k) :
    ∀ m, Desc I k m → Desc I rootNode m := by
  induction h with
  | root => exact fun m h => h
  | snoc _ ho hv hc ih => exact fun m h => ih m (.step ho hv hc h)

theorem desc_path {I : Inst} {n k : Node} (h : Desc I n k) :
    ∀ s, Path I s n → ∃ s', Path I s' k := by
  induction h with
  | refl => exact fun s h => ⟨s, h⟩
  | step ho hv hc _ ih => exact fun s h => ih _ (.snoc h ho hv hc)

theorem startLocation_eq {v : Int} {st : VState} {l : List (Int × Int)}
    (h : st.tasks = l.map (published v)) : startLocation v st = lastAt v l := by
  simp only [startLocation, h, List.getLast?_map, lastAt]
  cases l.getLast? with
  | none => rfl
  | some e => simp [published, id_roundtrip]

/-- What a node knows about its schedule. -/
structure Realises (I : Inst) (s : Schedule) (k : Node) : Prop where
  assigned : k.assigned = s.map Prod.fst
  run : Run (algOf I.tree) (s.map Prod.fst)
  used : ∀ p ∈ s, p.2 ∈ I.vehicles
  plan : ∀ v, ∃ l, vehiclePlan (relaxed I) s v = some l ∧ (k.vs v).tasks = l.map (published v) ∧
    (k.vs v).total = finish l

theorem path_realises {I : Inst} {s : Schedule} {k : Node} (h : Path I s k) : Realises I s k := by
  induction h with
  | root =>
    exact ⟨rfl, .start, by simp, fun v => ⟨[], rfl, rfl, rfl⟩⟩
  | @snoc s n o v m hp ho hv hc ih =>
    obtain ⟨i1, i2, i3, i4⟩ := ih
    obtain ⟨hk, ht, rfl⟩ := hc
    refine ⟨by simp [childNode, i1], ?_, ?_, ?_⟩
    · rw [List.map_append]
      exact .step i2 ⟨_, rfl, by rw [← i1]; exact ho⟩
    · intro p hp
      rcases List.mem_append.1 hp with hp | hp
      · exact i3 p hp
      · simp only [List.mem_singleton] at hp; subst hp; exact hv
    · intro w
      rw [plan_snoc]
      obtain ⟨l, h1, h2, h3⟩ := i4 w
      by_cases hw : v = w
      · subst hw
        rw [startLocation_eq h2] at ht ⊢
        rw [if_pos rfl, h1]
        simp only [Option.bind_some, relaxed, hk, ht, if_true]
        refine ⟨_, rfl, ?_, ?_⟩
        · simp [childNode, h2, published, h3]; omega
        · simp only [childNode, if_true, finish, List.getLast?_append, List.getLast?_singleton,
            Option.some_or, Option.map_some, Option.getD_some]
          rw [h3]; simp only [finish]; omega
      · rw [if_neg hw]
        refine ⟨l, h1, ?_, ?_⟩
        · simp only [childNode, if_neg (Ne.symm hw)]; exact h2
        · simp only [childNode, if_neg (Ne.symm hw)]; exact h3

/-- Every schedule whose order is allowed and whose plans exist is a node. -/
theorem exists_path {I : Inst} {ex : List Int} (hr : Run (algOf I.tree) ex) : ∀ s : Schedule,
    s.map Prod.fst = ex → (∀ p ∈ s, p.2 ∈ I.vehicles) →
    (∀ v ∈ I.vehicles, ∃ l, vehiclePlan (relaxed I) s v = some l) → ∃ k, Path I s k := by
  induction hr with
  | start =>
    intro s hs _ _
    have : s = [] := by simpa using hs
    subst this
    exact ⟨_, .root⟩
  | @step ex a _ hoff ih =>
    intro s hs hu hp
    obtain ⟨s', t, rfl, h1, h2⟩ := List.map_eq_append_iff.1 hs
    obtain ⟨⟨o, v⟩, rfl, rfl⟩ : ∃ q, t = [q] ∧ q.1 = a := by
      match t, h2 with
      | [q], h2 => exact ⟨q, rfl, by simpa using h2⟩
    have hv : v ∈ I.vehicles := hu (o, v) (by simp)
    have hpre : ∀ w ∈ I.vehicles, ∃ l, vehiclePlan (relaxed I) s' w = some l := by
      intro w hw
      obtain ⟨l, hl⟩ := hp w hw
      rw [plan_snoc] at hl
      split at hl
      · rcases hq : vehiclePlan (relaxed I) s' w with _ | l'
        · simp [hq] at hl
        · exact ⟨l', rfl⟩
      · exact ⟨l, hl⟩
    obtain ⟨k, hk⟩ := ih s' h1 (fun p hp => hu p (by simp [hp])) hpre
    have hre := path_realises hk
    obtain ⟨l, g1, g2, g3⟩ := hre.plan v
    obtain ⟨l', hl'⟩ := hp v hv
    rw [plan_snoc, if_pos rfl, g1] at hl'
    simp only [Option.bind_some, relaxed, ← startLocation_eq g2] at hl'
    have hkn : I.known o = true := by
      cases hko : I.known o with
      | true => rfl
      | false => simp [hko] at hl'
    have htr : 0 ≤ I.travelTime v (startLocation v (k.vs v)) o := by
      apply Decidable.byContradiction
      intro hneg
      simp [hneg] at hl'
    refine ⟨_, .snoc hk ?_ hv ⟨hkn, htr, rfl⟩⟩
    obtain ⟨r, hr1, hr2⟩ := hoff
    simp only [Verif.Algebra.searchNext, algOf, Outcome.ok.injEq] at hr1
    subst hr1
    simpa [offersAt, hre.assigned, h1] using hr2

/-- The cost of a node is the completion time of its schedule. -/
theorem path_makespan {I : Inst} (hv : I.vehicles ≠ []) {s : Schedule} {k : Node}
    (h : Path I s k) : Makespan (relaxed I) s k.cost := by
  have hinv : CostInv I k := by
    cases h with
    | root =>
      obtain ⟨v, hv⟩ := List.exists_mem_of_ne_nil _ hv
      exact ⟨fun v _ => Int.le_refl _, v, hv, rfl⟩
    | snoc _ _ hv hc => exact child_costInv hv hc
  have hre := path_realises h
  refine ⟨fun v hv => ?_, ?_⟩
  · obtain ⟨l, h1, -, h3⟩ := hre.plan v
    exact ⟨l, h1, by rw [← h3]; exact hinv.1 v hv⟩
  · obtain ⟨v, hv, he⟩ := hinv.2
    obtain ⟨l, h1, -, h3⟩ := hre.plan v
    exact ⟨v, hv, l, h1, by rw [← h3]; exact he⟩

theorem makespan_unique {P : Problem} {s : Schedule} {c d : Int} (hc : Makespan P s c)
    (hd : Makespan P s d) : c = d := by
  apply Int.le_antisymm
  · obtain ⟨v, hv, l, h1, h2⟩ := hc.2
    obtain ⟨l', h1', h2'⟩ := hd.1 v hv
    rw [h1] at h1'; cases h1'; omega
  · obtain ⟨v, hv, l, h1, h2⟩ := hd.2
    obtain ⟨l', h1', h2'⟩ := hc.1 v hv
    rw [h1] at h1'; cases h1'; omega

theorem offersAt_word {I : Inst} (hd : Verif.Algebra.Distinct I.tree)
    (hn : Verif.Algebra.NonEmptyOps I.tree) {s : Schedule} {k : Node} (h : Path I s k) :
    offersAt I k = [] ↔ Word I.tree (s.map Prod.fst) := by
  have hre := path_realises h
  have := Verif.Algebra.C28_complete_orders (g := algOf I.tree) rfl hd hn (s.map Prod.fst)
  rw [← this, Verif.Algebra.searchNext]
  simp only [algOf, Outcome.ok.injEq, offersAt, hre.assigned]
  exact ⟨fun h => ⟨hre.run, h⟩, fun h => h.2⟩

/-! ### Problems that agree where it matters -/

/-- Same travel times, and the same durations wherever one can travel. -/
structure Agree (P Q : Problem) : Prop where
  tree : P.tree = Q.tree
  vehicles : ∀ v, v ∈ P.vehicles ↔ v ∈ Q.vehicles
  travel : ∀ v f o, P.travel v f o = Q.travel v f o
  duration : ∀ v f o a, P.travel v f o = some a → P.duration o v = Q.duration o v

theorem timeline_agree {P Q : Problem} (h : Agree P Q) (v : Int) : ∀ (os : List Int) (a t : Int),
    timeline P v a t os = timeline Q v a t os
  | [], _, _ => rfl
  | o :: os, a, t => by
    simp only [timeline, ← h.travel]
    rcases h1 : P.travel v a o with _ | x
    · rfl
    · rw [h.duration v a o x h1]
      rcases Q.duration o v with _ | d
      · rfl
      · simp only [timeline_agree h v os]

theorem plan_agree {P Q : Problem} (h : Agree P Q) (s : Schedule) (v : Int) :
    vehiclePlan P s v = vehiclePlan Q s v := timeline_agree h v _ _ _

theorem feasible_agree {P Q : Problem} (h : Agree P Q) (s : Schedule) :
    Feasible P s ↔ Feasible Q s := by
  simp only [Feasible, h.tree, h.vehicles, plan_agree h]

theorem makespan_agree {P Q : Problem} (h : Agree P Q) (s : Schedule) (c : Int) :
    Makespan P s c ↔ Makespan Q s c := by
  simp only [Makespan, h.vehicles, plan_agree h]

theorem travelTable_eq (es : List CostEntry) (v f o : Int) :
    travelTable es v f o = (es.reverse.find? fun e => e.vehicle == v && entryFrom e == f &&
        taskAndOptionId e.toTask e.toOption == o).map CostEntry.time := by
  have gen : ∀ (es : List CostEntry) (T : Int → Int → Int → Option Int),
      es.foldl (fun T e => setTravel T e.vehicle (entryFrom e)
        (taskAndOptionId e.toTask e.toOption) e.time) T v f o =
      ((es.reverse.find? fun e => e.vehicle == v && entryFrom e == f &&
        taskAndOptionId e.toTask e.toOption == o).map CostEntry.time).or (T v f o) := by
    intro es
    induction es with
    | nil => intro T; simp
    | cons e es ih =>
      intro T
      rw [List.foldl_cons, ih, List.reverse_cons, List.find?_append]
      rcases h : List.find? (fun e => e.vehicle == v && entryFrom e == f &&
        taskAndOptionId e.toTask e.toOption == o) es.reverse with _ | x
      · simp only [List.find?_singleton]
        simp only [setTravel]
        by_cases hm : v = e.vehicle ∧ f = entryFrom e ∧ o = taskAndOptionId e.toTask e.toOption
        · obtain ⟨rfl, rfl, rfl⟩ := hm
          simp
        · rw [if_neg hm, if_neg]
          · simp [h]
          · simp only [Bool.and_eq_true, beq_iff_eq]
            rintro ⟨⟨rfl, rfl⟩, rfl⟩
            exact hm ⟨rfl, rfl, rfl⟩
      · rw [h]; simp
  have := gen es (fun _ _ _ => none)
  simpa [travelTable] using this

theorem durationTable_eq (os : List TaskOption) (o v : Int) :
    durationTable os o v = (os.reverse.find? fun p => taskAndOptionId p.taskId p.optionId == o &&
      p.eligible.contains v).map TaskOption.cost := by
  have inner : ∀ (i c : Int) (vs : List Int) (T : Int → Int → Option Int),
      vs.foldl (fun T w => setDuration T i w c) T o v =
        if o = i ∧ v ∈ vs then some c else T o v := by
    intro i c vs
    induction vs with
    | nil => intro T; simp
    | cons w ws ih =>
      intro T
      rw [List.foldl_cons, ih]
      simp only [setDuration, List.mem_cons]
      grind
  have gen : ∀ (os : List TaskOption) (T : Int → Int → Option Int),
      os.foldl (fun T p => p.eligible.foldl
        (fun T v => setDuration T (taskAndOptionId p.taskId p.optionId) v p.cost) T) T o v =
      ((os.reverse.find? fun p => taskAndOptionId p.taskId p.optionId == o &&
        p.eligible.contains v).map TaskOption.cost).or (T o v) := by
    intro os
    induction os with
    | nil => intro T; simp
    | cons p ps ih =>
      intro T
      rw [List.foldl_cons, ih, inner, List.reverse_cons, List.find?_append]
      rcases h : List.find? (fun p => taskAndOptionId p.taskId p.optionId == o &&
        p.eligible.contains v) ps.reverse with _ | x
      · simp only [List.find?_singleton]
        by_cases hm : o = taskAndOptionId p.taskId p.optionId ∧ v ∈ p.eligible
        · rw [if_pos hm, if_pos (by simp [hm.1, hm.2])]; simp
        · rw [if_neg hm, if_neg]
          · simp
          · simp only [Bool.and_eq_true, beq_iff_eq, List.contains_iff_mem]
            rintro ⟨rfl, h2⟩
            exact hm ⟨rfl, h2⟩
      · rw [h]; simp
  have := gen os (fun _ _ => none)
  simpa [durationTable] using this

theorem mem_matrixVehicles {es : List CostEntry} {v : Int} :
    v ∈ matrixVehicles es ↔ v ∈ es.map CostEntry.vehicle := by
  have gen : ∀ (es : List CostEntry) (acc : List Int),
      v ∈ es.foldl (fun vs e => if e.vehicle ∈ vs then vs else vs ++ [e.vehicle]) acc ↔
        v ∈ acc ∨ v ∈ es.map CostEntry.vehicle := by
    intro es
    induction es with
    | nil => intro acc; simp
    | cons e es ih =>
      intro acc
      rw [List.foldl_cons, ih]
      split <;> simp <;> grind
  have := gen es []
  simpa [matrixVehicles] using this

theorem nodup_matrixVehicles (es : List CostEntry) : (matrixVehicles es).Nodup := by
  have gen : ∀ (es : List CostEntry) (acc : List Int), acc.Nodup →
      (es.foldl (fun vs e => if e.vehicle ∈ vs then vs else vs ++ [e.vehicle]) acc).Nodup := by
    intro es
    induction es with
    | nil => intro acc h; exact h
    | cons e es ih =>
      intro acc h
      rw [List.foldl_cons]
      apply ih
      split
      · exact h
      · next hne =>
        rw [List.nodup_append]
        refine ⟨h, by simp, ?_⟩
        intro a ha b hb
        simp only [List.mem_singleton] at hb
        subst hb
        intro e; subst e; exact hne ha
  exact gen es [] (by simp)

/-- With legs only to eligible options, the search solves the stated problem. -/
theorem agree_of_eligible {t : Tree} {os : List TaskOption} {es : List CostEntry}
    (h : MatrixEligible os es) : Agree (relaxed (mkInst t os es)) (problemOf t os es) := by
  have htr : ∀ v f o, (relaxed (mkInst t os es)).travel v f o = (problemOf t os es).travel v f o := by
    intro v f o
    simp only [relaxed, mkInst, problemOf, Inst.travelTime, travelTable_eq]
    rcases h : List.find? (fun e => e.vehicle == v && entryFrom e == f &&
        taskAndOptionId e.toTask e.toOption == o) es.reverse with _ | e
    · rw [h]; simp
    · rw [h]; simp
  refine ⟨rfl, fun v => mem_matrixVehicles, htr, ?_⟩
  intro v f o a ha
  rw [htr] at ha
  simp only [problemOf] at ha
  split at ha
  · next e he =>
    have hmem := List.mem_of_find?_eq_some he
    have hp := List.find?_some he
    simp only [Bool.and_eq_true, beq_iff_eq] at hp
    obtain ⟨p, hp1, hp2, hp3⟩ := h e (by simpa using hmem)
    rw [hp.1.1] at hp3
    rw [hp.2] at hp2
    have hk : (mkInst t os es).known o = true := by
      simp only [mkInst, List.any_eq_true, beq_iff_eq]
      exact ⟨p, hp1, hp2⟩
    simp only [relaxed, hk, if_true, problemOf, Inst.taskTime]
    rw [show (mkInst t os es).duration = durationTable os from rfl, durationTable_eq]
    rcases hf : List.find? (fun p => taskAndOptionId p.taskId p.optionId == o &&
        p.eligible.contains v) os.reverse with _ | q
    · exfalso
      have := List.find?_eq_none.1 hf p (by simpa using hp1)
      simp [hp2, hp3] at this
    · rw [hf]; simp
  · simp at ha

end Verif.Assign
