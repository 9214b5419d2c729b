import Verif.Options.RendezvousProps
import Verif.Options.Search
import Verif.Options.CordonProps
import Verif.Assign.SearchProps

/-!
From the options that the tasks publish to the assignment: what the search may choose (C102, C103).
-/

namespace Verif.Options

open Verif Verif.Algebra Verif.Assign

/-! ### Renaming objectives -/

theorem shuffle_map {f : Int → Int} {u v w : List Int} (h : Shuffle u v w) : Shuffle (u.map f) (v.map f) (w.map f) := by
  induction h with
  | nil => exact .nil
  | left _ ih => exact .left ih
  | right _ ih => exact .right ih

theorem shuffle_unmap {f : Int → Int} : ∀ {w u' v' : List Int}, Shuffle u' v' w → ∀ {u v : List Int}, u' = u.map f → v' = v.map f →
    ∃ w', Shuffle u v w' ∧ w = w'.map f := by
  intro w u' v' h
  induction h with
  | nil =>
    intro u v hu hv
    have h₁ : u = [] := by simpa using hu.symm
    have h₂ : v = [] := by simpa using hv.symm
    subst h₁ h₂
    exact ⟨[], .nil, rfl⟩
  | @left a u' v' w _ ih =>
    intro u v hu hv
    cases u with
    | nil => simp at hu
    | cons b u =>
      simp only [List.map_cons, List.cons.injEq] at hu
      obtain ⟨w', h₁, h₂⟩ := ih hu.2 hv
      exact ⟨b :: w', .left h₁, by rw [h₂, hu.1]; rfl⟩
  | @right a u' v' w _ ih =>
    intro u v hu hv
    cases v with
    | nil => simp at hv
    | cons b v =>
      simp only [List.map_cons, List.cons.injEq] at hv
      obtain ⟨w', h₁, h₂⟩ := ih hu hv.2
      exact ⟨b :: w', .right h₁, by rw [h₂, hv.1]; rfl⟩

/-- The words of an expression with renamed objectives. -/
theorem word_rename (f : Int → Int) : ∀ (t : Tree) (w : List Int),
    Word (substTree (fun a => .action (f a)) t) w ↔ ∃ u, Word t u ∧ w = u.map f := by
  apply Tree.rec
    (motive_1 := fun t => ∀ w, Word (substTree (fun a => .action (f a)) t) w ↔ ∃ u, Word t u ∧ w = u.map f)
    (motive_2 := fun cs => ∀ w,
      (WordSeq (substTrees (fun a => .action (f a)) cs) w ↔ ∃ u, WordSeq cs u ∧ w = u.map f) ∧
      (WordAlt (substTrees (fun a => .action (f a)) cs) w ↔ ∃ u, WordAlt cs u ∧ w = u.map f) ∧
      (WordPar (substTrees (fun a => .action (f a)) cs) w ↔ ∃ u, WordPar cs u ∧ w = u.map f))
  · intro a w; simp [substTree, Word]
  · intro o cs ih w
    cases o
    · simpa only [substTree, Word] using (ih w).1
    · simpa only [substTree, Word] using (ih w).2.1
    · simpa only [substTree, Word] using (ih w).2.2
  · intro w; simp [substTrees, WordSeq, WordAlt, WordPar]
  · intro c cs hc ih w
    refine ⟨?_, ?_, ?_⟩
    · simp only [substTrees, WordSeq]
      constructor
      · rintro ⟨u, v, rfl, hu, hv⟩
        obtain ⟨u', hu', rfl⟩ := (hc u).mp hu
        obtain ⟨v', hv', rfl⟩ := (ih v).1.mp hv
        exact ⟨u' ++ v', ⟨u', v', rfl, hu', hv'⟩, by simp⟩
      · rintro ⟨_, ⟨u, v, rfl, hu, hv⟩, rfl⟩
        exact ⟨u.map f, v.map f, by simp, (hc _).mpr ⟨u, hu, rfl⟩, (ih _).1.mpr ⟨v, hv, rfl⟩⟩
    · simp only [substTrees, WordAlt, hc, (ih w).2.1]
      constructor
      · rintro (⟨u, h, e⟩ | ⟨u, h, e⟩)
        · exact ⟨u, .inl h, e⟩
        · exact ⟨u, .inr h, e⟩
      · rintro ⟨u, h | h, e⟩
        · exact .inl ⟨u, h, e⟩
        · exact .inr ⟨u, h, e⟩
    · simp only [substTrees, WordPar]
      constructor
      · rintro ⟨u, v, hs, hu, hv⟩
        obtain ⟨u', hu', rfl⟩ := (hc u).mp hu
        obtain ⟨v', hv', rfl⟩ := (ih v).2.2.mp hv
        obtain ⟨w', h₁, h₂⟩ := shuffle_unmap hs rfl rfl
        exact ⟨w', ⟨u', v', h₁, hu', hv'⟩, h₂⟩
      · rintro ⟨w', ⟨u, v, hs, hu, hv⟩, rfl⟩
        exact ⟨u.map f, v.map f, shuffle_map hs, (hc _).mpr ⟨u, hu, rfl⟩, (ih _).2.2.mpr ⟨v, hv, rfl⟩⟩

/-! ### Tasks side by side -/

theorem shuffle_filter (p : Int → Bool) : ∀ w : List Int, Shuffle (w.filter p) (w.filter fun a => !p a) w
  | [] => .nil
  | a :: w => by
    have ih := shuffle_filter p w
    by_cases h : p a
    · simpa [h] using Shuffle.left ih
    · simpa [h] using Shuffle.right ih

theorem filter_shuffle {p : Int → Bool} {u v w : List Int} (h : Shuffle u v w) (hu : ∀ a ∈ u, p a = true)
    (hv : ∀ a ∈ v, p a = false) : w.filter p = u ∧ (w.filter fun a => !p a) = v := by
  induction h with
  | nil => simp
  | @left a u v w _ ih =>
    obtain ⟨h₁, h₂⟩ := ih (fun b hb => hu b (by simp [hb])) hv
    have := hu a (by simp)
    simp [this, h₁, h₂]
  | @right a u v w _ ih =>
    obtain ⟨h₁, h₂⟩ := ih hu (fun b hb => hv b (by simp [hb]))
    have := hv a (by simp)
    simp [this, h₁, h₂]

/-- Expressions side by side whose objectives are told apart by `key`: the words are those whose parts are words. -/
theorem wordPar_keys (key : Int → Int) : ∀ (l : List (Int × Tree)), (l.map (·.1)).Nodup →
    (∀ p ∈ l, ∀ w, Word p.2 w → ∀ a ∈ w, key a = p.1) → ∀ w,
    (WordPar (l.map (·.2)) w ↔ (∀ a ∈ w, key a ∈ l.map (·.1)) ∧ ∀ p ∈ l, Word p.2 (w.filter fun a => key a == p.1))
  | [], _, _, w => by
    simp only [List.map_nil, WordPar]
    constructor
    · rintro rfl; simp
    · rintro ⟨h, -⟩
      cases w with
      | nil => rfl
      | cons a w => simpa using h a (by simp)
  | (k, t) :: l, hn, hk, w => by
    simp only [List.map_cons, List.nodup_cons] at hn
    have ih := wordPar_keys key l hn.2 (fun p hp => hk p (by simp [hp]))
    simp only [List.map_cons, WordPar]
    constructor
    · rintro ⟨u, v, hs, hu, hv⟩
      have hv' := (ih v).mp hv
      have ku := hk (k, t) (by simp) u hu
      have e := filter_shuffle (p := fun a => key a == k) hs (fun a ha => by simpa using ku a ha) (fun a ha => by
        have := hv'.1 a ha
        simp only [beq_eq_false_iff_ne]
        rintro rfl
        exact hn.1 this)
      refine ⟨?_, ?_⟩
      · intro a ha
        by_cases h : key a = k
        · simp [h]
        · have : a ∈ v := by rw [← e.2]; simp [ha, h]
          exact List.mem_cons_of_mem _ (hv'.1 a this)
      · intro p hp
        rcases List.mem_cons.mp hp with rfl | hp
        · show Word t (w.filter fun a => key a == k)
          rw [e.1]; exact hu
        · have := hv'.2 p hp
          rw [← e.2, List.filter_filter] at this
          have hne : p.1 ≠ k := fun e => hn.1 (e ▸ List.mem_map_of_mem hp)
          have hc : (fun a => (key a == p.1) && !(key a == k)) = fun a => key a == p.1 := by
            funext a
            by_cases h : key a = p.1
            · simp [h, hne]
            · simp [h]
          rwa [hc] at this
    · rintro ⟨h₁, h₂⟩
      refine ⟨_, _, shuffle_filter (fun a => key a == k) w, h₂ (k, t) (by simp), (ih _).mpr ⟨?_, ?_⟩⟩
      · intro a ha
        obtain ⟨ha, hne⟩ := List.mem_filter.mp ha
        have := h₁ a ha
        simp only [List.mem_cons] at this
        rcases this with h | h
        · simp [h] at hne
        · exact h
      · intro p hp
        have hne : p.1 ≠ k := fun e => hn.1 (e ▸ List.mem_map_of_mem hp)
        rw [List.filter_filter]
        have hc : (fun a => (key a == p.1) && !(key a == k)) = fun a => key a == p.1 := by
          funext a
          by_cases h : key a = p.1
          · simp [h, hne]
          · simp [h]
        rw [hc]
        exact h₂ p (by simp [hp])

mutual
theorem word_objectives : ∀ {t : Tree} {w : List Int}, Word t w → ∀ a ∈ w, a ∈ objectives t
  | .action b, w, h, a, ha => by
    simp only [Word] at h
    subst h
    simpa [objectives] using ha
  | .op .seq cs, w, h, a, ha => by
    simp only [Word] at h
    exact (wordL_objectives (cs := cs)).1 h a ha
  | .op .alt cs, w, h, a, ha => by
    simp only [Word] at h
    exact (wordL_objectives (cs := cs)).2.1 h a ha
  | .op .par cs, w, h, a, ha => by
    simp only [Word] at h
    exact (wordL_objectives (cs := cs)).2.2 h a ha
theorem wordL_objectives : ∀ {cs : List Tree} {w : List Int},
    (WordSeq cs w → ∀ a ∈ w, a ∈ objectivesL cs) ∧ (WordAlt cs w → ∀ a ∈ w, a ∈ objectivesL cs) ∧
    (WordPar cs w → ∀ a ∈ w, a ∈ objectivesL cs)
  | [], w => by
    refine ⟨?_, ?_, ?_⟩
    · intro h; simp only [WordSeq] at h; subst h; simp
    · intro h; simp only [WordAlt] at h
    · intro h; simp only [WordPar] at h; subst h; simp
  | c :: cs, w => by
    refine ⟨?_, ?_, ?_⟩
    · intro h a ha
      simp only [WordSeq] at h
      obtain ⟨u, v, rfl, hu, hv⟩ := h
      simp only [objectivesL, List.mem_append]
      rcases List.mem_append.mp ha with ha | ha
      · exact .inl (word_objectives hu a ha)
      · exact .inr ((wordL_objectives (cs := cs)).1 hv a ha)
    · intro h a ha
      simp only [WordAlt] at h
      simp only [objectivesL, List.mem_append]
      rcases h with h | h
      · exact .inl (word_objectives h a ha)
      · exact .inr ((wordL_objectives (cs := cs)).2.1 h a ha)
    · intro h a ha
      simp only [WordPar] at h
      obtain ⟨u, v, hs, hu, hv⟩ := h
      simp only [objectivesL, List.mem_append]
      have : a ∈ u ∨ a ∈ v := by
        clear hu hv
        induction hs with
        | nil => simp at ha
        | left _ ih =>
          rcases List.mem_cons.mp ha with rfl | ha
          · simp
          · rcases ih ha with h | h <;> simp [h]
        | right _ ih =>
          rcases List.mem_cons.mp ha with rfl | ha
          · simp
          · rcases ih ha with h | h <;> simp [h]
      rcases this with h | h
      · exact .inl (word_objectives hu a h)
      · exact .inr ((wordL_objectives (cs := cs)).2.2 hv a h)
end

/-! ### The algebra of a request -/

/-- What a task publishes, and what that stands for: the allowed orders of its options. -/
structure Offer where
  task : Int
  pub : Published
  ids : List Int
  orders : List Int → Prop

/-- The composition means the orders, refers only to published options, and the ids fit the naming scheme of the assignment
(task id times 100000 plus option id, in 64 bits). -/
structure Offer.Good (o : Offer) : Prop where
  means : Means o.pub.composition o.ids o.orders
  published : ∀ i ∈ o.ids, i ∈ o.pub.opts.map (·.id)
  range : ∀ x ∈ o.pub.opts, 0 ≤ x.id ∧ x.id < 100000
  task : 0 ≤ o.task ∧ o.task ≤ 90000000000000

theorem Offer.Good.small {o : Offer} (h : o.Good) : ∀ i ∈ o.ids, 0 ≤ i ∧ i < 100000 := by
  intro i hi
  obtain ⟨x, hx, rfl⟩ := List.mem_map.mp (h.published i hi)
  exact h.range x hx

/-- The messages as the assignment service stores them. -/
def plansOf (req : Int) (offers : List Offer) : List (Int × PlanOptions) :=
  offers.map fun o => (o.task, o.pub.plan req o.task)

/-- The options of a task in an order of all objectives. -/
def part (task : Int) (w : List Int) : List Int := (w.filter fun a => a / 100000 == task).map fun a => a % 100000

theorem map_named {task : Int} {u : List Int} (hu : ∀ a ∈ u, 0 ≤ a ∧ a < 100000) :
    (u.map (taskAndOptionId task)).map (fun a => a % 100000) = u := by
  induction u with
  | nil => rfl
  | cons a u ih =>
    have := hu a (by simp)
    rw [List.map_cons, List.map_cons, ih fun b hb => hu b (by simp [hb])]
    simp only [taskAndOptionId, List.cons.injEq, and_true]
    omega

theorem named_map {task : Int} {u : List Int} (hu : ∀ a ∈ u, a / 100000 = task) :
    u = (u.map fun a => a % 100000).map (taskAndOptionId task) := by
  induction u with
  | nil => rfl
  | cons a u ih =>
    have := hu a (by simp)
    rw [List.map_cons, List.map_cons, ← ih fun b hb => hu b (by simp [hb])]
    simp only [taskAndOptionId, List.cons.injEq, and_true]
    omega

/-- `t` is what the composition of an offer stands for. -/
def Offer.Reads (o : Offer) (t : Tree) : Prop :=
  Padded t o.pub.composition ∧ (∃ p cs, t = .op p cs) ∧ (∀ a, a ∈ objectives t ↔ a ∈ o.ids) ∧ ∀ w, Word t w ↔ o.orders w

theorem choose_trees {R : Offer → Tree → Prop} : ∀ {offers : List Offer}, (offers.map (·.task)).Nodup →
    (∀ o ∈ offers, ∃ t, R o t) → ∃ T : Int → Tree, ∀ o ∈ offers, R o (T o.task)
  | [], _, _ => ⟨fun _ => .action 0, by simp⟩
  | o :: offers, hn, hR => by
    simp only [List.map_cons, List.nodup_cons] at hn
    obtain ⟨T, hT⟩ := choose_trees hn.2 fun p hp => hR p (by simp [hp])
    obtain ⟨t, ht⟩ := hR o (by simp)
    refine ⟨fun k => if k = o.task then t else T k, ?_⟩
    intro p hp
    rcases List.mem_cons.mp hp with rfl | hp
    · simpa using ht
    · have : p.task ≠ o.task := fun e => hn.1 (e ▸ List.mem_map_of_mem hp)
      simp only [if_neg this]
      exact hT p hp

theorem Offer.Good.reads {o : Offer} (h : o.Good) : ∃ t, o.Reads t := by
  obtain ⟨t, s, b, h₁, h₂, h₃, h₄, h₅, h₆⟩ := h.means
  exact ⟨t, ⟨s, b, h₁, h₂, h₃⟩, h₄, h₅, h₆⟩

theorem offers_algebra {req : Int} {offers : List Offer} {T : Int → Tree} (hn : (offers.map (·.task)).Nodup)
    (hg : ∀ o ∈ offers, o.Good) (hT : ∀ o ∈ offers, o.Reads (T o.task)) (hne : ∃ o ∈ offers, o.ids ≠ []) :
    initializeAlgebra [] (plansOf req offers) = .ok (some (.op .par (offers.map fun o => taskTree T o.task))) ∧
      ∀ w, Word (.op .par (offers.map fun o => taskTree T o.task)) w ↔
        (∀ a ∈ w, ∃ o ∈ offers, a / 100000 = o.task) ∧ ∀ o ∈ offers, o.orders (part o.task w) := by
  have hmem : ∀ p ∈ plansOf req offers, ∃ o ∈ offers, p = (o.task, o.pub.plan req o.task) := by
    intro p hp
    obtain ⟨o, ho, rfl⟩ := List.mem_map.mp hp
    exact ⟨o, ho, rfl⟩
  have hgood : GoodPlans (plansOf req offers) T := by
    refine ⟨?_, ?_, ?_, ?_, ?_, ?_⟩
    · simpa [plansOf, List.map_map, Function.comp_def] using hn
    · intro p hp
      obtain ⟨o, ho, rfl⟩ := hmem p hp
      exact (hT o ho).1
    · intro p hp
      obtain ⟨o, ho, rfl⟩ := hmem p hp
      exact (hT o ho).2.1
    · intro p hp a ha
      obtain ⟨o, ho, rfl⟩ := hmem p hp
      have h₁ := (hg o ho).small a (((hT o ho).2.2.1 a).mp ha)
      have h₂ := (hg o ho).task
      refine ⟨⟨by simp only [int64Max]; omega, by simp only [int64Max]; omega⟩, ?_⟩
      unfold inInt64 taskAndOptionId
      rw [Bool.and_eq_true]
      exact ⟨decide_eq_true (by omega), decide_eq_true (by omega)⟩
    · intro p hp a ha
      obtain ⟨o, ho, rfl⟩ := hmem p hp
      obtain ⟨x, hx, rfl⟩ := List.mem_map.mp ((hg o ho).published a (((hT o ho).2.2.1 a).mp ha))
      exact ⟨{ taskId := o.task, optionId := x.id, cost := x.cost, eligible := x.eligible },
        List.mem_map.mpr ⟨x, hx, rfl⟩, rfl, rfl⟩
    · obtain ⟨o, ho, h⟩ := hne
      refine ⟨_, List.mem_map.mpr ⟨o, ho, rfl⟩, ?_⟩
      obtain ⟨a, ha⟩ := List.exists_mem_of_ne_nil _ h
      intro e
      have := ((hT o ho).2.2.1 a).mpr ha
      simp only at e
      rw [e] at this
      simp at this
  have htr : (plansOf req offers).map (fun p => taskTree T p.1) = offers.map fun o => taskTree T o.task := by
    simp [plansOf, List.map_map, Function.comp_def]
  refine ⟨by rw [← htr]; exact C33_all_tasks_in_parallel hgood, ?_⟩
  intro w
  have hkeys := wordPar_keys (fun a => a / 100000) (offers.map fun o => (o.task, taskTree T o.task))
    (by simpa [List.map_map, Function.comp_def] using hn) (by
      intro p hp u hu a ha
      obtain ⟨o, ho, rfl⟩ := List.mem_map.mp hp
      obtain ⟨u', hu', rfl⟩ := (word_rename _ _ _).mp hu
      obtain ⟨b, hb, rfl⟩ := List.mem_map.mp ha
      have h₁ := (hg o ho).small b (((hT o ho).2.2.1 b).mp (word_objectives hu' b hb))
      simp only [taskAndOptionId]
      omega) w
  have htr' : (offers.map fun o => taskTree T o.task) = (offers.map fun o => (o.task, taskTree T o.task)).map (·.2) := by
    simp [List.map_map, Function.comp_def]
  rw [Word, htr', hkeys]
  have h₁ : (∀ a ∈ w, a / 100000 ∈ (offers.map fun o => (o.task, taskTree T o.task)).map (·.1)) ↔
      ∀ a ∈ w, ∃ o ∈ offers, a / 100000 = o.task := by
    simp only [List.map_map, Function.comp_def, List.mem_map]
    exact forall_congr' fun a => forall_congr' fun _ =>
      ⟨fun ⟨o, ho, e⟩ => ⟨o, ho, e.symm⟩, fun ⟨o, ho, e⟩ => ⟨o, ho, e.symm⟩⟩
  rw [h₁]
  refine and_congr_right fun _ => ?_
  simp only [List.forall_mem_map]
  refine forall_congr' fun o => forall_congr' fun ho => ?_
  rw [taskTree, word_rename]
  rw [← (hT o ho).2.2.2]
  have hf : ∀ a ∈ w.filter (fun a => a / 100000 == o.task), a / 100000 = o.task := by
    intro a ha
    simpa using (List.mem_filter.mp ha).2
  constructor
  · rintro ⟨u, hu, e⟩
    rw [part, e, map_named]
    · exact hu
    · intro a ha
      exact (hg o ho).small a (((hT o ho).2.2.1 a).mp (word_objectives hu a ha))
  · intro h
    exact ⟨_, h, named_map hf⟩

/-- **C102**: the algebra that the search runs on allows exactly the orders in which, for each task, the options of the task
form an allowed order of the task, and nothing else occurs. -/
theorem C102_allowed {req : Int} {offers : List Offer} (hn : (offers.map (·.task)).Nodup) (hg : ∀ o ∈ offers, o.Good)
    (hne : ∃ o ∈ offers, o.ids ≠ []) :
    ∃ t, initializeAlgebra [] (plansOf req offers) = .ok (some t) ∧
      ∀ w, Word t w ↔ (∀ a ∈ w, ∃ o ∈ offers, a / 100000 = o.task) ∧ ∀ o ∈ offers, o.orders (part o.task w) := by
  obtain ⟨T, hT⟩ := choose_trees hn fun o ho => (hg o ho).reads
  exact ⟨_, offers_algebra hn hg hT hne⟩

/-! ### Choosing -/

/-- Each option is named once in the composition, and there is no empty operator. -/
def Once (c : Str) (ids : List Int) : Prop :=
  ∃ t, Padded t c ∧ (∀ a, a ∈ objectives t ↔ a ∈ ids) ∧ Distinct t ∧ NonEmptyOps t

/-- A text stands for one expression only. -/
theorem padded_unique {t t' : Tree} {c : Str} {ids : List Int} (hs : ∀ i ∈ ids, 0 ≤ i ∧ i < 100000)
    (h : Padded t c) (h' : Padded t' c) (ho : ∀ a, a ∈ objectives t ↔ a ∈ ids) (ho' : ∀ a, a ∈ objectives t' ↔ a ∈ ids) :
    t = t' := by
  obtain ⟨s, b, e, hb, hw⟩ := h
  obtain ⟨s', b', e', hb', hw'⟩ := h'
  have hr : ∀ {t : Tree}, (∀ a, a ∈ objectives t ↔ a ∈ ids) → ∀ a, Occurs a t → inInt64 a = true ∧ a ∈ ids := by
    intro t ho a ha
    rw [Verif.Algebra.occurs_iff, ← Verif.Algebra.objectives_eq] at ha
    have := hs a ((ho a).mp ha)
    refine ⟨?_, (ho a).mp ha⟩
    unfold inInt64
    rw [Bool.and_eq_true]
    exact ⟨decide_eq_true (by omega), decide_eq_true (by omega)⟩
  obtain ⟨g, g₁, g₂, -⟩ := Verif.Algebra.C30_parse_written (known := ids) (b1 := []) hw (by simp [Blanks]) hb
    (fun a ha => (hr ho a ha).1) (fun a ha => (hr ho a ha).2)
  obtain ⟨g', g₁', g₂', -⟩ := Verif.Algebra.C30_parse_written (known := ids) (b1 := []) hw' (by simp [Blanks]) hb'
    (fun a ha => (hr ho' a ha).1) (fun a ha => (hr ho' a ha).2)
  rw [List.nil_append, ← e] at g₁
  rw [List.nil_append, ← e', g₁] at g₁'
  simp only [Outcome.ok.injEq, Prod.mk.injEq, and_true] at g₁'
  subst g₁'
  rw [g₂] at g₂'
  simpa using g₂'

theorem nonEmptyOps_rename (f : Int → Int) : ∀ t, NonEmptyOps t → NonEmptyOps (substTree (fun a => .action (f a)) t) := by
  apply Tree.rec
    (motive_1 := fun t => NonEmptyOps t → NonEmptyOps (substTree (fun a => .action (f a)) t))
    (motive_2 := fun cs => (NonEmptyOpsList cs → NonEmptyOpsList (substTrees (fun a => .action (f a)) cs)) ∧
      (cs ≠ [] → substTrees (fun a => .action (f a)) cs ≠ []))
  · intro a _; simp [substTree, NonEmptyOps]
  · intro o cs ih h
    simp only [substTree, NonEmptyOps] at h ⊢
    exact ⟨ih.2 h.1, ih.1 h.2⟩
  · simp [substTrees, NonEmptyOpsList]
  · intro c cs h₁ h₂
    refine ⟨fun h => ?_, by simp [substTrees]⟩
    simp only [substTrees, NonEmptyOpsList] at h ⊢
    exact ⟨h₁ h.1, h₂.1 h.2⟩

theorem nodup_named {l : List Int} (h : l.Nodup) (task : Int) : (l.map (taskAndOptionId task)).Nodup := by
  rw [List.nodup_iff_pairwise_ne, List.pairwise_map]
  refine (List.nodup_iff_pairwise_ne.mp h).imp ?_
  intro a b hab e
  simp only [taskAndOptionId] at e
  exact hab (by omega)

theorem offers_distinct {offers : List Offer} {T : Int → Tree} (hn : (offers.map (·.task)).Nodup)
    (hs : ∀ o ∈ offers, ∀ a ∈ objectives (T o.task), 0 ≤ a ∧ a < 100000)
    (hd : ∀ o ∈ offers, Distinct (T o.task) ∧ NonEmptyOps (T o.task)) :
    (objectivesL (offers.map fun o => taskTree T o.task)).Nodup ∧ NonEmptyOpsList (offers.map fun o => taskTree T o.task) ∧
    ∀ a ∈ objectivesL (offers.map fun o => taskTree T o.task), ∃ o ∈ offers, a / 100000 = o.task := by
  induction offers with
  | nil => simp [objectivesL, NonEmptyOpsList]
  | cons o offers ih =>
    simp only [List.map_cons, List.nodup_cons] at hn
    obtain ⟨h₁, h₂, h₃⟩ := ih hn.2 (fun p hp => hs p (by simp [hp])) (fun p hp => hd p (by simp [hp]))
    have ho : ∀ a ∈ objectives (taskTree T o.task), a / 100000 = o.task := by
      intro a ha
      rw [taskTree, objectives_subst] at ha
      obtain ⟨b, hb, rfl⟩ := List.mem_map.mp ha
      have := hs o (by simp) b hb
      simp only [taskAndOptionId]
      omega
    simp only [List.map_cons, objectivesL, NonEmptyOpsList]
    refine ⟨?_, ⟨nonEmptyOps_rename _ _ (hd o (by simp)).2, h₂⟩, ?_⟩
    · refine List.nodup_append.mpr ⟨?_, h₁, ?_⟩
      · rw [taskTree, objectives_subst]
        exact nodup_named (hd o (by simp)).1 _
      · intro a ha b hb e
        subst e
        obtain ⟨p, hp, hap⟩ := h₃ a hb
        exact hn.1 (by rw [← ho a ha, hap]; exact List.mem_map_of_mem hp)
    · intro a ha
      rcases List.mem_append.mp ha with ha | ha
      · exact ⟨o, by simp, ho a ha⟩
      · obtain ⟨p, hp, h⟩ := h₃ a ha
        exact ⟨p, by simp [hp], h⟩

theorem offers_chosen {req : Int} {offers : List Offer} (hn : (offers.map (·.task)).Nodup) (hg : ∀ o ∈ offers, o.Good)
    (ho : ∀ o ∈ offers, Once o.pub.composition o.ids) (hne : ∃ o ∈ offers, o.ids ≠ []) :
    ∃ t, initializeAlgebra [] (plansOf req offers) = .ok (some t) ∧ Distinct t ∧ NonEmptyOps t ∧
      ∀ w, Word t w ↔ (∀ a ∈ w, ∃ o ∈ offers, a / 100000 = o.task) ∧ ∀ o ∈ offers, o.orders (part o.task w) := by
  obtain ⟨T, hT⟩ := choose_trees hn fun o ho => (hg o ho).reads
  obtain ⟨h₁, h₂⟩ := offers_algebra (req := req) hn hg hT hne
  have hd : ∀ o ∈ offers, Distinct (T o.task) ∧ NonEmptyOps (T o.task) := by
    intro o hm
    obtain ⟨t, t₁, t₂, t₃, t₄⟩ := ho o hm
    have := padded_unique (hg o hm).small (hT o hm).1 t₁ (hT o hm).2.2.1 t₂
    rw [this]
    exact ⟨t₃, t₄⟩
  obtain ⟨d₁, d₂, -⟩ := offers_distinct hn (fun o hm a ha => (hg o hm).small a (((hT o hm).2.2.1 a).mp ha)) hd
  refine ⟨_, h₁, ?_, ⟨?_, d₂⟩, h₂⟩
  · simpa only [Distinct, objectives] using d₁
  · obtain ⟨o, hm, -⟩ := hne
    intro e
    have := List.map_eq_nil_iff.mp e
    rw [this] at hm
    simp at hm

/-- **C102**, for tasks that name each option once: the orders that the search can follow to the end are exactly those in which
the options of each task form an allowed order of the task. -/
theorem C102_chosen_partial {req : Int} {offers : List Offer} (hn : (offers.map (·.task)).Nodup) (hg : ∀ o ∈ offers, o.Good)
    (ho : ∀ o ∈ offers, Once o.pub.composition o.ids) (hne : ∃ o ∈ offers, o.ids ≠ []) :
    ∃ t, initializeAlgebra [] (plansOf req offers) = .ok (some t) ∧
      ∀ g : Alg, g.root = some t → ∀ w, (Run g w ∧ searchNext g w = .ok []) ↔
        (∀ a ∈ w, ∃ o ∈ offers, a / 100000 = o.task) ∧ ∀ o ∈ offers, o.orders (part o.task w) := by
  obtain ⟨t, h₁, h₂, h₃, h₄⟩ := offers_chosen (req := req) hn hg ho hne
  exact ⟨t, h₁, fun g hgr w => (C28_complete_orders hgr h₂ h₃ w).trans (h₄ w)⟩

/-! ### The published assignment -/

theorem timeline_fst {P : Problem} {v : Int} : ∀ {os : List Int} {at_ t : Int} {l : List (Int × Int)},
    timeline P v at_ t os = some l → l.map Prod.fst = os ∧ ∀ o ∈ os, ∃ d, P.duration o v = some d
  | [], _, _, l, h => by
    simp only [timeline, Option.some.injEq] at h
    subst h; simp
  | o :: os, at_, t, l, h => by
    rw [timeline] at h
    split at h
    · next a d ha hd =>
      obtain ⟨r, hr, rfl⟩ := Option.map_eq_some_iff.mp h
      obtain ⟨h₁, h₂⟩ := timeline_fst hr
      refine ⟨by simp [h₁], ?_⟩
      intro x hx
      rcases List.mem_cons.mp hx with rfl | hx
      · exact ⟨d, hd⟩
      · exact h₂ x hx
    · simp at h

/-- The objective and vehicle of an assignment. -/
def decision (a : Assign.Assignment) : Int × Int := (taskAndOptionId a.taskId a.optionId, a.vehicle)

theorem published_perm {P : Problem} {s : Schedule} {tasks : List Assign.Assignment} (hp : Publishes P s tasks)
    (hs : ∀ p ∈ s, p.2 ∈ P.vehicles) : (tasks.map decision).Perm s := by
  rw [List.perm_iff_count]
  rintro ⟨x, v⟩
  by_cases hv : v ∈ P.vehicles
  · obtain ⟨l, h₁, h₂⟩ := hp.2 v hv
    obtain ⟨h₃, -⟩ := timeline_fst h₁
    have e : (tasks.filter fun a => a.vehicle == v).map decision = s.filter fun p => p.2 == v := by
      rw [h₂, List.map_map]
      have h₄ : (decision ∘ published v) = fun e : Int × Int => (e.1, v) := by
        funext e
        simp only [Function.comp, decision, published]
        rw [C32_reencode]
      rw [h₄]
      have h₅ : l.map (fun e : Int × Int => (e.1, v)) = (l.map Prod.fst).map fun x => (x, v) := by simp
      rw [h₅, h₃, share, List.map_map]
      conv => rhs; rw [← List.map_id (s.filter fun p => p.2 == v)]
      apply List.map_congr_left
      intro p hp'
      have := (List.mem_filter.mp hp').2
      simp only [beq_iff_eq] at this
      simp [Function.comp, ← this]
    have c₁ : ∀ {α : Type} (f : α → Int × Int) (g : α → Int) (l : List α), (∀ a, (f a).2 = g a) →
        (l.map f).count (x, v) = ((l.filter fun a => g a == v).map f).count (x, v) := by
      intro α f g l hfg
      induction l with
      | nil => rfl
      | cons a l ih =>
        rw [List.map_cons, List.count_cons, ih]
        by_cases h : g a = v
        · simp [h, List.count_cons]
        · have : (f a == (x, v)) = false := by
            rw [beq_eq_false_iff_ne]
            intro e
            exact h (by rw [← hfg a, e])
          simp [h, this]
    have c₂ := c₁ decision (fun a => a.vehicle) tasks (fun _ => rfl)
    have c₃ := c₁ id (fun p => p.2) s (fun _ => rfl)
    rw [List.map_id, List.map_id] at c₃
    rw [c₂, c₃, e]
  · rw [List.count_eq_zero.mpr, List.count_eq_zero.mpr]
    · intro h; exact hv (hs _ h)
    · intro h
      obtain ⟨a, ha, e⟩ := List.mem_map.mp h
      have := hp.1 a ha
      have e' : a.vehicle = v := congrArg Prod.snd e
      exact hv (e' ▸ this)

theorem perm_lift {α β : Type} {f : α → β} {l' s : List β} (h : l'.Perm s) : ∀ {l : List α}, l.map f = l' →
    ∃ w : List α, w.Perm l ∧ w.map f = s := by
  induction h with
  | nil => intro l hl; exact ⟨l, .refl _, hl⟩
  | cons x _ ih =>
    intro l hl
    cases l with
    | nil => simp at hl
    | cons a l =>
      simp only [List.map_cons, List.cons.injEq] at hl
      obtain ⟨w, h₁, h₂⟩ := ih hl.2
      exact ⟨a :: w, h₁.cons a, by simp [h₂, hl.1]⟩
  | swap x y l₀ =>
    intro l hl
    match l, hl with
    | [], hl => simp at hl
    | [_], hl => simp at hl
    | a :: b :: l, hl =>
      simp only [List.map_cons, List.cons.injEq] at hl
      exact ⟨b :: a :: l, .swap .., by simp [hl.1, hl.2.1, hl.2.2]⟩
  | trans _ _ ih₁ ih₂ =>
    intro l hl
    obtain ⟨w, h₁, h₂⟩ := ih₁ hl
    obtain ⟨w', h₃, h₄⟩ := ih₂ h₂
    exact ⟨w', h₃.trans h₁, h₄⟩

/-- **C102, the published assignment**, for tasks that name each option once and a cost matrix with legs only to options the
vehicle is eligible for: every assignment is an option that its task published, for a vehicle that the option lists; and the
assignments can be put in an order in which the options of each task form an allowed order of the task. -/
theorem C102_assignment_partial {cfg : Config} {order : Node → List Int} {pub : List Int} {req : Request}
    {offers : List Offer} {m : CostMatrix} {rs : List Reply} (hrel : req.relationships = [])
    (hn : (offers.map (·.task)).Nodup) (hg : ∀ o ∈ offers, o.Good) (ho : ∀ o ∈ offers, Once o.pub.composition o.ids)
    (hne : ∃ o ∈ offers, o.ids ≠ []) (hor : Orders m order pub)
    (he : MatrixEligible (allOptions (plansOf req.requestId offers)) m.entries)
    (hr : calculateAssignment cfg order pub req (plansOf req.requestId offers) m = .ok rs)
    {id region : Int} {tasks : List Assign.Assignment} (hs : Reply.summary id region tasks ∈ rs) :
    id = req.requestId ∧ region = req.operatingRegion ∧
    (∀ a ∈ tasks, ∃ o ∈ offers, a.taskId = o.task ∧ ∃ x ∈ o.pub.opts, a.optionId = x.id ∧ a.vehicle ∈ x.eligible) ∧
    ∃ w : List Assign.Assignment, w.Perm tasks ∧ ∀ o ∈ offers, o.orders ((w.filter fun a => a.taskId == o.task).map (·.optionId)) := by
  obtain ⟨t, t₁, t₂, t₃, t₄⟩ := offers_chosen (req := req.requestId) hn hg ho hne
  obtain ⟨e₁, e₂, s, hf, hp⟩ := C34_feasible_partial hor he (by rw [hrel]; exact t₁) t₂ t₃ hr hs
  have hperm := published_perm hp hf.2.1
  obtain ⟨hw₁, hw₂⟩ := (t₄ _).mp hf.1
  -- each decision is an option of its task
  have hdec : ∀ p ∈ s, ∃ o ∈ offers, ∃ x ∈ o.pub.opts, p.1 = taskAndOptionId o.task x.id ∧ p.2 ∈ x.eligible := by
    intro p hps
    obtain ⟨l, hl⟩ := hf.2.2 p.2 (hf.2.1 p hps)
    obtain ⟨-, hd⟩ := timeline_fst hl
    obtain ⟨d, hd⟩ := hd p.1 (List.mem_map.mpr ⟨p, List.mem_filter.mpr ⟨hps, by simp⟩, rfl⟩)
    simp only [problemOf, Option.map_eq_some_iff] at hd
    obtain ⟨y, hy, -⟩ := hd
    have hy₁ := List.mem_of_find?_eq_some hy
    have hy₂ := List.find?_some hy
    simp only [Bool.and_eq_true, beq_iff_eq, List.contains_iff_mem] at hy₂
    obtain ⟨q, hq, hyq⟩ := List.mem_flatMap.mp (List.mem_reverse.mp hy₁)
    obtain ⟨o, hoo, rfl⟩ := List.mem_map.mp hq
    obtain ⟨x, hx, rfl⟩ := List.mem_map.mp hyq
    exact ⟨o, hoo, x, hx, hy₂.1.symm, hy₂.2⟩
  have hid : ∀ a ∈ tasks, ∃ o ∈ offers, ∃ x ∈ o.pub.opts, taskAndOptionId a.taskId a.optionId = taskAndOptionId o.task x.id ∧
      a.vehicle ∈ x.eligible := by
    intro a ha
    exact hdec (decision a) (hperm.subset (List.mem_map_of_mem ha))
  have hsplit : ∀ a ∈ tasks, a.taskId = taskIdOf (taskAndOptionId a.taskId a.optionId) ∧
      a.optionId = optionIdOf (taskAndOptionId a.taskId a.optionId) := by
    intro a ha
    obtain ⟨l, -, h₂⟩ := hp.2 a.vehicle (hp.1 a ha)
    have : a ∈ l.map (published a.vehicle) := by rw [← h₂]; exact List.mem_filter.mpr ⟨ha, by simp⟩
    obtain ⟨e, -, hae⟩ := List.mem_map.mp this
    have h₃ : a.taskId = taskIdOf e.1 := by rw [← hae]; rfl
    have h₄ : a.optionId = optionIdOf e.1 := by rw [← hae]; rfl
    rw [h₃, h₄, C32_reencode]
    exact ⟨rfl, rfl⟩
  have hback : ∀ a ∈ tasks, ∃ o ∈ offers, ∃ x ∈ o.pub.opts, a.taskId = o.task ∧ a.optionId = x.id ∧ a.vehicle ∈ x.eligible := by
    intro a ha
    obtain ⟨o, hoo, x, hx, h₁, h₂⟩ := hid a ha
    obtain ⟨h₃, h₄⟩ := hsplit a ha
    have r₁ := (hg o hoo).range x hx
    have r₂ := (hg o hoo).task
    obtain ⟨y, -, h₅, h₆⟩ := C32_roundtrip_partial (t := o.task) (o := x.id) r₂.1 r₁.1 r₁.2 (by simp only [int64Max]; omega)
    refine ⟨o, hoo, x, hx, ?_, ?_, h₂⟩
    · rw [h₃, h₁]
      simp only [taskIdOf, taskAndOptionId]
      rw [Int.tdiv_eq_ediv_of_nonneg (by omega)]
      omega
    · rw [h₄, h₁]
      simp only [optionIdOf, taskAndOptionId]
      rw [Int.tmod_eq_emod_of_nonneg (by omega)]
      omega
  refine ⟨e₁, e₂, ?_, ?_⟩
  · intro a ha
    obtain ⟨o, hoo, x, hx, h₁, h₂, h₃⟩ := hback a ha
    exact ⟨o, hoo, h₁, x, hx, h₂, h₃⟩
  · obtain ⟨w, w₁, w₂⟩ := perm_lift hperm rfl
    refine ⟨w, w₁, ?_⟩
    intro o hoo
    have := hw₂ o hoo
    rw [← w₂, part, List.map_map, List.filter_map, List.map_map] at this
    have h₁ : w.filter ((fun a => a / 100000 == o.task) ∘ Prod.fst ∘ decision) = w.filter fun a => a.taskId == o.task := by
      apply List.filter_congr
      intro a ha
      obtain ⟨o', hoo', x, hx, h₁, h₂, -⟩ := hback a (w₁.subset ha)
      have r₁ := (hg o' hoo').range x hx
      simp only [Function.comp, decision, taskAndOptionId]
      rw [h₂]
      have : (a.taskId * 100000 + x.id) / 100000 = a.taskId := by omega
      rw [this]
    have h₂ : (w.filter fun a => a.taskId == o.task).map ((fun a => a % 100000) ∘ Prod.fst ∘ decision) =
        (w.filter fun a => a.taskId == o.task).map (·.optionId) := by
      apply List.map_congr_left
      intro a ha
      obtain ⟨o', hoo', x, hx, h₁, h₂, -⟩ := hback a (w₁.subset (List.mem_filter.mp ha).1)
      have r₁ := (hg o' hoo').range x hx
      simp only [Function.comp, decision, taskAndOptionId]
      rw [h₂]
      omega
    rw [h₁, h₂] at this
    exact this

/-- **C102**: a task whose allowed orders are its single options is assigned exactly once, with one of them. -/
theorem C102_single_partial {cfg : Config} {order : Node → List Int} {pub : List Int} {req : Request}
    {offers : List Offer} {m : CostMatrix} {rs : List Reply} (hrel : req.relationships = [])
    (hn : (offers.map (·.task)).Nodup) (hg : ∀ o ∈ offers, o.Good) (ho : ∀ o ∈ offers, Once o.pub.composition o.ids)
    (hne : ∃ o ∈ offers, o.ids ≠ []) (hor : Orders m order pub)
    (he : MatrixEligible (allOptions (plansOf req.requestId offers)) m.entries)
    (hr : calculateAssignment cfg order pub req (plansOf req.requestId offers) m = .ok rs)
    {id region : Int} {tasks : List Assign.Assignment} (hs : Reply.summary id region tasks ∈ rs)
    {o : Offer} (hm : o ∈ offers) (hsingle : ∀ w, o.orders w → ∃ x ∈ o.pub.opts, w = [x.id]) :
    ∃ a, tasks.filter (fun a => a.taskId == o.task) = [a] ∧ ∃ x ∈ o.pub.opts, a.optionId = x.id := by
  obtain ⟨-, -, -, w, w₁, w₂⟩ := C102_assignment_partial hrel hn hg ho hne hor he hr hs
  obtain ⟨x, hx, e⟩ := hsingle _ (w₂ o hm)
  have hp := w₁.filter fun a => a.taskId == o.task
  rw [List.map_eq_singleton_iff] at e
  obtain ⟨a, e₁, e₂⟩ := e
  rw [e₁] at hp
  exact ⟨a, List.perm_singleton.mp hp.symm, x, hx, e₂⟩

end Verif.Options
