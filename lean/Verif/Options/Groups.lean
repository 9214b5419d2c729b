import Verif.Options.Model

/-!
C92: the vehicles for which a task makes options.
-/

namespace Verif.Options

theorem groupOf_nil (k : Key) : groupOf [] k = [] := rfl

theorem groupOf_cons (p : Key × List Int) (g : Groups) (k : Key) :
    groupOf (p :: g) k = if p.1 = k then p.2 else groupOf g k := by
  obtain ⟨k', vs⟩ := p
  unfold groupOf
  by_cases h : k' = k
  · subst h; simp [List.lookup]
  · have : (k == k') = false := by simpa using fun e => h e.symm
    simp [List.lookup, h, this]

/-- What appending does to the entries of the groups. -/
theorem mem_pushTo {g : Groups} {k : Key} {v : Int} {q : Key × List Int} (h : q ∈ pushTo g k v) :
    q ∈ g ∨ q.1 = k ∧ (q.2 = [v] ∨ ∃ vs, (k, vs) ∈ g ∧ q.2 = vs ++ [v]) := by
  induction g with
  | nil => simp [pushTo] at h; subst h; exact .inr ⟨rfl, .inl rfl⟩
  | cons p g ih =>
    rw [pushTo] at h
    by_cases hk : p.1 = k
    · rw [if_pos hk] at h
      rcases List.mem_cons.mp h with rfl | h
      · exact .inr ⟨hk, .inr ⟨p.2, by subst hk; simp, rfl⟩⟩
      · exact .inl (by simp [h])
    · rw [if_neg hk] at h
      rcases List.mem_cons.mp h with rfl | h
      · exact .inl (by simp)
      · rcases ih h with h | ⟨h₁, h₂⟩
        · exact .inl (by simp [h])
        · refine .inr ⟨h₁, h₂.imp id ?_⟩
          rintro ⟨vs, h₃, h₄⟩
          exact ⟨vs, by simp [h₃], h₄⟩

theorem vehicles_cons (p : Key × List Int) (g : Groups) : vehicles (p :: g) = p.2 ++ vehicles g := rfl

theorem mem_vehicles {g : Groups} {v : Int} : v ∈ vehicles g ↔ ∃ p ∈ g, v ∈ p.2 := by
  simp [vehicles]

theorem mem_vehicles_pushTo {g : Groups} {k : Key} {v w : Int} :
    w ∈ vehicles (pushTo g k v) ↔ w = v ∨ w ∈ vehicles g := by
  induction g with
  | nil => simp [pushTo, vehicles]
  | cons p g ih =>
    rw [pushTo]
    by_cases hk : p.1 = k
    · rw [if_pos hk]; simp only [vehicles_cons, List.mem_append, List.mem_singleton]; grind
    · rw [if_neg hk]; simp only [vehicles_cons, List.mem_append, ih]; grind

theorem mem_vehicles_of_group {g : Groups} {k : Key} {v : Int} (h : v ∈ groupOf g k) : v ∈ vehicles g := by
  induction g with
  | nil => simp [groupOf_nil] at h
  | cons p g ih =>
    rw [groupOf_cons] at h
    rw [vehicles_cons, List.mem_append]
    split at h
    · exact .inl h
    · exact .inr (ih h)

/-- The vehicles after a configuration. -/
theorem mem_vehicles_add {el : List Int} {g : Groups} {c : Int × Key} {w : Int} :
    w ∈ vehicles (addConfig el g c) ↔ w ∈ vehicles g ∨ w = c.1 ∧ (el = [] ∨ c.1 ∈ el) := by
  unfold addConfig
  by_cases he : el = [] ∨ c.1 ∈ el
  · have hb : (el.isEmpty || el.contains c.1) = true := by
      rcases he with rfl | he
      · rfl
      · simp [List.contains_iff_mem, he]
    rw [if_pos hb]
    by_cases hc : c.1 ∈ groupOf g c.2
    · rw [if_pos (by simpa [List.contains_iff_mem] using hc)]
      have := mem_vehicles_of_group hc
      grind
    · rw [if_neg (by simpa [List.contains_iff_mem] using hc), mem_vehicles_pushTo]
      grind
  · have hb : ¬ (el.isEmpty || el.contains c.1) = true := by
      simp only [not_or] at he
      simp [List.contains_iff_mem, he]
    rw [if_neg hb]
    simp [he]

theorem mem_vehicles_fold {el : List Int} {w : Int} : ∀ (cs : List (Int × Key)) (g : Groups),
    w ∈ vehicles (cs.foldl (addConfig el) g) ↔ w ∈ vehicles g ∨ (∃ k, (w, k) ∈ cs) ∧ (el = [] ∨ w ∈ el)
  | [], g => by simp
  | c :: cs, g => by
    rw [List.foldl_cons, mem_vehicles_fold cs, mem_vehicles_add]
    obtain ⟨v, k⟩ := c
    simp only [List.mem_cons, Prod.mk.injEq]
    grind

theorem mem_requested {g : Groups} {es : List Int} {w : Int} :
    w ∈ vehicles (requested g es) ↔ w ∈ vehicles g ∧ (es = [] ∨ w ∈ es) := by
  unfold requested
  by_cases he : es = []
  · simp [he]
  · have hb : es.isEmpty = false := by simp [he]
    simp only [hb, Bool.false_eq_true, if_false]
    simp only [mem_vehicles, List.mem_filterMap]
    constructor
    · rintro ⟨p, ⟨q, hq, h⟩, hw⟩
      split at h
      · cases h
      · cases h
        have := List.mem_filter.mp hw
        exact ⟨⟨q, hq, this.1⟩, .inr (by simpa [List.contains_iff_mem] using this.2)⟩
    · rintro ⟨⟨q, hq, hw⟩, h⟩
      have hm : w ∈ q.2.filter fun v => es.contains v := List.mem_filter.mpr ⟨hw, by simp [List.contains_iff_mem]; exact h.resolve_left he⟩
      refine ⟨(q.1, q.2.filter fun v => es.contains v), ⟨q, hq, ?_⟩, hm⟩
      rw [if_neg (by simp only [List.isEmpty_iff]; exact List.ne_nil_of_mem hm)]

/-- **C92.** The vehicles for which options are made are those with a known configuration that are eligible for the task
(all when the task lists none) and are named in the request (all when the request names none). -/
theorem C92_exact (el es : List Int) (cs : List (Int × Key)) (w : Int) :
    w ∈ vehicles (requested (groups el cs) es) ↔
      (∃ k, (w, k) ∈ cs) ∧ (el = [] ∨ w ∈ el) ∧ (es = [] ∨ w ∈ es) := by
  rw [mem_requested, groups, mem_vehicles_fold]
  have : w ∉ vehicles [] := by simp [vehicles]
  grind

/-- All groups have a vehicle, and the vehicles of a group have its speed and altitude. -/
structure GInv (cs : List (Int × Key)) (g : Groups) : Prop where
  keys : (g.map (·.1)).Nodup
  nonempty : ∀ p ∈ g, p.2 ≠ []
  nodup : ∀ p ∈ g, p.2.Nodup
  from_ : ∀ p ∈ g, ∀ v ∈ p.2, (v, p.1) ∈ cs

theorem keys_pushTo (g : Groups) (k : Key) (v : Int) :
    (pushTo g k v).map (·.1) = if k ∈ g.map (·.1) then g.map (·.1) else g.map (·.1) ++ [k] := by
  induction g with
  | nil => simp [pushTo]
  | cons p g ih =>
    rw [pushTo]
    by_cases hk : p.1 = k
    · simp [hk]
    · have : ¬ k = p.1 := fun e => hk e.symm
      simp only [if_neg hk, List.map_cons, ih, List.mem_cons, this, false_or]
      split <;> simp

theorem groupOf_mem {g : Groups} (hn : (g.map (·.1)).Nodup) {k : Key} {vs : List Int} (h : (k, vs) ∈ g) :
    groupOf g k = vs := by
  induction g with
  | nil => simp at h
  | cons p g ih =>
    rw [groupOf_cons]
    simp only [List.map_cons, List.nodup_cons] at hn
    rcases List.mem_cons.mp h with rfl | h
    · simp
    · rw [if_neg, ih hn.2 h]
      intro e
      exact hn.1 (e ▸ List.mem_map.mpr ⟨(k, vs), h, rfl⟩)

theorem GInv.add {el : List Int} {cs : List (Int × Key)} {g : Groups} (h : GInv cs g) (c : Int × Key) :
    GInv (cs ++ [c]) (addConfig el g c) := by
  have weaken : GInv (cs ++ [c]) g := ⟨h.keys, h.nonempty, h.nodup, fun p hp v hv => by simp [h.from_ p hp v hv]⟩
  unfold addConfig
  split
  · split
    · exact weaken
    · next hc =>
      have hc : c.1 ∉ groupOf g c.2 := by simpa [List.contains_iff_mem] using hc
      refine ⟨?_, ?_, ?_, ?_⟩
      · rw [keys_pushTo]
        split
        · exact h.keys
        · next hk =>
          exact List.nodup_append.mpr ⟨h.keys, by simp, by
            intro a ha b hb
            simp at hb; subst hb; intro e; exact hk (e ▸ ha)⟩
      · intro q hq
        rcases mem_pushTo hq with hq | ⟨-, hq | ⟨vs, -, hq⟩⟩
        · exact h.nonempty q hq
        · rw [hq]; simp
        · rw [hq]; simp
      · intro q hq
        rcases mem_pushTo hq with hq | ⟨-, hq | ⟨vs, hv, hq⟩⟩
        · exact h.nodup q hq
        · rw [hq]; simp
        · rw [hq]
          rw [groupOf_mem h.keys hv] at hc
          exact List.nodup_append.mpr ⟨h.nodup _ hv, by simp, by
            intro a ha b hb
            simp at hb; subst hb; intro e; exact hc (e ▸ ha)⟩
      · intro q hq v hv
        rcases mem_pushTo hq with hq | ⟨hk, hq | ⟨vs, hvs, hq⟩⟩
        · simp [h.from_ q hq v hv]
        · rw [hq] at hv; simp at hv; subst hv; rw [hk]; simp
        · rw [hq] at hv
          rcases List.mem_append.mp hv with hv | hv
          · rw [hk]; simp [h.from_ _ hvs v hv]
          · simp at hv; subst hv; rw [hk]; simp
  · exact weaken

theorem ginv_fold {el : List Int} : ∀ (cs pre : List (Int × Key)) (g : Groups), GInv pre g →
    GInv (pre ++ cs) (cs.foldl (addConfig el) g)
  | [], pre, g, h => by simpa using h
  | c :: cs, pre, g, h => by
    have := ginv_fold (el := el) cs (pre ++ [c]) _ (h.add (el := el) c)
    simpa using this

theorem ginv (el : List Int) (cs : List (Int × Key)) : GInv cs (groups el cs) := by
  simpa [groups] using ginv_fold (el := el) cs [] [] ⟨by simp, by simp, by simp, by simp⟩

theorem keys_filterMap (es : List Int) : ∀ g : Groups,
    ((g.filterMap fun p =>
      let vs := p.2.filter fun v => es.contains v
      if vs.isEmpty then none else some (p.1, vs)).map (·.1)).Sublist (g.map (·.1))
  | [] => by simp
  | p :: g => by
    have ih := keys_filterMap es g
    rw [List.filterMap_cons]
    split
    · exact ih.trans (by simp)
    · next b hb =>
      by_cases he : (p.2.filter fun v => es.contains v).isEmpty = true
      · simp only [he, if_true] at hb; cases hb
      · simp only [he] at hb
        cases hb
        simpa using ih

theorem GInv.requested {cs : List (Int × Key)} {g : Groups} (h : GInv cs g) (es : List Int) :
    GInv cs (requested g es) := by
  unfold Options.requested
  split
  · exact h
  · refine ⟨?_, ?_, ?_, ?_⟩
    · exact h.keys.sublist (keys_filterMap es g)
    all_goals
      intro q hq
      simp only [List.mem_filterMap] at hq
      obtain ⟨p, hp, hq⟩ := hq
      split at hq
      · cases hq
      · next hne =>
        cases hq
        first
        | (simp only [List.isEmpty_iff] at hne; exact hne)
        | exact (h.nodup p hp).filter _
        | exact fun v hv => h.from_ p hp v (List.mem_filter.mp hv).1

theorem vehicles_nodup {cs : List (Int × Key)} {g : Groups} (h : GInv cs g)
    (hc : ∀ v k k', (v, k) ∈ cs → (v, k') ∈ cs → k = k') : (vehicles g).Nodup := by
  induction g with
  | nil => simp [vehicles]
  | cons p g ih =>
    have hk := h.keys
    simp only [List.map_cons, List.nodup_cons] at hk
    rw [vehicles_cons]
    refine List.nodup_append.mpr ⟨h.nodup p (by simp), ih ⟨hk.2, fun q hq => h.nonempty q (by simp [hq]),
      fun q hq => h.nodup q (by simp [hq]), fun q hq => h.from_ q (by simp [hq])⟩, ?_⟩
    intro a ha b hb e
    subst e
    obtain ⟨q, hq, hb⟩ := mem_vehicles.mp hb
    have h₁ := h.from_ p (by simp) a ha
    have h₂ := h.from_ q (by simp [hq]) a hb
    exact hk.1 (List.mem_map.mpr ⟨q, hq, hc _ _ _ h₂ h₁⟩)

/-- **C92, each vehicle once**, when the nominal speed and altitude of a vehicle do not change. -/
theorem C92_once_partial (el es : List Int) (cs : List (Int × Key))
    (hc : ∀ v k k', (v, k) ∈ cs → (v, k') ∈ cs → k = k') : (vehicles (requested (groups el cs) es)).Nodup :=
  vehicles_nodup ((ginv el cs).requested es) hc

/-- **C92, the group of a vehicle**: options for a vehicle use a speed and altitude that it was configured with, and no group
is empty. -/
theorem C92_group (el es : List Int) (cs : List (Int × Key)) : ∀ p ∈ requested (groups el cs) es,
    p.2 ≠ [] ∧ ∀ v ∈ p.2, (v, p.1) ∈ cs :=
  fun p hp => ⟨((ginv el cs).requested es).nonempty p hp, ((ginv el cs).requested es).from_ p hp⟩

example : requested (groups [] [(400, (200, 700)), (500, (200, 700)), (600, (150, 1000)), (400, (200, 700))]) [500, 600] =
    [((200, 700), [500]), ((150, 1000), [600])] := by decide

/-- **C92 is violated** for a vehicle that is configured again with another speed: it is listed twice, once with the old
speed. -/
theorem C92_violated :
    requested (groups [] [(400, (200, 700)), (400, (250, 700))]) [] = [((200, 700), [400]), ((250, 700), [400])] := by
  decide

end Verif.Options
