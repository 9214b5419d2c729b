import Verif.Search.Lemmas

/-!
# The chord that a lane cuts out of an area
-/

namespace Verif.Search

/-- The lane at `x` is between the ends of the edge. -/
def Straddles (x : ℝ) (g : Pos × Pos) : Prop :=
  (g.1.e < x ∧ x < g.2.e) ∨ (g.2.e < x ∧ x < g.1.e)

/-- The extremes bound the coordinates. -/
theorem highest_fold {f : Pos → ℝ} : ∀ (ps : List Pos) (m : ℝ),
    m ≤ ps.foldl (fun m q => if m < f q then f q else m) m ∧
    ∀ p ∈ ps, f p ≤ ps.foldl (fun m q => if m < f q then f q else m) m
  | [], m => by simp
  | q :: ps, m => by
      simp only [List.foldl_cons, List.mem_cons]
      by_cases h : m < f q
      · rw [if_pos h]
        obtain ⟨h1, h2⟩ := highest_fold ps (f q)
        exact ⟨by linarith, by rintro p (rfl | hp); exacts [h1, h2 p hp]⟩
      · rw [if_neg h]
        obtain ⟨h1, h2⟩ := highest_fold ps m
        exact ⟨h1, by rintro p (rfl | hp); exacts [by linarith, h2 p hp]⟩

theorem lowest_fold {f : Pos → ℝ} : ∀ (ps : List Pos) (m : ℝ),
    ps.foldl (fun m q => if f q < m then f q else m) m ≤ m ∧
    ∀ p ∈ ps, ps.foldl (fun m q => if f q < m then f q else m) m ≤ f p
  | [], m => by simp
  | q :: ps, m => by
      simp only [List.foldl_cons, List.mem_cons]
      by_cases h : f q < m
      · rw [if_pos h]
        obtain ⟨h1, h2⟩ := lowest_fold ps (f q)
        exact ⟨by linarith, by rintro p (rfl | hp); exacts [h1, h2 p hp]⟩
      · rw [if_neg h]
        obtain ⟨h1, h2⟩ := lowest_fold ps m
        exact ⟨h1, by rintro p (rfl | hp); exacts [by linarith, h2 p hp]⟩

theorem le_highest {f : Pos → ℝ} {vs : List Pos} {p : Pos} (h : p ∈ vs) : f p ≤ highest f vs := by
  match vs, h with
  | q :: ps, h =>
      rcases List.mem_cons.1 h with rfl | h'
      · exact (highest_fold ps _).1
      · exact (highest_fold ps _).2 p h'

theorem lowest_le {f : Pos → ℝ} {vs : List Pos} {p : Pos} (h : p ∈ vs) : lowest f vs ≤ f p := by
  match vs, h with
  | q :: ps, h =>
      rcases List.mem_cons.1 h with rfl | h'
      · exact (lowest_fold ps _).1
      · exact (lowest_fold ps _).2 p h'

theorem highest_fold_mem {f : Pos → ℝ} : ∀ (ps : List Pos) (m : ℝ),
    ps.foldl (fun m q => if m < f q then f q else m) m = m ∨
    ∃ p ∈ ps, ps.foldl (fun m q => if m < f q then f q else m) m = f p
  | [], m => by simp
  | q :: ps, m => by
      simp only [List.foldl_cons, List.mem_cons]
      by_cases h : m < f q
      · rw [if_pos h]
        rcases highest_fold_mem ps (f q) with h1 | ⟨p, hp, h1⟩
        · exact .inr ⟨q, .inl rfl, h1⟩
        · exact .inr ⟨p, .inr hp, h1⟩
      · rw [if_neg h]
        rcases highest_fold_mem ps m with h1 | ⟨p, hp, h1⟩
        · exact .inl h1
        · exact .inr ⟨p, .inr hp, h1⟩

theorem lowest_fold_mem {f : Pos → ℝ} : ∀ (ps : List Pos) (m : ℝ),
    ps.foldl (fun m q => if f q < m then f q else m) m = m ∨
    ∃ p ∈ ps, ps.foldl (fun m q => if f q < m then f q else m) m = f p
  | [], m => by simp
  | q :: ps, m => by
      simp only [List.foldl_cons, List.mem_cons]
      by_cases h : f q < m
      · rw [if_pos h]
        rcases lowest_fold_mem ps (f q) with h1 | ⟨p, hp, h1⟩
        · exact .inr ⟨q, .inl rfl, h1⟩
        · exact .inr ⟨p, .inr hp, h1⟩
      · rw [if_neg h]
        rcases lowest_fold_mem ps m with h1 | ⟨p, hp, h1⟩
        · exact .inl h1
        · exact .inr ⟨p, .inr hp, h1⟩

theorem highest_mem {f : Pos → ℝ} {vs : List Pos} (h : vs ≠ []) :
    ∃ p ∈ vs, highest f vs = f p := by
  match vs, h with
  | q :: ps, _ =>
      rcases highest_fold_mem (f := f) ps (f q) with h1 | ⟨p, hp, h1⟩
      · exact ⟨q, by simp, h1⟩
      · exact ⟨p, by simp [hp], h1⟩

theorem lowest_mem {f : Pos → ℝ} {vs : List Pos} (h : vs ≠ []) :
    ∃ p ∈ vs, lowest f vs = f p := by
  match vs, h with
  | q :: ps, _ =>
      rcases lowest_fold_mem (f := f) ps (f q) with h1 | ⟨p, hp, h1⟩
      · exact ⟨q, by simp, h1⟩
      · exact ⟨p, by simp [hp], h1⟩

/-! ### Sides alternate along a path -/

open Classical in
/-- The edges of a path that straddle the lane. -/
noncomputable def over (x : ℝ) (gs : List (Pos × Pos)) : List (Pos × Pos) :=
  gs.filter fun g => decide (Straddles x g)

theorem mem_over {x : ℝ} {gs : List (Pos × Pos)} {g : Pos × Pos} :
    g ∈ over x gs ↔ g ∈ gs ∧ Straddles x g := by simp [over]

/-- The first edge that straddles the lane starts on the side where the path starts. -/
theorem over_first {x : ℝ} : ∀ {a : Pos} {ps : List Pos} {g : Pos × Pos},
    a.e ≠ x → (∀ p ∈ ps, p.e ≠ x) → (over x (path a ps)).head? = some g →
    (a.e < x ↔ g.1.e < x)
  | a, [], g, _, _, h => by simp [path, over] at h
  | a, b :: ps, g, ha, hps, h => by
      have hb : b.e ≠ x := hps b (by simp)
      by_cases hs : Straddles x (a, b)
      · simp only [path, over, List.filter_cons, hs, decide_true, if_true, List.head?_cons,
          Option.some.injEq] at h
        rw [← h]
      · have h' : (over x (path b ps)).head? = some g := by
          simpa only [path, over, List.filter_cons, hs, decide_false, Bool.false_eq_true, if_false]
            using h
        rw [← over_first hb (fun p hp => hps p (by simp [hp])) h']
        simp only [Straddles] at hs
        constructor
        · intro h1
          by_contra h2
          exact hs (.inl ⟨h1, lt_of_le_of_ne (not_lt.1 h2) (Ne.symm hb)⟩)
        · intro h1
          by_contra h2
          exact hs (.inr ⟨h1, lt_of_le_of_ne (not_lt.1 h2) (Ne.symm ha)⟩)

/-- The last edge that straddles the lane ends on the side where the path ends. -/
theorem over_last {x : ℝ} : ∀ {a z : Pos} {ps : List Pos} {g : Pos × Pos},
    a.e ≠ x → z.e ≠ x → (∀ p ∈ ps, p.e ≠ x) → (over x (path a (ps ++ [z]))).getLast? = some g →
    (z.e < x ↔ g.2.e < x)
  | a, z, [], g, ha, hz, _, h => by
      simp only [List.nil_append, path, over, List.filter_cons, List.filter_nil] at h
      split at h
      · simp at h; rw [← h]
      · simp at h
  | a, z, b :: ps, g, ha, hz, hps, h => by
      have hb : b.e ≠ x := hps b (by simp)
      have hr : ∀ p ∈ ps, p.e ≠ x := fun p hp => hps p (by simp [hp])
      simp only [List.cons_append, path, over, List.filter_cons] at h
      split at h
      case isTrue hs =>
        cases hl : (over x (path b (ps ++ [z]))).getLast? with
        | some g' =>
            have : some g' = some g := by
              rw [← h, List.getLast?_cons]
              simp only [over] at hl
              rw [hl]; rfl
            rw [← Option.some.inj this]
            exact over_last hb hz hr hl
        | none =>
            have hn : over x (path b (ps ++ [z])) = [] := by
              simpa [List.getLast?_eq_none_iff] using hl
            simp only [over] at hn
            rw [hn] at h
            simp only [List.getLast?_singleton, Option.some.injEq] at h
            rw [← h]
            exact over_none hb hz hr hn
      case isFalse hs => exact over_last hb hz hr h
where
  over_none {x : ℝ} : ∀ {a z : Pos} {ps : List Pos},
      a.e ≠ x → z.e ≠ x → (∀ p ∈ ps, p.e ≠ x) → over x (path a (ps ++ [z])) = [] →
      (z.e < x ↔ a.e < x)
  | a, z, [], ha, hz, _, h => by
      have hs : ¬ Straddles x (a, z) := by
        intro hs
        have := mem_over.2 ⟨(by simp [path] : (a, z) ∈ path a ([] ++ [z])), hs⟩
        rw [h] at this; simp at this
      simp only [Straddles, not_or, not_and, not_lt] at hs
      constructor
      · intro h1; by_contra h2
        have := hs.2 h1
        exact ha (le_antisymm this (not_lt.1 h2))
      · intro h1; by_contra h2
        have := hs.1 h1
        exact hz (le_antisymm this (not_lt.1 h2))
  | a, z, b :: ps, ha, hz, hps, h => by
      have hb : b.e ≠ x := hps b (by simp)
      have h2 : over x (path b (ps ++ [z])) = [] := by
        apply List.eq_nil_iff_forall_not_mem.2
        intro g hg
        have hm := mem_over.1 hg
        have := mem_over.2 ⟨(by simp [path, hm.1] : g ∈ path a ((b :: ps) ++ [z])), hm.2⟩
        rw [h] at this; simp at this
      have h3 := over_none hb hz (fun p hp => hps p (by simp [hp])) h2
      rw [h3]
      have hs : ¬ Straddles x (a, b) := by
        intro hs
        have := mem_over.2 ⟨(by simp [path] : (a, b) ∈ path a ((b :: ps) ++ [z])), hs⟩
        rw [h] at this; simp at this
      simp only [Straddles, not_or, not_and, not_lt] at hs
      constructor
      · intro h1; by_contra h2
        exact ha (le_antisymm (hs.2 h1) (not_lt.1 h2))
      · intro h1; by_contra h2
        exact hb (le_antisymm (hs.1 h1) (not_lt.1 h2))

end Verif.Search

namespace Verif.Search

/-- If no edge of a path straddles the lane, all its points are on one side. -/
theorem over_nil {x : ℝ} : ∀ {a : Pos} {ps : List Pos},
    a.e ≠ x → (∀ p ∈ ps, p.e ≠ x) → over x (path a ps) = [] → ∀ p ∈ ps, (p.e < x ↔ a.e < x)
  | a, [], _, _, _ => by simp
  | a, b :: ps, ha, hps, h => by
      have hb : b.e ≠ x := hps b (by simp)
      have hs : ¬ Straddles x (a, b) := by
        intro hs
        have := mem_over.2 ⟨(by simp [path] : (a, b) ∈ path a (b :: ps)), hs⟩
        rw [h] at this; simp at this
      have h2 : over x (path b ps) = [] := by
        apply List.eq_nil_iff_forall_not_mem.2
        intro g hg
        have hm := mem_over.1 hg
        have := mem_over.2 ⟨(by simp [path, hm.1] : g ∈ path a (b :: ps)), hm.2⟩
        rw [h] at this; simp at this
      have hab : b.e < x ↔ a.e < x := by
        simp only [Straddles, not_or, not_and, not_lt] at hs
        constructor
        · intro h1; by_contra h2
          exact ha (le_antisymm (hs.2 h1) (not_lt.1 h2))
        · intro h1; by_contra h2
          exact hb (le_antisymm (hs.1 h1) (not_lt.1 h2))
      intro p hp
      rcases List.mem_cons.1 hp with rfl | hp'
      · exact hab
      · rw [over_nil hb (fun p hp => hps p (by simp [hp])) h2 p hp', hab]

/-- The points reported are those of the edges that straddle the lane, in order. -/
theorem hits_over {x south north : ℝ} : ∀ (gs : List (Pos × Pos)),
    (∀ g ∈ gs, g.1.e ≠ x ∧ g.2.e ≠ x ∧ (south < g.1.n ∧ g.1.n < north) ∧
      (south < g.2.n ∧ g.2.n < north)) →
    List.Forall₂ (fun g p => Off x p.e ∧ Off (cut g.1 g.2 x) p.n) (over x gs)
      (gs.filterMap fun g => crossing g.1 g.2 ⟨south, x⟩ ⟨north, x⟩)
  | [], _ => by simp [over]
  | g :: gs, h => by
      obtain ⟨h1, h2, h3, h4⟩ := h g (by simp)
      have ih := hits_over gs (fun g hg => h g (by simp [hg]))
      by_cases hs : Straddles x g
      · have hle : (g.1.e ≤ x ∧ x ≤ g.2.e) ∨ (g.2.e ≤ x ∧ x ≤ g.1.e) := by
          rcases hs with ⟨a, b⟩ | ⟨a, b⟩
          · exact .inl ⟨a.le, b.le⟩
          · exact .inr ⟨a.le, b.le⟩
        have hne : g.1.e ≠ g.2.e := by
          rcases hs with ⟨a, b⟩ | ⟨a, b⟩
          · exact (a.trans b).ne
          · exact (a.trans b).ne'
        obtain ⟨p, hp, ho⟩ := crossing_some (c := ⟨south, x⟩) (d := ⟨north, x⟩) rfl rfl h3 h4 hle hne
        have e : over x (g :: gs) = g :: over x gs := by simp [over, hs]
        rw [e, List.filterMap_cons, hp]
        exact List.Forall₂.cons ho ih
      · have e : over x (g :: gs) = over x gs := by simp [over, hs]
        have hn : crossing g.1 g.2 ⟨south, x⟩ ⟨north, x⟩ = none := by
          refine crossing_none (x := x) rfl rfl (by simp only; linarith [h3.1, h3.2]) ?_
          simp only [Straddles, not_or, not_and, not_lt] at hs
          rcases lt_or_gt_of_ne h1 with a | a <;> rcases lt_or_gt_of_ne h2 with b | b
          · exact .inl ⟨a, b⟩
          · exact absurd (hs.1 a) (not_le.2 b)
          · exact absurd (hs.2 b) (not_le.2 a)
          · exact .inr ⟨a, b⟩
        rw [e, List.filterMap_cons, hn]
        exact ih

/-- A lane strictly between two corners, and through none, meets the boundary at least
twice. -/
theorem hits_two {vs : List Pos} {x south north : ℝ} (hx : ∀ v ∈ vs, v.e ≠ x)
    (hb : ∀ v ∈ vs, south < v.n ∧ v.n < north) (hl : ∃ v ∈ vs, v.e < x) (hr : ∃ v ∈ vs, x < v.e) :
    ∃ p q ps, hits vs ⟨south, x⟩ ⟨north, x⟩ = p :: q :: ps := by
  have hf := hits_over (x := x) (south := south) (north := north) (ring vs) (fun g hg => by
    have := ring_mem hg
    exact ⟨hx _ this.1, hx _ this.2, hb _ this.1, hb _ this.2⟩)
  have hlen := hf.length_eq
  suffices 2 ≤ (over x (ring vs)).length by
    rw [hlen] at this
    change 2 ≤ (hits vs ⟨south, x⟩ ⟨north, x⟩).length at this
    match hits vs ⟨south, x⟩ ⟨north, x⟩, this with
    | p :: q :: ps, _ => exact ⟨p, q, ps, rfl⟩
  match vs, hx, hl, hr with
  | [], _, hl, _ => simp at hl
  | a :: vs, hx, hl, hr =>
      have ha : a.e ≠ x := hx a (by simp)
      have hvs : ∀ v ∈ vs, v.e ≠ x := fun v hv => hx v (by simp [hv])
      have hva : ∀ v ∈ vs ++ [a], v.e ≠ x := by
        intro v hv
        rcases List.mem_append.1 hv with h | h
        · exact hvs v h
        · rw [List.mem_singleton.1 h]; exact ha
      match ho : over x (ring (a :: vs)) with
      | [] =>
          exfalso
          have hn := over_nil ha hva ho
          obtain ⟨v, hv, h1⟩ := hl
          obtain ⟨w, hw, h2⟩ := hr
          have m : ∀ u ∈ a :: vs, (u.e < x ↔ a.e < x) := by
            intro u hu
            rcases List.mem_cons.1 hu with rfl | hu'
            · rfl
            · exact hn u (by simp [hu'])
          have := (m w hw).2 ((m v hv).1 h1)
          linarith
      | [g] =>
          exfalso
          have h1 := over_first ha hva (g := g) (by change (over x (ring (a :: vs))).head? = _; rw [ho]; rfl)
          have h2 := over_last ha ha hvs (g := g)
            (by change (over x (ring (a :: vs))).getLast? = _; rw [ho]; rfl)
          have hg : Straddles x g := (mem_over.1 (by rw [ho]; simp : g ∈ over x (ring (a :: vs)))).2
          have h3 : g.1.e < x ↔ g.2.e < x := h1.symm.trans h2
          rcases hg with ⟨p, q⟩ | ⟨p, q⟩
          · exact absurd (h3.1 p) (not_lt.2 q.le)
          · exact absurd (h3.2 p) (not_lt.2 q.le)
      | _ :: _ :: _ => simp

/-- The first and the last point reported are cuts of two edges that cross the lane in
opposite directions. -/
theorem hits_ends {vs : List Pos} {x south north : ℝ} (hx : ∀ v ∈ vs, v.e ≠ x)
    (hb : ∀ v ∈ vs, south < v.n ∧ v.n < north) {p q : Pos} {ps : List Pos}
    (h : hits vs ⟨south, x⟩ ⟨north, x⟩ = p :: q :: ps) :
    ∃ g ∈ ring vs, ∃ g' ∈ ring vs,
      ((g.1.e < x ∧ x < g.2.e ∧ g'.2.e < x ∧ x < g'.1.e) ∨
       (g.2.e < x ∧ x < g.1.e ∧ g'.1.e < x ∧ x < g'.2.e)) ∧
      Off x p.e ∧ Off (cut g.1 g.2 x) p.n ∧
      Off x ((q :: ps).getLast (by simp)).e ∧
      Off (cut g'.1 g'.2 x) ((q :: ps).getLast (by simp)).n := by
  have hf := hits_over (x := x) (south := south) (north := north) (ring vs) (fun g hg => by
    have := ring_mem hg
    exact ⟨hx _ this.1, hx _ this.2, hb _ this.1, hb _ this.2⟩)
  change List.Forall₂ _ (over x (ring vs)) (hits vs ⟨south, x⟩ ⟨north, x⟩) at hf
  rw [h] at hf
  match vs, hx with
  | [], _ => simp [ring, over] at hf
  | a :: vs, hx =>
      have ha : a.e ≠ x := hx a (by simp)
      have hvs : ∀ v ∈ vs, v.e ≠ x := fun v hv => hx v (by simp [hv])
      have hva : ∀ v ∈ vs ++ [a], v.e ≠ x := by
        intro v hv
        rcases List.mem_append.1 hv with h | h
        · exact hvs v h
        · rw [List.mem_singleton.1 h]; exact ha
      match ho : over x (ring (a :: vs)) with
      | [] => rw [ho] at hf; cases hf
      | g :: gs =>
          rw [ho] at hf
          obtain ⟨hp, hrest⟩ := List.forall₂_cons.1 hf
          have hgs : gs ≠ [] := by rintro rfl; cases hrest
          have hlast : Off x ((q :: ps).getLast (by simp)).e ∧
              Off (cut (gs.getLast hgs).1 (gs.getLast hgs).2 x) ((q :: ps).getLast (by simp)).n := by
            have hl := hrest.length_eq
            rw [List.getLast_eq_getElem, List.getLast_eq_getElem]
            have hg := List.Forall₂.get hrest (i := gs.length - 1)
              (by have := List.length_pos_iff.2 hgs; omega)
              (by have := List.length_pos_iff.2 hgs; omega)
            simp only [List.get_eq_getElem] at hg
            simp only [← hl]
            exact hg
          have hmg : g ∈ over x (ring (a :: vs)) := by rw [ho]; simp
          have hmg' : gs.getLast hgs ∈ over x (ring (a :: vs)) := by
            rw [ho]; exact List.mem_cons_of_mem _ (List.getLast_mem hgs)
          have h1 := over_first ha hva (g := g)
            (by change (over x (ring (a :: vs))).head? = _; rw [ho]; rfl)
          have h2 := over_last ha ha hvs (g := gs.getLast hgs)
            (by change (over x (ring (a :: vs))).getLast? = _
                rw [ho, List.getLast?_cons, List.getLast?_eq_getLast_of_ne_nil hgs]; rfl)
          have h3 : g.1.e < x ↔ (gs.getLast hgs).2.e < x := h1.symm.trans h2
          refine ⟨g, (mem_over.1 hmg).1, gs.getLast hgs, (mem_over.1 hmg').1, ?_, hp.1, hp.2,
            hlast.1, hlast.2⟩
          have s1 := (mem_over.1 hmg).2
          have s2 := (mem_over.1 hmg').2
          rcases s1 with ⟨a1, a2⟩ | ⟨a1, a2⟩ <;> rcases s2 with ⟨b1, b2⟩ | ⟨b1, b2⟩
          · exact absurd (h3.1 a1) (not_lt.2 b2.le)
          · exact .inl ⟨a1, a2, b1, b2⟩
          · exact .inr ⟨a1, a2, b1, b2⟩
          · exact absurd (h3.2 b1) (not_lt.2 a2.le)

/-- What lies in a convex area on the lane lies between the first and the last point
reported, but for half a metre. -/
theorem hits_between {σ : ℝ} (hσ : σ = 1 ∨ σ = -1) {vs : List Pos} {x south north : ℝ}
    (hx : ∀ v ∈ vs, v.e ≠ x) (hb : ∀ v ∈ vs, south < v.n ∧ v.n < north) {p q : Pos} {ps : List Pos}
    (h : hits vs ⟨south, x⟩ ⟨north, x⟩ = p :: q :: ps) {z : Pos} (hz : Inside σ vs z)
    (hze : z.e = x) :
    min p.n ((q :: ps).getLast (by simp)).n - 1 / 2 ≤ z.n ∧
    z.n ≤ max p.n ((q :: ps).getLast (by simp)).n + 1 / 2 := by
  obtain ⟨g, hg, g', hg', ho, -, hp, -, hl⟩ := hits_ends hx hb h
  have e1 := inside_edge hz hg
  have e2 := inside_edge hz hg'
  obtain ⟨zn, ze⟩ := z
  simp only at hze
  subst hze
  have np := off_near hp
  have nl := off_near hl
  set r := ((q :: ps).getLast (by simp)).n
  have m1 := min_le_left p.n r
  have m2 := min_le_right p.n r
  have m3 := le_max_left p.n r
  have m4 := le_max_right p.n r
  have n1 : g.1.e ≠ g.2.e := by rcases ho with h | h <;> intro hh <;> linarith [h.1, h.2.1]
  have n2 : g'.1.e ≠ g'.2.e := by rcases ho with h | h <;> intro hh <;> linarith [h.2.2.1, h.2.2.2]
  rw [lineAt_lane n1] at e1
  rw [lineAt_lane n2] at e2
  have pos : ∀ {b t : ℝ}, 0 < b → 0 ≤ b * t → 0 ≤ t := fun hb h => by
    by_contra hh; exact absurd (mul_neg_of_pos_of_neg hb (not_le.1 hh)) (not_lt.2 h)
  have key : (zn ≤ cut g.1 g.2 ze ∧ cut g'.1 g'.2 ze ≤ zn) ∨
      (cut g.1 g.2 ze ≤ zn ∧ zn ≤ cut g'.1 g'.2 ze) := by
    rcases hσ with rfl | rfl <;> rcases ho with ⟨o1, o2, o3, o4⟩ | ⟨o1, o2, o3, o4⟩
    · left
      have a := pos (b := g.2.e - g.1.e) (t := cut g.1 g.2 ze - zn) (by linarith) (by nlinarith)
      have b := pos (b := g'.1.e - g'.2.e) (t := zn - cut g'.1 g'.2 ze) (by linarith) (by nlinarith)
      constructor <;> linarith
    · right
      have a := pos (b := g.1.e - g.2.e) (t := zn - cut g.1 g.2 ze) (by linarith) (by nlinarith)
      have b := pos (b := g'.2.e - g'.1.e) (t := cut g'.1 g'.2 ze - zn) (by linarith) (by nlinarith)
      constructor <;> linarith
    · right
      have a := pos (b := g.2.e - g.1.e) (t := zn - cut g.1 g.2 ze) (by linarith) (by nlinarith)
      have b := pos (b := g'.1.e - g'.2.e) (t := cut g'.1 g'.2 ze - zn) (by linarith) (by nlinarith)
      constructor <;> linarith
    · left
      have a := pos (b := g.1.e - g.2.e) (t := cut g.1 g.2 ze - zn) (by linarith) (by nlinarith)
      have b := pos (b := g'.2.e - g'.1.e) (t := zn - cut g'.1 g'.2 ze) (by linarith) (by nlinarith)
      constructor <;> linarith
  rcases key with ⟨k1, k2⟩ | ⟨k1, k2⟩ <;> constructor <;> simp only <;>
    linarith [np.1, np.2, nl.1, nl.2]

end Verif.Search
