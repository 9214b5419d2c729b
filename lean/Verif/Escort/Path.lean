import Verif.Escort.Along

/-!
# Which path an escort follows (C145)
-/

namespace Verif.Escort

open Complex

/-- **C145.**  The path is the line of interest that the task names; without one, the last mission heard of the vehicle,
then the waypoints of the task. -/
theorem C145_order (k : Known) (task : Task) (t : ℂ) (heading speed : ℝ) :
    (task.route ≠ 0 → choosePath k task t heading speed = (k.lines.lookup task.route).getD []) ∧
    (task.route = 0 → ∀ p, k.missions task.supported = some p → choosePath k task t heading speed = p) ∧
    (task.route = 0 → k.missions task.supported = none → task.prescribed ≠ [] →
      choosePath k task t heading speed = task.prescribed) := by
  refine ⟨fun h => ?_, fun h p hp => ?_, fun h hm hp => ?_⟩
  · unfold choosePath; rw [if_neg h]
  · unfold choosePath; rw [if_pos h, hp]
  · unfold choosePath; rw [if_pos h, hm]; simp only; rw [if_pos hp]

/-! ### The nearest line -/

theorem distanceToLine_fold (t : ℂ) : ∀ (ss : List (ℂ × ℂ)) (m : ℝ),
    let r := ss.foldl (fun m s => if m < 0 ∨ distTo s.1 s.2 t < m then distTo s.1 s.2 t else m) m
    (r = m ∨ ∃ s ∈ ss, r = distTo s.1 s.2 t) ∧ (0 ≤ m → r ≤ m) ∧ (∀ s ∈ ss, 0 ≤ r ∧ r ≤ distTo s.1 s.2 t) ∧ (0 ≤ m → 0 ≤ r)
  | [], m => by simp
  | s :: ss, m => by
      have hd : 0 ≤ distTo s.1 s.2 t := norm_nonneg _
      simp only [List.foldl_cons]
      by_cases hc : m < 0 ∨ distTo s.1 s.2 t < m
      · rw [if_pos hc]
        obtain ⟨h1, h2, h3, h4⟩ := distanceToLine_fold t ss (distTo s.1 s.2 t)
        refine ⟨Or.inr ?_, fun h0 => ?_, ?_, fun _ => h4 hd⟩
        · rcases h1 with h1 | ⟨s', hs', h1⟩
          · exact ⟨s, List.mem_cons_self, h1⟩
          · exact ⟨s', List.mem_cons_of_mem _ hs', h1⟩
        · exact le_trans (h2 hd) (hc.resolve_left (not_lt.2 h0)).le
        · intro s' hs'
          rcases List.mem_cons.1 hs' with rfl | hs'
          · exact ⟨h4 hd, h2 hd⟩
          · exact h3 s' hs'
      · rw [if_neg hc]
        rw [not_or, not_lt, not_lt] at hc
        obtain ⟨h1, h2, h3, h4⟩ := distanceToLine_fold t ss m
        refine ⟨?_, h2, ?_, h4⟩
        · rcases h1 with h1 | ⟨s', hs', h1⟩
          · exact Or.inl h1
          · exact Or.inr ⟨s', List.mem_cons_of_mem _ hs', h1⟩
        · intro s' hs'
          rcases List.mem_cons.1 hs' with rfl | hs'
          · exact ⟨h4 hc.1, le_trans (h2 hc.1) hc.2⟩
          · exact h3 s' hs'

/-- **C145.**  The distance to a line is that to the nearest of its segments. -/
theorem C145_distance (t : ℂ) (l : List ℂ) :
    (segments l = [] → distanceToLine t l < 0) ∧
    (segments l ≠ [] → (∃ s ∈ segments l, distanceToLine t l = distTo s.1 s.2 t) ∧
      ∀ s ∈ segments l, distanceToLine t l ≤ distTo s.1 s.2 t) := by
  constructor
  · intro h; unfold distanceToLine; rw [h]; norm_num
  · intro h
    obtain ⟨s, hs⟩ := List.exists_mem_of_ne_nil _ h
    obtain ⟨h1, -, h3, -⟩ := distanceToLine_fold t (segments l) (-1)
    refine ⟨?_, fun s hs => (h3 s hs).2⟩
    rcases h1 with h1 | h1
    · have := (h3 s hs).1; rw [h1] at this; norm_num at this
    · exact h1

theorem nearestLine_fold (t : ℂ) : ∀ (ls : List (ℤ × List ℂ)) (m : ℝ × ℤ), (m.1 < 0 ∨ 0 < m.1) →
    let r := ls.foldl (fun m l =>
      if 0 < distanceToLine t l.2 ∧ (m.1 < 0 ∨ distanceToLine t l.2 < m.1) then (distanceToLine t l.2, l.1) else m) m
    (r = m ∧ (∀ l ∈ ls, 0 < distanceToLine t l.2 → 0 < m.1 ∧ m.1 ≤ distanceToLine t l.2)) ∨
    ∃ l ∈ ls, r = (distanceToLine t l.2, l.1) ∧ 0 < distanceToLine t l.2 ∧ (0 < m.1 → distanceToLine t l.2 < m.1) ∧
      ∀ l' ∈ ls, 0 < distanceToLine t l'.2 → distanceToLine t l.2 ≤ distanceToLine t l'.2
  | [], m, _ => Or.inl ⟨rfl, by simp⟩
  | l :: ls, m, hm => by
      simp only [List.foldl_cons]
      by_cases hc : 0 < distanceToLine t l.2 ∧ (m.1 < 0 ∨ distanceToLine t l.2 < m.1)
      · rw [if_pos hc]
        have hlt : 0 < m.1 → distanceToLine t l.2 < m.1 := fun h => hc.2.resolve_left (by linarith)
        rcases nearestLine_fold t ls (distanceToLine t l.2, l.1) (Or.inr hc.1) with ⟨h1, h2⟩ | ⟨l', hl', h1, h2, h3, h4⟩
        · refine Or.inr ⟨l, List.mem_cons_self, h1, hc.1, hlt, ?_⟩
          intro l' hl' h0
          rcases List.mem_cons.1 hl' with rfl | hl'
          · exact le_refl _
          · exact (h2 l' hl' h0).2
        · refine Or.inr ⟨l', List.mem_cons_of_mem _ hl', h1, h2, fun h => lt_trans (h3 hc.1) (hlt h), ?_⟩
          intro l'' hl'' h0
          rcases List.mem_cons.1 hl'' with rfl | hl''
          · exact (h3 hc.1).le
          · exact h4 l'' hl'' h0
      · rw [if_neg hc]
        have hl0 : 0 < distanceToLine t l.2 → 0 < m.1 ∧ m.1 ≤ distanceToLine t l.2 := by
          intro h0
          have : ¬ (m.1 < 0 ∨ distanceToLine t l.2 < m.1) := fun h => hc ⟨h0, h⟩
          rw [not_or, not_lt, not_lt] at this
          exact ⟨hm.resolve_left (not_lt.2 this.1), this.2⟩
        rcases nearestLine_fold t ls m hm with ⟨h1, h2⟩ | ⟨l', hl', h1, h2, h3, h4⟩
        · refine Or.inl ⟨h1, ?_⟩
          intro l' hl' h0
          rcases List.mem_cons.1 hl' with rfl | hl'
          · exact hl0 h0
          · exact h2 l' hl' h0
        · refine Or.inr ⟨l', List.mem_cons_of_mem _ hl', h1, h2, h3, ?_⟩
          intro l'' hl'' h0
          rcases List.mem_cons.1 hl'' with rfl | hl''
          · exact (lt_of_lt_of_le (h3 (hl0 h0).1) (hl0 h0).2).le
          · exact h4 l'' hl'' h0

theorem lookup_of_mem : ∀ {ls : List (ℤ × List ℂ)}, (ls.map (·.1)).Nodup → ∀ {l}, l ∈ ls → ls.lookup l.1 = some l.2
  | x :: ls, hn, l, hl => by
      rw [List.map_cons, List.nodup_cons] at hn
      rcases List.mem_cons.1 hl with rfl | hl
      · simp [List.lookup]
      · have hne : l.1 ≠ x.1 := by
          intro h; exact hn.1 (h ▸ List.mem_map_of_mem hl)
        rw [List.lookup_cons, beq_false_of_ne hne]
        exact lookup_of_mem hn.2 hl

/-- **C145**, what holds when nothing else is known of the path: it is one of the lines of interest, as it is or reversed, and
no line that the vehicle is beside is nearer; there is one whenever the vehicle is beside some line.  Missing from the full
claim: lines that the vehicle is exactly on. -/
theorem C145_nearest_partial {k : Known} {task : Task} {t : ℂ} {heading speed : ℝ} (hn : (k.lines.map (·.1)).Nodup)
    (h0 : ∀ l ∈ k.lines, l.1 ≠ 0) (hr : task.route = 0) (hm : k.missions task.supported = none) (hp : task.prescribed = []) :
    (choosePath k task t heading speed = [] ∧ ∀ l ∈ k.lines, distanceToLine t l.2 ≤ 0) ∨
    ∃ l ∈ k.lines, (choosePath k task t heading speed = l.2 ∨ choosePath k task t heading speed = l.2.reverse) ∧
      0 < distanceToLine t l.2 ∧ ∀ l' ∈ k.lines, 0 < distanceToLine t l'.2 → distanceToLine t l.2 ≤ distanceToLine t l'.2 := by
  have hc : choosePath k task t heading speed = (if (nearestLine t k.lines).2 = 0 then []
      else match k.lines.lookup (nearestLine t k.lines).2 with
        | none => []
        | some l =>
            if |speed| < 1 then if restFlip t l then l.reverse else l
            else if flipLine t heading l then l.reverse else l) := by
    unfold choosePath
    rw [if_pos hr, hm]
    simp only
    rw [if_neg (by simp [hp])]
    rfl
  rcases nearestLine_fold t k.lines (-1, 0) (Or.inl (by norm_num)) with ⟨h1, h2⟩ | ⟨l, hl, h1, h2, -, h4⟩
  · refine Or.inl ⟨?_, ?_⟩
    · rw [hc, show nearestLine t k.lines = (-1, 0) from h1, if_pos rfl]
    · intro l hl
      by_contra h
      have := (h2 l hl (not_le.1 h)).1
      norm_num at this
  · refine Or.inr ⟨l, hl, ?_, h2, h4⟩
    rw [hc, show nearestLine t k.lines = (distanceToLine t l.2, l.1) from h1, if_neg (h0 l hl), lookup_of_mem hn hl]
    simp only
    split_ifs
    · exact Or.inr rfl
    · exact Or.inl rfl
    · exact Or.inr rfl
    · exact Or.inl rfl

/-! ### The direction -/

theorem congruentDist_fold (t : ℂ) (h : ℝ) : ∀ (ss : List (ℂ × ℂ)) (m : ℝ), (m < 0 ∨ 0 ≤ m) →
    let r := ss.foldl (fun m s =>
      if |headingDelta h (segmentHeading s.1 s.2)| < 90 ∧ (m < 0 ∨ distTo s.1 s.2 t < m) then distTo s.1 s.2 t else m) m
    (r = m ∧ (∀ s ∈ ss, |headingDelta h (segmentHeading s.1 s.2)| < 90 → 0 ≤ m ∧ m ≤ distTo s.1 s.2 t)) ∨
    ∃ s ∈ ss, |headingDelta h (segmentHeading s.1 s.2)| < 90 ∧ r = distTo s.1 s.2 t ∧ (0 ≤ m → distTo s.1 s.2 t < m) ∧
      ∀ s' ∈ ss, |headingDelta h (segmentHeading s'.1 s'.2)| < 90 → distTo s.1 s.2 t ≤ distTo s'.1 s'.2 t
  | [], m, _ => Or.inl ⟨rfl, by simp⟩
  | s :: ss, m, hm => by
      have hd : 0 ≤ distTo s.1 s.2 t := norm_nonneg _
      simp only [List.foldl_cons]
      by_cases hc : |headingDelta h (segmentHeading s.1 s.2)| < 90 ∧ (m < 0 ∨ distTo s.1 s.2 t < m)
      · rw [if_pos hc]
        have hlt : 0 ≤ m → distTo s.1 s.2 t < m := fun h => hc.2.resolve_left (by linarith)
        rcases congruentDist_fold t h ss (distTo s.1 s.2 t) (Or.inr hd) with ⟨h1, h2⟩ | ⟨l', hl', h1, h2, h3, h4⟩
        · refine Or.inr ⟨s, List.mem_cons_self, hc.1, h1, hlt, ?_⟩
          intro l' hl' h0
          rcases List.mem_cons.1 hl' with rfl | hl'
          · exact le_refl _
          · exact (h2 l' hl' h0).2
        · refine Or.inr ⟨l', List.mem_cons_of_mem _ hl', h1, h2, fun h => lt_trans (h3 hd) (hlt h), ?_⟩
          intro l'' hl'' h0
          rcases List.mem_cons.1 hl'' with rfl | hl''
          · exact (h3 hd).le
          · exact h4 l'' hl'' h0
      · rw [if_neg hc]
        have hl0 : |headingDelta h (segmentHeading s.1 s.2)| < 90 → 0 ≤ m ∧ m ≤ distTo s.1 s.2 t := by
          intro h0
          have : ¬ (m < 0 ∨ distTo s.1 s.2 t < m) := fun h => hc ⟨h0, h⟩
          rw [not_or, not_lt, not_lt] at this
          exact this
        rcases congruentDist_fold t h ss m hm with ⟨h1, h2⟩ | ⟨l', hl', h1, h2, h3, h4⟩
        · refine Or.inl ⟨h1, ?_⟩
          intro l' hl' h0
          rcases List.mem_cons.1 hl' with rfl | hl'
          · exact hl0 h0
          · exact h2 l' hl' h0
        · refine Or.inr ⟨l', List.mem_cons_of_mem _ hl', h1, h2, h3, ?_⟩
          intro l'' hl'' h0
          rcases List.mem_cons.1 hl'' with rfl | hl''
          · exact (lt_of_lt_of_le (h3 (hl0 h0).1) (hl0 h0).2).le
          · exact h4 l'' hl'' h0

/-- **C145**, when a line is taken in reverse for a moving vehicle: some segment goes its way in reverse, others go its way
forwards, and of the former one is nearer than all of the latter, which it is not exactly on.  Missing from the full claim:
lines none of whose segments goes its way forwards. -/
theorem C145_flip_partial {t : ℂ} {heading : ℝ} {l : List ℂ} (h0 : -180 ≤ heading) (h1 : heading ≤ 540)
    (hl : ∀ s ∈ segments l ++ segments l.reverse, 1e-6 ≤ ‖s.2 - s.1‖) :
    flipLine t heading l = true ↔
      (∃ s ∈ segments l, 0 < dot (compass heading) (s.2 - s.1)) ∧
      ∃ r ∈ segments l.reverse, 0 < dot (compass heading) (r.2 - r.1) ∧
        ∀ s ∈ segments l, 0 < dot (compass heading) (s.2 - s.1) → distTo r.1 r.2 t < distTo s.1 s.2 t := by
  have ci : ∀ s ∈ segments l ++ segments l.reverse, (|headingDelta heading (segmentHeading s.1 s.2)| < 90 ↔
      0 < dot (compass heading) (s.2 - s.1)) := fun s hs => congruent_iff h0 h1 (hl s hs)
  have cf : ∀ s ∈ segments l, _ := fun s hs => ci s (List.mem_append_left _ hs)
  have cr : ∀ s ∈ segments l.reverse, _ := fun s hs => ci s (List.mem_append_right _ hs)
  have hneg : (-1 : ℝ) < 0 ∨ (0 : ℝ) ≤ -1 := Or.inl (by norm_num)
  unfold flipLine
  simp only
  rcases congruentDist_fold t heading (segments l.reverse) (-1) hneg with ⟨r1, r2⟩ | ⟨r, hr, r1, r2, -, r4⟩
  · rw [show congruentDist t heading (segments l.reverse) = -1 from r1, if_pos (by norm_num)]
    constructor
    · intro h; cases h
    · rintro ⟨-, r, hr, hd, -⟩
      have := (r2 r hr ((cr r hr).2 hd)).1
      norm_num at this
  · have hr0 : 0 ≤ distTo r.1 r.2 t := norm_nonneg _
    rw [show congruentDist t heading (segments l.reverse) = distTo r.1 r.2 t from r2, if_neg (not_lt.2 hr0), decide_eq_true_iff]
    rcases congruentDist_fold t heading (segments l) (-1) hneg with ⟨f1, f2⟩ | ⟨f, hf, f1, f2, -, f4⟩
    · rw [show congruentDist t heading (segments l) = -1 from f1]
      constructor
      · rintro ⟨h, -⟩; norm_num at h
      · rintro ⟨⟨s, hs, hd⟩, -⟩
        have := (f2 s hs ((cf s hs).2 hd)).1
        norm_num at this
    · rw [show congruentDist t heading (segments l) = distTo f.1 f.2 t from f2]
      constructor
      · rintro ⟨-, hlt⟩
        refine ⟨⟨f, hf, (cf f hf).1 f1⟩, r, hr, (cr r hr).1 r1, ?_⟩
        intro s hs hd
        exact lt_of_lt_of_le hlt (f4 s hs ((cf s hs).2 hd))
      · rintro ⟨-, r', hr', hd', hall⟩
        have h2 := hall f hf ((cf f hf).1 f1)
        have h3 := r4 r' hr' ((cr r' hr').2 hd')
        exact ⟨by linarith, by linarith⟩

end Verif.Escort
