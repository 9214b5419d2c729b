import Verif.Batch.Model

/-!
What a plan changes in the summaries, and the invariant of the pending requests.
-/

namespace Verif.Batch

open Verif

/-- What a summary is about: the vehicle, the task before and the task. -/
def VSum.key (s : VSum) : Int × Int × Int := (s.vehicle, s.initial, s.dest)

/-- A summary without what is reported about range, energy and zones. -/
def VSum.bare (s : VSum) : VSum := { s with flags := {} }

/-- Every task has one summary, with one summary for every vehicle and task before. -/
def Shape (sums : List TSum) : Prop :=
  (sums.map (·.task)).Nodup ∧ ∀ T ∈ sums, (∀ s ∈ T.perf, s.dest = T.task) ∧ (T.perf.map VSum.key).Nodup

theorem map_self {α : Type} {f : α → α} {l : List α} (h : ∀ a ∈ l, f a = a) : l.map f = l :=
  (List.map_congr_left h).trans (List.map_id' l)

/-- Not in the code: a change of every entry of the vehicles of a summary. -/
def vmap (F : VSum → VSum) (sums : List TSum) : List TSum := sums.map fun T => { T with perf := T.perf.map F }

theorem vmap_vmap (F G : VSum → VSum) (sums : List TSum) : vmap G (vmap F sums) = vmap (fun s => G (F s)) sums := by
  simp [vmap, Function.comp_def]

theorem shape_vmap {F : VSum → VSum} (h : ∀ s, (F s).key = s.key) {sums : List TSum} (hs : Shape sums) :
    Shape (vmap F sums) := by
  have hd : ∀ s, (F s).dest = s.dest := fun s => by have := h s; simp only [VSum.key, Prod.mk.injEq] at this; exact this.2.2
  refine ⟨by simpa [vmap, Function.comp_def] using hs.1, ?_⟩
  intro T hT
  obtain ⟨T', hT', rfl⟩ := List.mem_map.mp hT
  refine ⟨?_, ?_⟩
  · intro s hsm
    obtain ⟨s', hs', rfl⟩ := List.mem_map.mp hsm
    rw [hd]; exact (hs.2 _ hT').1 _ hs'
  · simp only [List.map_map, Function.comp_def, h]
    exact (hs.2 _ hT').2

/-- What a leg of a vehicle changes in a summary. -/
def applyLeg (e : Env) (vl : Int × Leg) (s : VSum) : VSum :=
  if s.key = (vl.1, vl.2.prev, vl.2.task) then s.add e vl.2.wps else s

theorem add_key (e : Env) (s : VSum) (l : List Wp) : (s.add e l).key = s.key := by
  unfold VSum.add; split <;> rfl

theorem applyLeg_key (e : Env) (vl : Int × Leg) (s : VSum) : (applyLeg e vl s).key = s.key := by
  unfold applyLeg; split
  · exact add_key ..
  · rfl

theorem addV_eq (e : Env) (v : Int) (l : Leg) : ∀ {ss : List VSum}, (ss.map VSum.key).Nodup →
    addV e v l ss = ss.map (applyLeg e (v, l))
  | [], _ => rfl
  | s :: ss, h => by
    simp only [List.map_cons, List.nodup_cons] at h
    rw [addV]
    by_cases hk : s.key = (v, l.prev, l.task)
    · have hk' := hk
      simp only [VSum.key, Prod.mk.injEq] at hk'
      rw [if_pos ⟨hk'.1, hk'.2.2, hk'.2.1⟩, List.map_cons]
      have : ss.map (applyLeg e (v, l)) = ss := by
        refine map_self fun t ht => ?_
        unfold applyLeg
        rw [if_neg]
        intro hh
        exact h.1 (by rw [hk]; rw [← hh]; exact List.mem_map_of_mem ht)
      rw [this, applyLeg, if_pos hk]
    · have : ¬(s.vehicle = v ∧ s.dest = l.task ∧ s.initial = l.prev) := by
        rintro ⟨rfl, h₂, h₃⟩; exact hk (by simp [VSum.key, h₂, h₃])
      rw [if_neg this, List.map_cons, addV_eq e v l h.2, applyLeg, if_neg hk]

theorem applyLeg_other (e : Env) (vl : Int × Leg) {T : TSum} (h : ∀ s ∈ T.perf, s.dest = T.task) (hne : T.task ≠ vl.2.task) :
    T.perf.map (applyLeg e vl) = T.perf := by
  refine map_self fun s hs => ?_
  unfold applyLeg
  rw [if_neg]
  intro hk
  simp only [VSum.key, Prod.mk.injEq] at hk
  exact hne ((h s hs).symm.trans hk.2.2)

theorem addLeg_eq (e : Env) (vl : Int × Leg) : ∀ {sums : List TSum}, Shape sums →
    addLeg e sums vl = vmap (applyLeg e vl) sums
  | [], _ => rfl
  | T :: sums, h => by
    have hn := h.1
    simp only [List.map_cons, List.nodup_cons] at hn
    have ht := h.2 T (List.mem_cons_self ..)
    rw [addLeg]
    by_cases hk : T.task = vl.2.task
    · rw [if_pos hk, addV_eq e vl.1 vl.2 ht.2]
      have : vmap (applyLeg e vl) sums = sums := by
        refine map_self fun U hU => ?_
        rw [applyLeg_other e vl (h.2 U (List.mem_cons_of_mem _ hU)).1]
        intro hh
        exact hn.1 (by rw [hk, ← hh]; exact List.mem_map_of_mem hU)
      show _ = _ :: vmap (applyLeg e vl) sums
      rw [this]
    · rw [if_neg hk, addLeg_eq e vl ⟨hn.2, fun U hU => h.2 U (List.mem_cons_of_mem _ hU)⟩]
      simp only [vmap, List.map_cons]
      rw [applyLeg_other e vl ht.1 hk]

/-- What legs change in a summary. -/
def applyLegs (e : Env) (ls : List (Int × Leg)) (s : VSum) : VSum := ls.foldl (fun s vl => applyLeg e vl s) s

theorem applyLegs_key (e : Env) : ∀ (ls : List (Int × Leg)) (s : VSum), (applyLegs e ls s).key = s.key
  | [], _ => rfl
  | vl :: ls, s => (applyLegs_key e ls _).trans (applyLeg_key e vl s)

theorem foldl_addLeg (e : Env) : ∀ (ls : List (Int × Leg)) {sums : List TSum}, Shape sums →
    ls.foldl (addLeg e) sums = vmap (applyLegs e ls) sums
  | [], sums, _ => by
    show sums = _
    refine (map_self fun T _ => ?_).symm
    rw [show T.perf.map (applyLegs e []) = T.perf from map_self fun _ _ => rfl]
  | vl :: ls, sums, h => by
    rw [List.foldl_cons, addLeg_eq e vl h, foldl_addLeg e ls (shape_vmap (applyLeg_key e vl) h), vmap_vmap]
    rfl

theorem refresh_key (e : Env) (s : St) (v : VSum) : (refresh e s v).key = v.key := rfl

theorem refresh_bare (e : Env) (s : St) (v : VSum) : (refresh e s v).bare = v.bare := rfl

theorem bare_key (v : VSum) : v.bare.key = v.key := rfl

theorem applyLeg_bare (e : Env) (vl : Int × Leg) (s : VSum) : (applyLeg e vl s).bare = applyLeg e vl s.bare := by
  unfold applyLeg
  rw [bare_key]
  by_cases h : s.key = (vl.1, vl.2.prev, vl.2.task)
  · rw [if_pos h, if_pos h]
    unfold VSum.add
    by_cases h : vl.2.wps.isEmpty
    · rw [if_pos h, if_pos h]
    · rw [if_neg h, if_neg h]; rfl
  · rw [if_neg h, if_neg h]

theorem applyLegs_bare (e : Env) : ∀ (ls : List (Int × Leg)) (s : VSum), (applyLegs e ls s).bare = applyLegs e ls s.bare
  | [], _ => rfl
  | vl :: ls, s => by
    show (applyLegs e ls (applyLeg e vl s)).bare = applyLegs e ls (applyLeg e vl s.bare)
    rw [applyLegs_bare e ls, applyLeg_bare]

theorem applyLegs_append (e : Env) (ls ls' : List (Int × Leg)) (s : VSum) :
    applyLegs e (ls ++ ls') s = applyLegs e ls' (applyLegs e ls s) := by
  simp [applyLegs]

/-- From `sums` the legs `ls` lead to `sums'`, apart from what is reported about range, energy and zones. -/
def Evolves (e : Env) (ls : List (Int × Leg)) (sums sums' : List TSum) : Prop :=
  ∃ F : VSum → VSum, sums' = vmap F sums ∧ ∀ s, (F s).bare = applyLegs e ls s.bare

theorem Evolves.key {e : Env} {ls : List (Int × Leg)} {F : VSum → VSum}
    (h : ∀ s, (F s).bare = applyLegs e ls s.bare) (s : VSum) : (F s).key = s.key := by
  rw [← bare_key, h, applyLegs_key, bare_key]

theorem evolves_nil (e : Env) (sums : List TSum) : Evolves e [] sums sums :=
  ⟨id, by simp [vmap], fun s => rfl⟩

theorem Evolves.shape {e : Env} {ls : List (Int × Leg)} {sums sums' : List TSum} (h : Evolves e ls sums sums')
    (hs : Shape sums) : Shape sums' := by
  obtain ⟨F, rfl, hF⟩ := h
  exact shape_vmap (Evolves.key hF) hs

theorem Evolves.step {e : Env} {ls : List (Int × Leg)} {sums sums' : List TSum} (h : Evolves e ls sums sums')
    (hs : Shape sums) (ms : List Mission) (s : St) :
    Evolves e (ls ++ legs ms) sums (vmap (refresh e s) ((legs ms).foldl (addLeg e) sums')) := by
  have hs' := h.shape hs
  obtain ⟨F, rfl, hF⟩ := h
  rw [foldl_addLeg e _ hs', vmap_vmap, vmap_vmap]
  refine ⟨_, rfl, fun v => ?_⟩
  rw [refresh_bare, applyLegs_bare, hF, applyLegs_append]

/-! ### The first summaries -/

theorem addPerf_map (v : VSum) : ∀ {tasks : List Int} (f : Int → List VSum), tasks.Nodup →
    addPerf (tasks.map fun t => (⟨t, f t⟩ : TSum)) v =
      tasks.map fun t => (⟨t, f t ++ [v].filter fun s => s.dest == t⟩ : TSum)
  | [], _, _ => rfl
  | t :: tasks, f, h => by
    simp only [List.nodup_cons] at h
    rw [List.map_cons, addPerf]
    by_cases hk : t = v.dest
    · rw [if_pos hk, List.map_cons]
      have : (tasks.map fun t => (⟨t, f t⟩ : TSum)) =
          tasks.map fun t => (⟨t, f t ++ [v].filter fun s => s.dest == t⟩ : TSum) := by
        refine List.map_congr_left fun u hu => ?_
        have : ¬v.dest = u := fun hh => h.1 (by rw [hk, hh]; exact hu)
        simp [this]
      rw [← this]
      simp [hk]
    · rw [if_neg hk, List.map_cons, addPerf_map v f h.2]
      have : ¬v.dest = t := fun hh => hk hh.symm
      simp [List.filter_cons, this]

theorem foldl_addPerf : ∀ (vs : List VSum) {tasks : List Int} (f : Int → List VSum), tasks.Nodup →
    vs.foldl addPerf (tasks.map fun t => (⟨t, f t⟩ : TSum)) =
      tasks.map fun t => (⟨t, f t ++ vs.filter fun s => s.dest == t⟩ : TSum)
  | [], tasks, f, _ => by simp
  | v :: vs, tasks, f, h => by
    rw [List.foldl_cons, addPerf_map v f h, foldl_addPerf vs _ h]
    refine List.map_congr_left fun t _ => ?_
    rw [List.append_assoc, ← List.filter_append]
    rfl

theorem start_sums {r : Req} (h : r.tasks.Nodup) :
    (start r).sums = r.tasks.map fun t => (⟨t, ((parts r).map (·.2)).filter fun s => s.dest == t⟩ : TSum) := by
  have := foldl_addPerf ((parts r).map (·.2)) (fun _ => []) h
  simpa [start] using this

theorem nodup_flatMap {α β : Type} {f : α → List β} : ∀ {l : List α}, l.Nodup → (∀ a ∈ l, (f a).Nodup) →
    (∀ a ∈ l, ∀ b ∈ l, ∀ x, x ∈ f a → x ∈ f b → a = b) → (l.flatMap f).Nodup
  | [], _, _, _ => by simp
  | a :: l, h, hf, hd => by
    simp only [List.nodup_cons] at h
    rw [List.flatMap_cons, List.nodup_append]
    refine ⟨hf a (List.mem_cons_self ..), nodup_flatMap h.2 (fun b hb => hf b (List.mem_cons_of_mem _ hb))
      (fun b hb c hc => hd b (List.mem_cons_of_mem _ hb) c (List.mem_cons_of_mem _ hc)), ?_⟩
    intro x hx y hy hxy
    subst hxy
    obtain ⟨b, hb, hxb⟩ := List.mem_flatMap.mp hy
    have := hd a (List.mem_cons_self ..) b (List.mem_cons_of_mem _ hb) x hx hxb
    exact h.1 (this ▸ hb)

theorem nodup_map {α β : Type} {f : α → β} {l : List α} (h : l.Nodup) (hi : ∀ a ∈ l, ∀ b ∈ l, f a = f b → a = b) :
    (l.map f).Nodup := by
  rw [List.Nodup, List.pairwise_map]
  exact List.Pairwise.imp_of_mem (fun ha hb hne hh => hne (hi _ ha _ hb hh)) h

/-- The keys of the parts. -/
def keysOf (r : Req) : List (Int × Int × Int) := (parts r).map fun p => p.2.key

theorem keysOf_nodup {r : Req} (ht : r.tasks.Nodup) (hv : r.vehicles.Nodup) (h0 : (0 : Int) ∉ r.tasks) : (keysOf r).Nodup := by
  unfold keysOf parts
  split
  · rw [List.map_flatMap]
    refine nodup_flatMap ht (fun t _ => ?_) ?_
    · rw [List.map_map]
      refine nodup_map hv ?_
      intro a _ b _ hab
      simpa [VSum.key] using hab
    · intro a _ b _ x hx hy
      simp only [List.map_map, List.mem_map, Function.comp_apply, VSum.key] at hx hy
      obtain ⟨v, _, rfl⟩ := hx
      obtain ⟨w, _, hw⟩ := hy
      simp only [Prod.mk.injEq] at hw
      exact hw.2.2.symm
  · rw [List.map_flatMap]
    refine nodup_flatMap hv (fun v _ => ?_) ?_
    · rw [List.map_flatMap]
      refine nodup_flatMap ht (fun i hi => ?_) ?_
      · rw [List.map_cons, List.nodup_cons]
        refine ⟨?_, ?_⟩
        · intro hm
          simp only [List.map_map, List.mem_map, Function.comp_apply, VSum.key, Prod.mk.injEq] at hm
          obtain ⟨j, _, _, h₂, _⟩ := hm
          exact h0 (h₂ ▸ hi)
        · rw [List.map_map]
          refine nodup_map (ht.sublist List.filter_sublist) ?_
          intro a _ b _ hab
          simpa [VSum.key] using hab
      · intro i hi k hk x hx hy
        simp only [List.map_cons, List.map_map, List.mem_cons, List.mem_map, Function.comp_apply, VSum.key] at hx hy
        rcases hx with rfl | ⟨j, _, rfl⟩ <;> rcases hy with hy | ⟨j', _, hy⟩ <;> simp only [Prod.mk.injEq] at hy
        · exact hy.2.2
        · exact absurd (hy.2.1 ▸ hk) h0
        · exact absurd (hy.2.1 ▸ hi) h0
        · exact hy.2.1.symm
    · intro v _ w _ x hx hy
      simp only [List.mem_map, List.mem_flatMap, List.mem_cons, VSum.key] at hx hy
      obtain ⟨p, ⟨i, _, hp⟩, rfl⟩ := hx
      obtain ⟨q, ⟨j, _, hq⟩, hpq⟩ := hy
      have hp1 : p.2.vehicle = v := by
        rcases hp with rfl | ⟨_, _, rfl⟩ <;> rfl
      have hq1 : q.2.vehicle = w := by
        rcases hq with rfl | ⟨_, _, rfl⟩ <;> rfl
      simp only [Prod.mk.injEq] at hpq
      rw [← hp1, ← hq1, hpq.1]

theorem start_shape {r : Req} (ht : r.tasks.Nodup) (hv : r.vehicles.Nodup) (h0 : (0 : Int) ∉ r.tasks) :
    Shape (start r).sums := by
  rw [start_sums ht]
  refine ⟨by simpa [Function.comp_def] using ht, ?_⟩
  intro T hT
  obtain ⟨t, _, rfl⟩ := List.mem_map.mp hT
  refine ⟨fun s hs => by simpa using (List.mem_filter.mp hs).2, ?_⟩
  have := keysOf_nodup ht hv h0
  unfold keysOf at this
  rw [show (fun p : Option Ask × VSum => p.2.key) = VSum.key ∘ (·.2) from rfl, ← List.map_map] at this
  exact this.sublist (List.filter_sublist.map _)

end Verif.Batch
