import Verif.Waypoint.Lemmas

namespace Verif.Waypoint

/-! ### Additions to the last waypoints -/

/-- What the additions do not change. -/
def info (s : Seg) : Int × Int × List (Int × Nat) × List Wp :=
  (s.id, s.first, s.wps.map Wp.key, s.wps.dropLast)

theorem modifyLast_map {β : Type} (g : Wp → β) (f : Wp → Wp) (h : ∀ w, g (f w) = g w) :
    ∀ l, (modifyLast f l).map g = l.map g
  | [] => rfl
  | [w] => by simp [modifyLast, h]
  | w :: x :: l => by
    have := modifyLast_map g f h (x :: l)
    simp only [modifyLast, List.map_cons] at this ⊢
    rw [this]

theorem modifyLast_length (f : Wp → Wp) : ∀ l, (modifyLast f l).length = l.length
  | [] => rfl
  | [w] => rfl
  | w :: x :: l => by
    have := modifyLast_length f (x :: l)
    simp only [modifyLast, List.length_cons] at this ⊢
    rw [this]

theorem modifyLast_dropLast (f : Wp → Wp) : ∀ l, (modifyLast f l).dropLast = l.dropLast
  | [] => rfl
  | [w] => rfl
  | w :: x :: l => by
    have ih := modifyLast_dropLast f (x :: l)
    have hl := modifyLast_length f (x :: l)
    rw [show modifyLast f (w :: x :: l) = w :: modifyLast f (x :: l) from rfl]
    rcases hm : modifyLast f (x :: l) with _ | ⟨y, l'⟩
    · rw [hm] at hl; simp at hl
    · rw [hm] at ih
      simp only [List.dropLast_cons_cons]
      rw [ih]

theorem modifyLast_id (f : Wp → Wp) (h : ∀ w, f w = w) : ∀ l, modifyLast f l = l
  | [] => rfl
  | [w] => by simp [modifyLast, h]
  | w :: x :: l => by
    rw [show modifyLast f (w :: x :: l) = w :: modifyLast f (x :: l) from rfl, modifyLast_id f h (x :: l)]

theorem finishSegs_info (f : Wp → Wp) (h : ∀ w, (f w).key = w.key) :
    ∀ segs, (finishSegs f segs).map info = segs.map info
  | [] => rfl
  | [s] => by simp [finishSegs, info, modifyLast_map Wp.key f h, modifyLast_dropLast]
  | s :: t :: segs => by
    rw [show finishSegs f (s :: t :: segs) = s :: finishSegs f (t :: segs) from rfl, List.map_cons,
      finishSegs_info f h (t :: segs), List.map_cons (l := t :: segs)]

theorem finishSegs_append (f : Wp → Wp) (last : Seg) : ∀ init,
    finishSegs f (init ++ [last]) = init ++ [{ last with wps := modifyLast f last.wps }]
  | [] => rfl
  | [s] => rfl
  | s :: t :: segs => by
    have := finishSegs_append f last (t :: segs)
    rw [List.cons_append, List.cons_append] at this ⊢
    rw [show finishSegs f (s :: t :: (segs ++ [last])) = s :: finishSegs f (t :: (segs ++ [last])) from rfl, this]
    rfl

theorem modifyLast_getLast? (f : Wp → Wp) : ∀ l, (modifyLast f l).getLast? = l.getLast?.map f
  | [] => rfl
  | [w] => rfl
  | w :: x :: l => by
    have ih := modifyLast_getLast? f (x :: l)
    rw [show modifyLast f (w :: x :: l) = w :: modifyLast f (x :: l) from rfl]
    have hl := modifyLast_length f (x :: l)
    rcases hm : modifyLast f (x :: l) with _ | ⟨y, l'⟩
    · rw [hm] at hl; simp at hl
    · rw [hm] at ih
      rw [List.getLast?_cons_cons, ih, List.getLast?_cons_cons]

theorem finishSegs_id (f : Wp → Wp) (h : ∀ w, f w = w) : ∀ segs, finishSegs f segs = segs
  | [] => rfl
  | [s] => by simp [finishSegs, modifyLast_id f h]
  | s :: t :: segs => by
    rw [show finishSegs f (s :: t :: segs) = s :: finishSegs f (t :: segs) from rfl,
      finishSegs_id f h (t :: segs)]

theorem finishWp_key (c : Cfg) (n : Int) (w : Wp) : (finishWp c n w).key = w.key := by
  unfold finishWp
  simp only []
  split <;> split <;> split <;> split <;> rfl

/-- The loiter action at the end of segments. -/
def loiterSeg (c : Cfg) (s : Seg) : Seg :=
  if c.loiterSegments then { s with wps := modifyLast Wp.loiter s.wps } else s

theorem loiterSeg_info (c : Cfg) (s : Seg) : info (loiterSeg c s) = info s := by
  unfold loiterSeg
  split
  · simp [info, modifyLast_map Wp.key Wp.loiter (fun _ => rfl), modifyLast_dropLast]
  · rfl

/-- The loop does the same without loiter actions. -/
structure Sim (c : Cfg) (b b' : Build) : Prop where
  seg1 : b.seg1 = b'.seg1
  seg2 : b.seg2 = b'.seg2
  ok : b.ok = b'.ok
  next : b.next = b'.next
  done : b.done = b'.done.map (loiterSeg c)

theorem place_sim {c : Cfg} {b b' : Build} (h : Sim c b b') (w : Wp) :
    Sim c (place c b w) (place { c with loiterSegments := false } b' w) := by
  obtain ⟨h1, h2, h3, h4, h5⟩ := h
  unfold place
  rw [h1, h2, h4]
  have hU : Cfg.serveU { c with loiterSegments := false } = c.serveU := rfl
  simp only [hU]
  split
  · exact ⟨rfl, rfl, h3, rfl, h5⟩
  · split
    · refine ⟨rfl, rfl, h3, rfl, ?_⟩
      simp only [h5, List.map_append, List.map_cons, List.map_nil, Bool.false_eq_true, if_false]
      rfl
    · exact ⟨rfl, rfl, rfl, rfl, h5⟩

theorem fold_sim {c : Cfg} : ∀ (ws : List Wp) {b b' : Build}, Sim c b b' →
    Sim c (ws.foldl (place c) b) (ws.foldl (place { c with loiterSegments := false }) b')
  | [], _, _, h => h
  | w :: ws, _, _, h => fold_sim ws (place_sim h w)

/-! ### Command ids -/

/-- Not in the code: the invariant of the waypoint numbers. -/
structure IdsInv (n0 : Int) (b : Build) : Prop where
  range : ∀ x ∈ b.done.map (·.id) ++ [b.seg1.id, b.seg2.id], n0 ≤ x ∧ x < b.next
  sorted : (b.done.map (·.id) ++ [b.seg1.id, b.seg2.id]).Pairwise (· < ·)
  next : n0 ≤ b.next

theorem place_ids {c : Cfg} {n0 : Int} {b : Build} (hc : c.loiterSegments = false) (h : IdsInv n0 b)
    (w : Wp) : IdsInv n0 (place c b w) := by
  obtain ⟨h1, h2, h3⟩ := h
  unfold place
  split
  · refine ⟨?_, ?_, h3⟩
    · simp only []
      split <;> simpa using h1
    · simp only []
      split <;> simpa using h2
  · split
    · simp only [hc, Bool.false_eq_true, if_false]
      have hb : n0 ≤ b.next := h3
      refine ⟨?_, ?_, by simp only []; omega⟩
      · intro x hx
        show n0 ≤ x ∧ x < b.next + 1
        simp only [List.map_append, List.map_cons, List.map_nil, push_id, List.append_assoc, List.mem_append,
          List.mem_cons, List.not_mem_nil, or_false] at hx
        rcases hx with hx | hx | hx | hx
        · have := h1 x (by simp; exact .inl (by simpa using hx)); omega
        · have := h1 x (by simp [hx]); omega
        · have := h1 x (by simp [hx]); omega
        · omega
      · have he : ((b.done ++ [b.seg1]).map (·.id) ++ [(b.seg2.push w).id, b.next]) =
            (b.done.map (·.id) ++ [b.seg1.id, b.seg2.id]) ++ [b.next] := by simp
        rw [he]
        refine List.pairwise_append.2 ⟨h2, by simp, ?_⟩
        intro a ha y hy
        simp only [List.mem_singleton] at hy
        rw [hy]
        exact (h1 a ha).2
    · exact ⟨h1, h2, h3⟩

theorem fold_ids {c : Cfg} {n0 : Int} (hc : c.loiterSegments = false) : ∀ (ws : List Wp) {b : Build},
    IdsInv n0 b → IdsInv n0 (ws.foldl (place c) b)
  | [], _, h => h
  | w :: ws, _, h => fold_ids hc ws (place_ids hc h w)

theorem start_ids (n : Int) : IdsInv n (Build.start n) := by
  refine ⟨?_, ?_, by simp [Build.start]; omega⟩
  · intro x hx
    simp only [Build.start, List.map_nil, List.nil_append, List.mem_cons, List.not_mem_nil, or_false] at hx ⊢
    omega
  · simp [Build.start]; omega

/-! ### A new plan -/

/-- The settings for which the segmentation works. -/
structure Good (c : Cfg) (ws : List Wp) : Prop where
  vehicle : 0 < c.vehicle
  overlap : 0 < c.overlap
  size : c.overlap + 2 ≤ c.serveU
  some : ws ≠ []
  numbers : ∀ w ∈ ws, 0 ≤ w.number

theorem initializePlan_spec {c : Cfg} {s : State} {ws : List Wp} (hg : Good c ws) :
    ∃ raw : List Seg,
      (initializePlan c s ws).1.segs.map info = raw.map info ∧
      Chunks c.serveU c.overlap 0 ws (raw.map (·.wps)) ∧
      (2 ≤ min c.overlap (c.serveU - c.overlap - 1) → ∀ seg ∈ raw, entry seg.wps = some seg.first) ∧
      (raw.map (·.id)).Pairwise (· < ·) ∧
      (∀ x ∈ raw.map (·.id), s.next ≤ x ∧ x < (initializePlan c s ws).1.next) ∧
      (c.loiterSegments = false → c.loiterMission = false → c.loopBack = false → c.lastSpeed0 = false →
        c.gimbal ≤ 0 → (initializePlan c s ws).1.segs = raw) ∧
      (initializePlan c s ws).2 = true ∧
      (initializePlan c s ws).1.current = s.current ∧ (initializePlan c s ws).1.toSend = s.toSend ∧
      s.next ≤ (initializePlan c s ws).1.next ∧
      ∃ init last, raw = init ++ [last] ∧ (initializePlan c s ws).1.segs = init.map (loiterSeg c) ++
        [{ last with wps := modifyLast (finishWp c (frontNumber raw)) last.wps }] := by
  obtain ⟨tail, t1, t2, t3, t4, t5, hlast⟩ := place_chunks (c := { c with loiterSegments := false })
    (n := c.serveU) (m := c.overlap) rfl rfl hg.overlap hg.size rfl ws (Build.start s.next) 0
    (by simp [Build.start]) (by simp [Build.start]) (by omega) (by simp [Build.start])
    (by simp [Build.start]) hg.numbers (by simpa [Build.start] using hg.some) (by simp [Build.start])
    (by simp [Build.start]) (by simp [Build.start])
  have hsim := fold_sim (c := c) ws (b := Build.start s.next) (b' := Build.start s.next)
    ⟨rfl, rfl, rfl, rfl, rfl⟩
  have hids := fold_ids (c := { c with loiterSegments := false }) rfl ws (start_ids s.next)
  generalize hb' : ws.foldl (place { c with loiterSegments := false }) (Build.start s.next) = b' at *
  generalize hb : ws.foldl (place c) (Build.start s.next) = b at *
  have htail : result b' = tail := by
    rw [t1]; simp [Build.start]
  have htail' : tail = b'.done ++ [b'.seg1] := by
    rw [← htail, result, if_pos hlast]
  have hraw : (buildSegments c s.next ws).2 = b'.done.map (loiterSeg c) ++ [b'.seg1] := by
    simp only [buildSegments, hb]
    rw [hsim.seg1, if_pos hlast, hsim.done]
  have hnext : (buildSegments c s.next ws).1.next = b'.next := by
    simp only [buildSegments, hb]
    exact hsim.next
  have hok : (buildSegments c s.next ws).1.ok = true := by
    simp only [buildSegments, hb]
    rw [hsim.ok, t5]; rfl
  have hne : ws.isEmpty = false := by simpa using hg.some
  have hres : initializePlan c s ws = ({ s with
      next := b'.next,
      segs := finishSegs (finishWp c (frontNumber (b'.done.map (loiterSeg c) ++ [b'.seg1])))
        (b'.done.map (loiterSeg c) ++ [b'.seg1]) }, true) := by
    have hne2 : (b'.done.map (loiterSeg c) ++ [b'.seg1]).isEmpty = false := by simp
    simp only [initializePlan, hg.vehicle, if_true, hne, Bool.false_eq_true, if_false, hraw,
      hne2, hnext, hok]
  have hsub : ∀ x ∈ tail.map (·.id), x ∈ b'.done.map (·.id) ++ [b'.seg1.id, b'.seg2.id] := by
    intro x hx
    rw [htail'] at hx
    simp only [List.map_append, List.map_cons, List.map_nil, List.mem_append, List.mem_cons,
      List.not_mem_nil, or_false] at hx ⊢
    rcases hx with hx | hx
    · exact .inl hx
    · exact .inr (.inl hx)
  rw [hres]
  refine ⟨tail, ?_, ?_, t4, ?_, ?_, ?_, rfl, rfl, rfl, hids.next, b'.done, b'.seg1, htail', ?_⟩
  · rw [finishSegs_info _ (finishWp_key _ _), htail']
    simp only [List.map_append, List.map_map, List.map_cons, List.map_nil]
    congr 1
    exact List.map_congr_left fun x _ => loiterSeg_info c x
  · simpa [Build.start] using t2
  · have := hids.sorted
    rw [htail']
    refine this.sublist ?_
    simp only [List.map_append, List.map_cons, List.map_nil]
    exact (List.Sublist.refl _).append (by simp)
  · intro x hx
    exact hids.range x (hsub x hx)
  · intro f1 f2 f3 f4 f5
    have hl : loiterSeg c = fun s => s := by
      funext s
      simp [loiterSeg, f1]
    rw [htail', hl]
    simp only [List.map_id']
    refine finishSegs_id _ ?_ _
    intro w
    have : ¬ c.gimbal > 0 := by omega
    simp [finishWp, f2, f3, f4, this]
  · have hfront : frontNumber (b'.done.map (loiterSeg c) ++ [b'.seg1]) = frontNumber tail := by
      rw [htail']
      rcases b'.done with _ | ⟨x, l⟩
      · rfl
      · have hk := congrArg (fun i => i.2.2.1.head?.map (·.1)) (loiterSeg_info c x)
        have hx : ((loiterSeg c x).wps.head?.map (·.number)) = (x.wps.head?.map (·.number)) := by
          simpa [info, List.head?_map, Wp.key, Function.comp_def] using hk
        simp [frontNumber, hx]
    rw [hfront]
    exact finishSegs_append _ _ _

end Verif.Waypoint
