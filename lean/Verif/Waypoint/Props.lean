import Verif.Waypoint.ScanLemmas

/-!
Properties C42 and C43 of the waypoint plan manager.
-/

namespace Verif.Waypoint

theorem currentSegment_segs (s : State) (wp : Int) : (currentSegment s wp).segs = s.segs := by
  unfold currentSegment
  split
  · rfl
  · split <;> rfl

theorem newPlan_segs (c : Cfg) (s : State) (ws : List Wp) :
    (newPlan c s ws).segs = (initializePlan c s ws).1.segs := by
  unfold newPlan
  simp only []
  split
  · split
    · rfl
    · exact currentSegment_segs _ _
  · rfl

theorem step_plan {c : Cfg} {i : In} {ws : List Wp} (h : BringsPlan c i ws) (s : State) :
    step c s i = (newPlan c s ws, none) := by
  rcases h with rfl | ⟨pre, post, rfl, hp⟩
  · simp [step]
  · simp only [step]
    have : (pre ++ (c.vehicle, ws) :: post).find? (fun m => m.1 == c.vehicle) = some (c.vehicle, ws) := by
      rw [List.find?_append]
      have hn : pre.find? (fun m => m.1 == c.vehicle) = none := by
        rw [List.find?_eq_none]
        intro m hm
        simpa using hp m hm
      rw [hn]; simp
    rw [this]

/-! ### C42: segmentation -/

/-- **C42, partial.** When the number `n` of waypoints to serve is at least twice the overlap `m` plus
one: whatever the state, a plan with non-negative waypoint numbers is cut into the segments that start
at the positions 0, n - m, 2(n - m), ...; each has `n` waypoints, or as many as there are, and a
segment exists exactly as long as there is a waypoint beyond the previous one.  So every waypoint is
kept, in order, and consecutive segments have exactly `m` common waypoints.

Missing: for larger overlaps the number of common waypoints is smaller (`C42_covers_partial`,
`C42_overlap_violated`), waypoints are lost when `n < m + 2` (`C42_lost_waypoint_violated`), and when
waypoint numbers are negative (`C42_negative_number_violated`). -/
theorem C42_segments_partial (c : Cfg) (s : State) (i : In) (ws : List Wp) (hi : BringsPlan c i ws)
    (hg : Good c ws) (hn : 2 * c.overlap + 1 ≤ c.serveU) (j : Nat) :
    ((step c s i).1.segs.map fun seg => seg.wps.map Wp.key)[j]? =
      if j = 0 ∨ j * (c.serveU - c.overlap) + c.overlap < ws.length then
        some (((ws.drop (j * (c.serveU - c.overlap))).take c.serveU).map Wp.key)
      else none := by
  obtain ⟨raw, h1, h2, -⟩ := initializePlan_spec (s := s) hg
  rw [step_plan hi]
  simp only [newPlan_segs]
  have hk : ∀ l : List Seg, (l.map fun seg => seg.wps.map Wp.key) = (l.map info).map (·.2.2.1) := by
    intro l; simp [info, Function.comp_def]
  rw [hk, h1, ← hk]
  have h3 := h2.index hn (by omega) j
  have h4 : (raw.map fun seg => seg.wps.map Wp.key) = (raw.map (·.wps)).map (·.map Wp.key) := by simp
  rw [h4, List.getElem?_map, h3]
  split <;> rfl

/-- **C42, partial.** With the same conditions and no decorations configured the segments consist of
the waypoints themselves. -/
theorem C42_exact_partial (c : Cfg) (s : State) (i : In) (ws : List Wp) (hi : BringsPlan c i ws)
    (hg : Good c ws) (hn : 2 * c.overlap + 1 ≤ c.serveU)
    (f1 : c.loiterSegments = false) (f2 : c.loiterMission = false) (f3 : c.loopBack = false)
    (f4 : c.lastSpeed0 = false) (f5 : c.gimbal ≤ 0) (j : Nat) :
    ((step c s i).1.segs.map (·.wps))[j]? =
      if j = 0 ∨ j * (c.serveU - c.overlap) + c.overlap < ws.length then
        some ((ws.drop (j * (c.serveU - c.overlap))).take c.serveU)
      else none := by
  obtain ⟨raw, -, h2, -, -, -, h6, -⟩ := initializePlan_spec (s := s) hg
  rw [step_plan hi]
  simp only [newPlan_segs]
  rw [h6 f1 f2 f3 f4 f5]
  exact h2.index hn (by omega) j

/-- **C42, partial.** Whatever decorations are configured, only the last waypoint of a segment is
touched. -/
theorem C42_decorations_partial (c : Cfg) (s : State) (i : In) (ws : List Wp) (hi : BringsPlan c i ws)
    (hg : Good c ws) (hn : 2 * c.overlap + 1 ≤ c.serveU) (j : Nat) :
    ((step c s i).1.segs.map fun seg => seg.wps.dropLast)[j]? =
      if j = 0 ∨ j * (c.serveU - c.overlap) + c.overlap < ws.length then
        some ((ws.drop (j * (c.serveU - c.overlap))).take c.serveU).dropLast
      else none := by
  obtain ⟨raw, h1, h2, -⟩ := initializePlan_spec (s := s) hg
  rw [step_plan hi]
  simp only [newPlan_segs]
  have hk : ∀ l : List Seg, (l.map fun seg => seg.wps.dropLast) = (l.map info).map (·.2.2.2) := by
    intro l; simp [info, Function.comp_def]
  rw [hk, h1, ← hk]
  have h4 : (raw.map fun seg => seg.wps.dropLast) = (raw.map (·.wps)).map (·.dropLast) := by simp
  rw [h4, List.getElem?_map, h2.index hn (by omega) j]
  split <;> rfl

/-- **C42, partial.** Already when `m + 2 ≤ n` the segments cover the plan in order; consecutive
segments have at least min(m, n - m - 1) common waypoints. -/
theorem C42_covers_partial (c : Cfg) (s : State) (i : In) (ws : List Wp) (hi : BringsPlan c i ws)
    (hg : Good c ws) :
    Covers c.serveU (min c.overlap (c.serveU - c.overlap - 1)) (ws.map Wp.key)
      ((step c s i).1.segs.map fun seg => seg.wps.map Wp.key) := by
  obtain ⟨raw, h1, h2, -⟩ := initializePlan_spec (s := s) hg
  rw [step_plan hi]
  simp only [newPlan_segs]
  have hk : ∀ l : List Seg, (l.map fun seg => seg.wps.map Wp.key) = (l.map info).map (·.2.2.1) := by
    intro l; simp [info, Function.comp_def]
  rw [hk, h1, ← hk]
  have h4 : (raw.map fun seg => seg.wps.map Wp.key) = (raw.map (·.wps)).map (·.map Wp.key) := by simp
  rw [h4]
  exact (h2.covers hg.size (by omega)).map Wp.key

/-- Every element of the list is in some segment. -/
theorem Covers.mem {α : Type} {n m : Nat} {ws : List α} {segs : List (List α)} (h : Covers n m ws segs)
    {x : α} (hx : x ∈ ws) : ∃ seg ∈ segs, x ∈ seg := by
  induction h with
  | last _ => exact ⟨_, by simp, hx⟩
  | @more ws segs d h1 h2 h3 _ ih =>
    by_cases hxd : x ∈ ws.drop d
    · obtain ⟨seg, h4, h5⟩ := ih hxd
      exact ⟨seg, List.mem_cons_of_mem _ h4, h5⟩
    · rw [← List.take_append_drop d ws, List.mem_append] at hx
      refine ⟨ws.take n, by simp, ?_⟩
      have := hx.resolve_right hxd
      have hsub : (ws.take d).Sublist (ws.take n) := by
        rw [show ws.take d = (ws.take n).take d by rw [List.take_take]; congr 1; omega]
        exact List.take_sublist _ _
      exact hsub.subset this

/-- **C42, partial.** No waypoint is lost. -/
theorem C42_no_waypoint_lost_partial (c : Cfg) (s : State) (i : In) (ws : List Wp) (hi : BringsPlan c i ws)
    (hg : Good c ws) (w : Wp) (hw : w ∈ ws) :
    ∃ seg ∈ (step c s i).1.segs, ∃ w' ∈ seg.wps, w'.number = w.number ∧ w'.content = w.content := by
  obtain ⟨l, h1, h2⟩ := (C42_covers_partial c s i ws hi hg).mem (List.mem_map_of_mem (f := Wp.key) hw)
  obtain ⟨seg, h3, rfl⟩ := List.mem_map.1 h1
  obtain ⟨w', h4, h5⟩ := List.mem_map.1 h2
  simp only [Wp.key, Prod.mk.injEq] at h5
  exact ⟨seg, h3, w', h4, h5.1, h5.2⟩

/-- A plan of `n` waypoints with numbers 1, 2, .... -/
def exPlan (n : Nat) : List Wp := (List.range n).map fun (k : Nat) => { number := (k : Int) + 1, content := k }

/-- Not in the code: an example. -/
def exCfg : Cfg := { serve := 7, overlap := 3 }

theorem exPlan_good (c : Cfg) (n : Nat) (h1 : 0 < c.vehicle) (h2 : 0 < c.overlap)
    (h3 : c.overlap + 2 ≤ c.serveU) (h4 : 0 < n) : Good c (exPlan n) := by
  refine ⟨h1, h2, h3, ?_, ?_⟩
  · intro e
    have := congrArg List.length e
    simp [exPlan] at this
    omega
  · intro w hw
    obtain ⟨k, -, rfl⟩ := List.mem_map.1 hw
    simp only []
    omega

/-- 16 waypoints, 7 at a time with 3 in common. -/
example : Good exCfg (exPlan 16) ∧ 2 * exCfg.overlap + 1 ≤ exCfg.serveU ∧
    (step exCfg {} (.mission 1 (exPlan 16))).1.segs.map (fun s => s.wps.map (·.number)) =
      [[1, 2, 3, 4, 5, 6, 7], [5, 6, 7, 8, 9, 10, 11], [9, 10, 11, 12, 13, 14, 15], [13, 14, 15, 16]] :=
  ⟨exPlan_good _ _ (by decide) (by decide) (by decide) (by decide), by decide, by decide +kernel⟩

/-- **C42 is violated** for large overlaps: with 5 waypoints to serve and an overlap of 3 the second
and the third segment have one waypoint in common. -/
theorem C42_overlap_violated :
    (step { serve := 5, overlap := 3 } {} (.mission 1 (exPlan 9))).1.segs.map (fun s => s.wps.map (·.number)) =
      [[1, 2, 3, 4, 5], [3, 4, 5, 6, 7], [7, 8, 9]] := by
  decide +kernel

/-- **C42 is violated** when the overlap is one less than the waypoints to serve: consecutive segments
have nothing in common, and the last waypoint of seven is lost. -/
theorem C42_lost_waypoint_violated :
    (step { serve := 5, overlap := 4 } {} (.mission 1 (exPlan 7))).1.segs.map (fun s => s.wps.map (·.number)) =
      [[1, 2, 3, 4, 5], [2, 3, 4, 5, 6]] := by
  decide +kernel

/-- **C42 is violated** for negative waypoint numbers: the second waypoint has the number -2, and the
whole plan is dropped. -/
theorem C42_negative_number_violated :
    (step exCfg {} (.mission 1 [{ number := 1 }, { number := -2 }])).1.segs = [] := by
  decide +kernel

/-- The configured overlap is at least 2. -/
theorem C42_overlap_configured (o : Option Int) : 2 ≤ configOverlap o ∧
    (∀ n, o = some n → 2 ≤ n → (configOverlap o : Int) = n) := by
  unfold configOverlap
  split
  · exact ⟨by omega, by simp⟩
  · split
    · refine ⟨by omega, ?_⟩
      intro n hn h2
      simp only [Option.some.injEq] at hn
      omega
    · refine ⟨by omega, ?_⟩
      intro n hn h2
      simp only [Option.some.injEq] at hn
      omega

/-! ### C58: what is added to waypoints -/

theorem Chunks.getLast {α : Type} {n m s : Nat} {ws : List α} {segs : List (List α)}
    (h : Chunks n m s ws segs) (hm : m + 2 ≤ n) (hs : s ≤ n) : ∃ init last, segs = init ++ [last] ∧
      last.getLast? = ws.getLast? ∧ (segs.head?.bind (·.head?)) = ws.head? := by
  induction h with
  | @last s ws hl => exact ⟨[], ws, rfl, rfl, rfl⟩
  | @more s ws segs hl _ ih =>
    obtain ⟨init, last, h1, h2, -⟩ := ih (by omega)
    refine ⟨ws.take n :: init, last, by rw [h1]; rfl, ?_, ?_⟩
    · rw [h2, List.getLast?_drop, if_neg (by omega)]
    · rcases ws with _ | ⟨w, l⟩
      · simp
      · rcases n with _ | n
        · omega
        · rfl

/-- **C58, partial.** The last waypoint of the last segment is the last waypoint `w` of the plan with
the configured changes: it leads back to the first waypoint of the plan, its speed is 0, a loiter action
and a gimbal action are appended.

Missing: the loiter action has the old speed although speed 0 is configured
(`C58_loiter_speed_violated`). -/
theorem C58_last_waypoint_partial (c : Cfg) (s : State) (i : In) (ws : List Wp) (w0 w : Wp)
    (hi : BringsPlan c i ws) (hg : Good c ws) (h0 : ws.head? = some w0) (hw : ws.getLast? = some w) :
    ∃ last, (step c s i).1.segs.getLast? = some last ∧ last.wps.getLast? = some
      { number := w.number
        next := if c.loopBack then w0.number else w.next
        speed := if c.lastSpeed0 then 0 else w.speed
        content := w.content
        actions := w.actions ++ (if c.loiterMission then [.loiter w.speed] else []) ++
          (if c.gimbal > 0 then [.gimbal c.gimbal] else []) } := by
  obtain ⟨raw, -, h2, -, -, -, -, -, -, -, -, init, last, h3, h4⟩ := initializePlan_spec (s := s) hg
  obtain ⟨init', last', h5, h6, h7⟩ := h2.getLast hg.size (by omega)
  rw [step_plan hi]
  simp only [newPlan_segs]
  rw [h4]
  refine ⟨_, by simp; rfl, ?_⟩
  have hl : last.wps = last' := by
    rw [h3] at h5
    simp only [List.map_append, List.map_cons, List.map_nil] at h5
    exact List.singleton_inj.1 (List.append_inj_right' h5 rfl)
  have hfront : frontNumber raw = w0.number := by
    rw [h0] at h7
    rcases raw with _ | ⟨x, l⟩
    · simp at h7
    · simp only [List.map_cons, List.head?_cons, Option.bind_some] at h7
      simp [frontNumber, h7]
  rw [hfront]
  simp only [modifyLast_getLast?, hl, h6, hw, Option.map_some, Option.some.injEq, finishWp, Wp.loiter]
  split <;> split <;> split <;> split <;> simp

/-- **C58.** When configured, the last waypoint of every other segment gets a loiter action with its
speed, and nothing else. -/
theorem C58_segment_ends (c : Cfg) (s : State) (i : In) (ws : List Wp) (hi : BringsPlan c i ws)
    (hg : Good c ws) (seg : Seg) (hs : seg ∈ (step c s i).1.segs.dropLast) :
    ∃ w ∈ ws, seg.wps.getLast? = some (if c.loiterSegments then
      { w with actions := w.actions ++ [.loiter w.speed] } else w) := by
  obtain ⟨raw, -, h2, -, -, -, -, -, -, -, -, init, last, h3, h4⟩ := initializePlan_spec (s := s) hg
  rw [step_plan hi] at hs
  simp only [newPlan_segs] at hs
  rw [h4, List.dropLast_concat] at hs
  obtain ⟨x, hx, rfl⟩ := List.mem_map.1 hs
  have hmem : x.wps ∈ raw.map (·.wps) := List.mem_map_of_mem (by rw [h3]; simp [hx])
  have hne : x.wps ≠ [] ∧ ∀ y ∈ x.wps, y ∈ ws := by
    have hcov := h2.covers hg.size (by omega)
    have hws := hg.some
    have hn := hg.size
    clear h2 h4 h3 hs hi
    generalize raw.map (·.wps) = L at hcov hmem
    induction hcov with
    | @last ws hl =>
      simp only [List.mem_singleton] at hmem
      rw [hmem]
      exact ⟨hws, fun _ h => h⟩
    | @more ws segs d h1 h2 h3 _ ih =>
      rcases List.mem_cons.1 hmem with e | hmem
      · rw [e]
        refine ⟨?_, fun y hy => List.mem_of_mem_take hy⟩
        intro e2
        rcases List.take_eq_nil_iff.1 e2 with e3 | e3
        · omega
        · exact hws e3
      · have hd : ws.drop d ≠ [] := by
          intro e2
          rw [List.drop_eq_nil_iff] at e2
          omega
        obtain ⟨g1, g2⟩ := ih ⟨hg.1, hg.2, hg.3, hd, fun w hw => hg.5 w (List.mem_of_mem_drop hw)⟩ hd hmem
        exact ⟨g1, fun y hy => List.mem_of_mem_drop (g2 y hy)⟩
  have hgl : x.wps.getLast? = some (x.wps.getLast hne.1) := List.getLast?_eq_some_getLast hne.1
  refine ⟨x.wps.getLast hne.1, hne.2 _ (List.getLast_mem _), ?_⟩
  unfold loiterSeg
  split
  · simp only [modifyLast_getLast?, hgl, Option.map_some, Wp.loiter]
  · exact hgl

/-- Not in the code: an example. -/
def exDecorated : Cfg :=
  { exCfg with loiterSegments := true, loiterMission := true, loopBack := true, lastSpeed0 := true, gimbal := 9 }

/-- Three segments with everything configured. -/
example : let c := exDecorated
    Good c (exPlan 14) ∧
    (step c {} (.mission 1 (exPlan 14))).1.segs.map (fun s => s.wps.getLast?) =
      [some { number := 7, content := 6, actions := [.loiter 0] },
       some { number := 11, content := 10, actions := [.loiter 0] },
       some { number := 14, content := 13, next := 1, actions := [.loiter 0, .gimbal 9] }] :=
  ⟨exPlan_good _ _ (by decide) (by decide) (by decide) (by decide), by decide +kernel⟩

/-- **C58 is violated**: with speed 0 configured for the last waypoint its loiter action still has the
speed 20. -/
theorem C58_loiter_speed_violated :
    (step { exCfg with loiterMission := true, lastSpeed0 := true } {}
      (.mission 1 [{ number := 1, speed := 20 }, { number := 2, speed := 20 }])).1.segs.map
        (fun s => s.wps.getLast?) = [some { number := 2, speed := 0, actions := [.loiter 20] }] := by
  decide +kernel

/-! ### C43: following a plan -/

/-- The ids in use are below the counter. -/
def IdBound (s : State) : Prop := s.current < s.next ∧ ∀ seg ∈ s.segs, seg.id < s.next

theorem mem_ids_of_info {a b : List Seg} (h : a.map info = b.map info) : a.map (·.id) = b.map (·.id) := by
  have hk : ∀ l : List Seg, l.map (·.id) = (l.map info).map (·.1) := by
    intro l; simp [info, Function.comp_def]
  rw [hk, h, ← hk]

theorem initializePlan_bound (c : Cfg) (s : State) (ws : List Wp) (h : IdBound s) :
    IdBound (initializePlan c s ws).1 := by
  unfold initializePlan
  split
  · split
    · exact ⟨h.1, by simp⟩
    · have hsim := fold_sim (c := c) ws (b := Build.start s.next) (b' := Build.start s.next)
        ⟨rfl, rfl, rfl, rfl, rfl⟩
      have hids := fold_ids (c := { c with loiterSegments := false }) rfl ws (start_ids s.next)
      have hb : ∀ seg ∈ (buildSegments c s.next ws).2, seg.id < (buildSegments c s.next ws).1.next := by
        intro seg hseg
        simp only [buildSegments] at hseg ⊢
        rw [hsim.seg1, hsim.done] at hseg
        rw [hsim.next]
        have hcase : (∃ x ∈ (ws.foldl (place { c with loiterSegments := false }) (Build.start s.next)).done,
            seg = loiterSeg c x) ∨
            seg = (ws.foldl (place { c with loiterSegments := false }) (Build.start s.next)).seg1 := by
          split at hseg
          · rcases List.mem_append.1 hseg with hx | hx
            · obtain ⟨x, h1, h2⟩ := List.mem_map.1 hx
              exact .inl ⟨x, h1, h2.symm⟩
            · exact .inr (by simpa using hx)
          · obtain ⟨x, h1, h2⟩ := List.mem_map.1 hseg
            exact .inl ⟨x, h1, h2.symm⟩
        rcases hcase with ⟨x, h1, rfl⟩ | rfl
        · have : (loiterSeg c x).id = x.id := congrArg (·.1) (loiterSeg_info c x)
          rw [this]
          refine (hids.range _ ?_).2
          exact List.mem_append_left _ (List.mem_map_of_mem h1)
        · exact (hids.range _ (List.mem_append_right _ (by simp))).2
      have hn : s.next ≤ (buildSegments c s.next ws).1.next := by
        simp only [buildSegments]
        rw [hsim.next]
        exact hids.next
      simp only []
      split
      · exact ⟨by have := h.1; simp only []; omega, by simp⟩
      · refine ⟨by have := h.1; simp only []; omega, ?_⟩
        intro seg hseg
        have hi := mem_ids_of_info (finishSegs_info (finishWp c (frontNumber (buildSegments c s.next ws).2))
          (finishWp_key c _) (buildSegments c s.next ws).2)
        have : seg.id ∈ (finishSegs (finishWp c (frontNumber (buildSegments c s.next ws).2))
            (buildSegments c s.next ws).2).map (·.id) := List.mem_map_of_mem (f := (·.id)) hseg
        rw [hi] at this
        obtain ⟨x, hx, hxe⟩ := List.mem_map.1 this
        rw [← hxe]
        exact hb x hx
  · exact h

theorem scanWps_mem (seg : Seg) (wp : Int) : ∀ (ws : List Wp) (b : Bool) (found : Option Seg) (x : Seg),
    scanWps seg wp b found ws = some x → x = seg ∨ found = some x
  | [], _, found, x, h => .inr (by simpa [scanWps] using h)
  | w :: ws, b, found, x, h => by
    rw [scanWps] at h
    rcases scanWps_mem seg wp ws _ _ x h with h1 | h1
    · exact .inl h1
    · split at h1
      · split at h1
        · exact .inl (by simpa using h1.symm)
        · exact .inr h1
      · exact .inr h1

theorem scanSegs_mem (wp : Int) : ∀ (segs : List Seg) (found : Option Seg) (x : Seg),
    scanSegs wp found segs = some x → x ∈ segs ∨ found = some x
  | [], found, x, h => .inr (by simpa [scanSegs] using h)
  | seg :: segs, found, x, h => by
    rw [scanSegs] at h
    rcases scanSegs_mem wp segs _ x h with h1 | h1
    · exact .inl (List.mem_cons_of_mem _ h1)
    · rcases scanWps_mem seg wp _ _ _ x h1 with rfl | h2
      · exact .inl (by simp)
      · exact .inr h2

theorem currentSegment_bound (s : State) (wp : Int) (h : IdBound s) : IdBound (currentSegment s wp) := by
  unfold currentSegment
  split
  · exact h
  · rename_i seg hs
    split
    · rcases scanSegs_mem wp _ _ _ hs with h1 | h1
      · exact ⟨h.2 seg h1, h.2⟩
      · simp at h1
    · exact h

theorem newPlan_bound (c : Cfg) (s : State) (ws : List Wp) (h : IdBound s) : IdBound (newPlan c s ws) := by
  unfold newPlan
  simp only []
  split
  · split
    · exact initializePlan_bound c s _ h
    · exact currentSegment_bound _ _ (initializePlan_bound c s _ h)
  · exact initializePlan_bound c s _ h

theorem step_bound (c : Cfg) (s : State) (i : In) (h : IdBound s) : IdBound (step c s i).1 := by
  cases i with
  | airState v wp =>
    simp only [step]
    split
    · exact currentSegment_bound _ _ h
    · exact h
  | automation ms =>
    simp only [step]
    split
    · exact h
    · exact newPlan_bound c s _ h
  | mission v ws =>
    simp only [step]
    split
    · exact newPlan_bound c s _ h
    · exact h
  | tick => exact h
  | idDrawn => exact ⟨by have := h.1; simp only [step]; omega, fun seg hs => by
      have := h.2 seg hs; simp only [step]; omega⟩

theorem run_bound (c : Cfg) (h : List In) : IdBound (run c h).1 :=
  runM_induction (step := step c) (s0 := {}) (P := fun _ s _ => IdBound s)
    ⟨by decide, by simp⟩ (fun is i ih => step_bound c _ i ih) h

/-! #### The current segment -/

theorem lastSent_snoc (os : List (Option Seg)) (o : Option Seg) :
    lastSent (os ++ [o]) = o.or (lastSent os) := by
  unfold lastSent
  cases o <;> simp

/-- The segments of a plan. -/
structure PlanSegs (W : List Int) (segs : List Seg) : Prop where
  covers : ∃ n m, 2 ≤ m ∧ Covers n m W (segs.map nums)
  ids : (segs.map (·.id)).Pairwise (· < ·)
  entry : ∀ seg ∈ segs, EntersInside seg

/-- The command for the current segment is about to be sent or was sent last. -/
structure Following (plan : List Seg) (s : State) (sent : Option Seg) : Prop where
  segs : s.segs = plan
  current : ∃ seg ∈ plan, seg.id = s.current ∧ ∃ cmd, (s.toSend.or sent) = some cmd ∧
    cmd.wps = seg.wps ∧ cmd.id = seg.id ∧ EntersInside cmd

theorem entersInside_of_entry {s : Seg} (h : entry s.wps = some s.first) : EntersInside s := by
  unfold EntersInside
  rcases hs : s.wps with _ | ⟨a, _ | ⟨b, l⟩⟩
  · rw [hs] at h; simp [entry] at h
  · rw [hs] at h; right; simpa [entry] using h
  · rw [hs] at h
    left
    simp only [entry, Option.some.injEq] at h
    simp [h]

theorem eq_of_id {segs : List Seg} (h : (segs.map (·.id)).Pairwise (· < ·)) {a b : Seg} (ha : a ∈ segs)
    (hb : b ∈ segs) (he : a.id = b.id) : a = b := by
  induction segs with
  | nil => simp at ha
  | cons x l ih =>
    rw [List.map_cons, List.pairwise_cons] at h
    rcases List.mem_cons.1 ha with rfl | ha
    · rcases List.mem_cons.1 hb with rfl | hb
      · rfl
      · have := h.1 b.id (List.mem_map_of_mem hb); omega
    · rcases List.mem_cons.1 hb with rfl | hb
      · have := h.1 a.id (List.mem_map_of_mem (by assumption)); omega
      · exact ih h.2 ha hb

theorem serves_mem {l : List Int} {p : Int} {rest : List Int} (h : Serves l p rest) : p ∈ l := by
  obtain ⟨a, b, rfl, -⟩ := h
  simp

/-- What a report of the waypoint `p` does when its segment is found. -/
theorem currentSegment_following {segs : List Seg} {s : State} {sent : Option Seg} {p : Int} {seg : Seg}
    {W : List Int} (hp : PlanSegs W segs) (hs : s.segs = segs) (hm : seg ∈ segs)
    (hscan : scanSegs p none segs = some seg) (hpm : p ∈ nums seg)
    (h : seg.id = s.current → Following segs s sent) :
    Following segs (currentSegment s p) sent ∧ (currentSegment s p).current = seg.id := by
  unfold currentSegment
  rw [hs, hscan]
  simp only []
  by_cases hid : seg.id = s.current
  · rw [if_neg (by simpa using hid)]
    exact ⟨h hid, hid.symm⟩
  · rw [if_pos hid]
    refine ⟨⟨rfl, seg, hm, rfl, _, rfl, ?_, ?_, ?_⟩, rfl⟩
    · split <;> rfl
    · split <;> rfl
    · split
      · exact hp.entry seg hm
      · rename_i hne
        left
        show p ∈ (seg.wps.map (·.number)).tail
        unfold nums at hpm
        rcases hw : seg.wps with _ | ⟨a, l⟩
        · rw [hw] at hpm; simp at hpm
        · rw [hw] at hpm hne
          simp only [List.map_cons, List.mem_cons] at hpm
          simp only [List.head?_cons, Option.map_some, Option.some.injEq] at hne
          simp only [List.map_cons, List.tail_cons]
          exact hpm.resolve_left fun e => hne e.symm

theorem planSegs_of_good {c : Cfg} {s : State} {ws : List Wp} (hg : Good c ws)
    (hm : 2 ≤ min c.overlap (c.serveU - c.overlap - 1)) :
    PlanSegs (ws.map (·.number)) (initializePlan c s ws).1.segs ∧
    (∀ seg ∈ (initializePlan c s ws).1.segs, s.next ≤ seg.id) ∧
    (initializePlan c s ws).2 = true ∧ (initializePlan c s ws).1.current = s.current := by
  obtain ⟨raw, h1, h2, h3, h4, h5, -, h7, h8, -⟩ := initializePlan_spec (s := s) hg
  have hids := mem_ids_of_info h1
  have hnums : (initializePlan c s ws).1.segs.map nums = raw.map nums := by
    have hk : ∀ l : List Seg, l.map nums = (l.map info).map fun x => x.2.2.1.map (·.1) := by
      intro l; simp [info, nums, Wp.key, Function.comp_def]
    rw [hk, h1, ← hk]
  have hent : (initializePlan c s ws).1.segs.map (fun x => (nums x, x.first)) =
      raw.map (fun x => (nums x, x.first)) := by
    have hk : ∀ l : List Seg, l.map (fun x => (nums x, x.first)) =
        (l.map info).map fun x => (x.2.2.1.map (·.1), x.2.1) := by
      intro l; simp [info, nums, Wp.key, Function.comp_def]
    rw [hk, h1, ← hk]
  refine ⟨⟨⟨c.serveU, _, hm, ?_⟩, by rw [hids]; exact h4, ?_⟩, ?_, h7, h8⟩
  · rw [hnums]
    have := (h2.covers hg.size (by omega)).map (·.number)
    rw [List.map_map] at this
    exact this
  · intro seg hseg
    have : (nums seg, seg.first) ∈ raw.map (fun x => (nums x, x.first)) := by
      rw [← hent]; exact List.mem_map_of_mem (f := fun x => (nums x, x.first)) hseg
    obtain ⟨x, hx, hxe⟩ := List.mem_map.1 this
    have hx2 := entersInside_of_entry (h3 hm x hx)
    simp only [Prod.mk.injEq] at hxe
    unfold EntersInside at hx2 ⊢
    unfold nums at hxe
    rw [hxe.1, hxe.2] at hx2
    exact hx2
  · intro seg hseg
    refine (h5 seg.id ?_).1
    rw [← hids]
    exact List.mem_map_of_mem hseg

/-- After a plan arrived the command for its first waypoints is about to be sent. -/
theorem following_start {c : Cfg} {s : State} {ws : List Wp} {sent : Option Seg} (hg : Good c ws)
    (hm : 2 ≤ min c.overlap (c.serveU - c.overlap - 1)) (hnd : (ws.map (·.number)).Nodup)
    (hb : IdBound s) :
    ∃ segs, PlanSegs (ws.map (·.number)) segs ∧ Following segs (newPlan c s ws) sent := by
  obtain ⟨h1, h2, h3, h4⟩ := planSegs_of_good (s := s) hg hm
  refine ⟨_, h1, ?_⟩
  rcases hw : ws with _ | ⟨w, l⟩
  · exact absurd hw hg.some
  · obtain ⟨n, m, hm2, hcov⟩ := h1.covers
    obtain ⟨seg, hs1, hs2, hs3⟩ := (scan_covers hcov hm2 hnd _ rfl [] (l.map (·.number)) w.number
      (by rw [hw]; rfl) none).2 (.inr rfl)
    rw [← hw]
    have : newPlan c s ws = currentSegment (initializePlan c s ws).1 w.number := by
      unfold newPlan
      simp only []
      rw [if_pos h3]
      subst hw
      rfl
    rw [this]
    refine (currentSegment_following h1 rfl hs1 hs2 (serves_mem hs3) ?_).1
    intro e
    rw [h4] at e
    have h5 := h2 seg hs1
    have h6 := hb.1
    omega

/-- Reports and ticks keep following the plan. -/
theorem following_step {c : Cfg} {W : List Int} {segs : List Seg} {s : State} {sent : Option Seg} {i : In}
    (hp : PlanSegs W segs) (hnd : W.Nodup) (hn : NoPlan c i) (hf : Following segs s sent) :
    Following segs (step c s i).1 ((step c s i).2.or sent) := by
  cases i with
  | airState v wp =>
    simp only [step, Option.none_or]
    split
    · by_cases hmem : wp ∈ W
      · obtain ⟨pre, rest, hW⟩ := List.append_of_mem hmem
        obtain ⟨n, m, hm, hcov⟩ := hp.covers
        obtain ⟨seg, h1, h2, h3⟩ := (scan_covers hcov hm hnd segs rfl pre rest wp hW none).2 (.inr rfl)
        exact (currentSegment_following hp hf.segs h1 h2 (serves_mem h3) fun _ => hf).1
      · obtain ⟨n, m, hm, hcov⟩ := hp.covers
        have := scanSegs_not_mem hcov wp hmem segs rfl none
        unfold currentSegment
        rw [hf.segs, this]
        exact hf
    · exact hf
  | automation ms =>
    have : ms.find? (fun m => m.1 == c.vehicle) = none := by
      rw [List.find?_eq_none]
      intro m hm
      simpa using hn m hm
    simp only [step, this, Option.none_or]
    exact hf
  | mission v ws =>
    have hv : v ≠ c.vehicle := hn
    simp only [step, if_neg hv, Option.none_or]
    exact hf
  | tick =>
    obtain ⟨h1, seg, h2, h3, cmd, h4, h5⟩ := hf
    exact ⟨h1, seg, h2, h3, cmd, by simpa [step] using h4, h5⟩
  | idDrawn => exact ⟨hf.segs, hf.current⟩

theorem following_run {c : Cfg} {W : List Int} {segs : List Seg} (hp : PlanSegs W segs) (hnd : W.Nodup) :
    ∀ (h : List In) (s : State) (os : List (Option Seg)), (∀ i ∈ h, NoPlan c i) →
      Following segs s (lastSent os) →
      Following segs (runM (step c) s h).1 (lastSent (os ++ (runM (step c) s h).2))
  | [], s, os, _, hf => by simpa using hf
  | i :: is, s, os, hn, hf => by
    rw [runM_cons]
    have h1 := following_step hp hnd (hn i (by simp)) hf
    rw [← lastSent_snoc] at h1
    have := following_run hp hnd is _ _ (fun j hj => hn j (List.mem_cons_of_mem _ hj)) h1
    simpa using this

theorem report_current {c : Cfg} {W : List Int} {segs : List Seg} {s : State} {sent : Option Seg} {p : Int}
    {pre rest : List Int} (hp : PlanSegs W segs) (hnd : W.Nodup) (hW : W = pre ++ p :: rest)
    (hf : Following segs s sent) :
    ∃ seg ∈ segs, (step c s (.airState c.vehicle p)).1.current = seg.id ∧ Serves (nums seg) p rest ∧
      scanSegs p none segs = some seg := by
  obtain ⟨n, m, hm, hcov⟩ := hp.covers
  obtain ⟨seg, h1, h2, h3⟩ := (scan_covers hcov hm hnd segs rfl pre rest p hW none).2 (.inr rfl)
  refine ⟨seg, h1, ?_, h3, h2⟩
  simp only [step, if_true]
  exact (currentSegment_following hp hf.segs h1 h2 (serves_mem h3) fun _ => hf).2

theorem quiet_current {c : Cfg} : ∀ (h : List In) (s : State), (∀ i ∈ h, NoPlan c i) → reports c h = [] →
    (runM (step c) s h).1.current = s.current
  | [], _, _, _ => rfl
  | i :: is, s, hn, hr => by
    rw [runM_cons]
    have hr1 : reports c is = [] ∧ (step c s i).1.current = s.current := by
      have hsplit : reports c (i :: is) = reports c [i] ++ reports c is := by
        unfold reports
        rw [← List.filterMap_append]; rfl
      rw [hsplit] at hr
      obtain ⟨ha, hb⟩ := List.append_eq_nil_iff.1 hr
      refine ⟨hb, ?_⟩
      have hni := hn i (by simp)
      cases i with
      | airState v wp =>
        have : v ≠ c.vehicle := by
          intro e
          simp [reports, e] at ha
        simp only [step, if_neg this]
      | automation ms =>
        have : ms.find? (fun m => m.1 == c.vehicle) = none := by
          rw [List.find?_eq_none]
          intro m hm
          simpa using hni m hm
        simp only [step, this]
      | mission v ws =>
        have hv : v ≠ c.vehicle := hni
        simp only [step, if_neg hv]
      | tick => rfl
      | idDrawn => rfl
    have := quiet_current is (step c s i).1 (fun j hj => hn j (List.mem_cons_of_mem _ hj)) hr1.1
    exact this.trans hr1.2

/-- **C43, partial.** Whatever happened before (`h0`), let a plan with distinct waypoint numbers arrive,
then reports and ticks in any order (`h1`) but no other plan, then the report of a waypoint of the plan,
then anything but a report of the vehicle or a plan (`h2`), then a tick.  The mission command that the
vehicle was sent last contains the reported waypoint followed by its successor in the plan, and enters
at a waypoint after its first one.

Missing: overlaps of less than 2 or more than n - 3 of n waypoints to serve, see
`C43_stuck_violated`. -/
theorem C43_served_partial (c : Cfg) (h0 h1 h2 : List In) (i : In) (ws : List Wp) (p : Int)
    (rest : List Int) (hi : BringsPlan c i ws) (hg : Good c ws) (hov : 2 ≤ c.overlap)
    (hsz : c.overlap + 3 ≤ c.serveU) (hnd : (ws.map (·.number)).Nodup)
    (h1n : ∀ x ∈ h1, NoPlan c x) (h2n : ∀ x ∈ h2, NoPlan c x) (h2r : reports c h2 = [])
    (hp : PlanAt ws p rest) :
    ∃ cmd, lastSent (run c (h0 ++ i :: (h1 ++ .airState c.vehicle p :: (h2 ++ [.tick])))).2 = some cmd ∧
      Serves (cmd.wps.map (·.number)) p rest ∧ EntersInside cmd := by
  obtain ⟨pre, hW⟩ := hp
  have hm : 2 ≤ min c.overlap (c.serveU - c.overlap - 1) := by omega
  have hb := run_bound c h0
  generalize hs0 : (run c h0).1 = s0 at hb
  generalize ho0 : (run c h0).2 = o0
  obtain ⟨segs, hps, hf⟩ := following_start (sent := lastSent (o0 ++ [none])) hg hm hnd hb
  have hf1 := following_run (c := c) hps hnd h1 _ (o0 ++ [none]) h1n hf
  generalize hs1 : (runM (step c) (newPlan c s0 ws) h1).1 = s1 at hf1
  generalize ho1 : (runM (step c) (newPlan c s0 ws) h1).2 = o1 at hf1
  obtain ⟨seg, hseg, hcur, hsv, -⟩ := report_current (c := c) hps hnd hW hf1
  have hf2 := following_step (c := c) (i := .airState c.vehicle p) hps hnd trivial hf1
  have hstep : step c s1 (.airState c.vehicle p) = ((step c s1 (.airState c.vehicle p)).1, none) := rfl
  rw [← lastSent_snoc] at hf2
  have hf3 := following_run (c := c) hps hnd h2 _ _ h2n hf2
  have hcur2 := quiet_current (c := c) h2 (step c s1 (.airState c.vehicle p)).1 h2n h2r
  generalize hs3 : (runM (step c) (step c s1 (.airState c.vehicle p)).1 h2).1 = s3 at hf3 hcur2
  generalize ho3 : (runM (step c) (step c s1 (.airState c.vehicle p)).1 h2).2 = o3 at hf3
  obtain ⟨-, seg', hm', hid', cmd, hcmd, hw, -, hent⟩ := hf3
  have heq : seg' = seg := eq_of_id hps.ids hm' hseg (by rw [hid', hcur2, hcur])
  refine ⟨cmd, ?_, ?_, hent⟩
  · rw [show (run c (h0 ++ i :: (h1 ++ .airState c.vehicle p :: (h2 ++ [.tick])))).2 =
        (o0 ++ [none] ++ o1 ++ [none] ++ o3) ++ [s3.toSend] by
      simp only [run, runM_append, runM_cons, step_plan hi]
      simp only [run] at hs0 ho0
      rw [hs0, ho0, hs1, ho1, hs3, ho3]
      simp [step]]
    rw [lastSent_snoc]
    exact hcmd
  · rw [hw, heq]; exact hsv

example : Good exCfg (exPlan 16) ∧ ((exPlan 16).map (·.number)).Nodup ∧
    PlanAt (exPlan 16) 7 ((exPlan 16).map (·.number) |>.drop 7) :=
  ⟨exPlan_good _ _ (by decide) (by decide) (by decide) (by decide), by decide +kernel,
    ⟨[1, 2, 3, 4, 5, 6], by decide +kernel⟩⟩

example : lastSent (run exCfg [.mission 1 (exPlan 16), .tick, .airState 1 7, .airState 2 9, .tick]).2 =
    some { id := 2, first := 7, wps := ((exPlan 16).drop 4).take 7 } := by decide +kernel

/-- **C43 is violated** when the overlap is too large for the number of waypoints to serve: the vehicle
is at waypoint 6 of seven, the segment it was sent ends there, and no other segment is sent. -/
theorem C43_stuck_violated :
    let c : Cfg := { serve := 5, overlap := 4 }
    let h : List In := [.mission 1 (exPlan 7), .tick, .airState 1 2, .airState 1 3, .airState 1 4,
      .airState 1 5, .airState 1 6, .tick]
    (lastSent (run c h).2).map (fun s => s.wps.map (·.number)) = some [2, 3, 4, 5, 6] := by
  decide +kernel

/-- **C43.** In every history: after a tick nothing is sent until the vehicle reports or a plan
arrives. -/
theorem C43_sent_once (c : Cfg) (h h2 : List In) (hn : ∀ x ∈ h2, NoPlan c x) (hr : reports c h2 = []) :
    ∀ o ∈ (runM (step c) (step c (run c h).1 .tick).1 h2).2, o = none := by
  have key : ∀ (h2 : List In) (s : State), (∀ x ∈ h2, NoPlan c x) → reports c h2 = [] → s.toSend = none →
      ∀ o ∈ (runM (step c) s h2).2, o = none := by
    intro h2
    induction h2 with
    | nil => intro s _ _ _ o ho; simp at ho
    | cons i is ih =>
      intro s hn hr ht o ho
      rw [runM_cons] at ho
      have hsplit : reports c (i :: is) = reports c [i] ++ reports c is := by
        unfold reports
        rw [← List.filterMap_append]; rfl
      rw [hsplit] at hr
      obtain ⟨ha, hb⟩ := List.append_eq_nil_iff.1 hr
      have hni := hn i (by simp)
      have hstep : (step c s i).2 = none ∧ (step c s i).1.toSend = none := by
        cases i with
        | airState v wp =>
          have : v ≠ c.vehicle := by
            intro e
            simp [reports, e] at ha
          simp only [step, if_neg this]
          exact ⟨trivial, ht⟩
        | automation ms =>
          have : ms.find? (fun m => m.1 == c.vehicle) = none := by
            rw [List.find?_eq_none]
            intro m hm
            simpa using hni m hm
          simp only [step, this]
          exact ⟨trivial, ht⟩
        | mission v ws =>
          have hv : v ≠ c.vehicle := hni
          simp only [step, if_neg hv]
          exact ⟨trivial, ht⟩
        | tick => exact ⟨ht, rfl⟩
        | idDrawn => exact ⟨rfl, ht⟩
      rcases List.mem_cons.1 ho with rfl | ho
      · exact hstep.1
      · exact ih _ (fun j hj => hn j (List.mem_cons_of_mem _ hj)) hb hstep.2 o ho
  exact key h2 _ hn hr rfl

/-! #### Progress in order -/

theorem pairwise_getElem {l : List Int} (h : l.Pairwise (· < ·)) {j j' : Nat} {a b : Int} (hj : j ≤ j')
    (ha : l[j]? = some a) (hb : l[j']? = some b) : a ≤ b ∧ (a ≠ b → a < b) := by
  rcases Nat.lt_or_eq_of_le hj with hlt | rfl
  · obtain ⟨h1, h2⟩ := List.getElem?_eq_some_iff.1 ha
    obtain ⟨h3, h4⟩ := List.getElem?_eq_some_iff.1 hb
    have := List.pairwise_iff_getElem.1 h j j' h1 h3 hlt
    rw [h2, h4] at this
    omega
  · rw [ha] at hb
    simp only [Option.some.injEq] at hb
    omega

/-- Command ids that were sent. -/
def sentIds (os : List (Option Seg)) : List Int := os.filterMap (Option.map (·.id))

theorem inOrder_run {c : Cfg} {W : List Int} {segs : List Seg} (hp : PlanSegs W segs) (hnd : W.Nodup) :
    ∀ (h : List In) (s : State) (j i0 : Nat) (idx : List Nat), (∀ x ∈ h, NoPlan c x) →
      s.segs = segs → (segs.map (·.id))[j]? = some s.current →
      (∀ i p, i0 ≤ i → W[i]? = some p → ∃ j', j ≤ j' ∧ j' < segs.length ∧ scanSegs p none segs = segs[j']?) →
      (s.toSend = none ∨ ∃ cmd, s.toSend = some cmd ∧ cmd.id = s.current) →
      idx.Pairwise (· ≤ ·) → (∀ i ∈ idx, i0 ≤ i) →
      (reports c h).map some = idx.map (fun i => W[i]?) →
      (sentIds (runM (step c) s h).2).Pairwise (· < ·) ∧
      (∀ x ∈ sentIds (runM (step c) s h).2, s.current ≤ x ∧ (s.toSend = none → s.current < x)) := by
  intro h
  induction h with
  | nil => intro s j i0 idx _ _ _ _ _ _ _ _; simp [sentIds]
  | cons x xs ih =>
    intro s j i0 idx hn hs hj hmono ht hidx hlow hrep
    rw [runM_cons]
    have hn' : ∀ y ∈ xs, NoPlan c y := fun y hy => hn y (List.mem_cons_of_mem _ hy)
    have hcons : ∀ (o : Option Seg) (os : List (Option Seg)), sentIds (o :: os) =
        (match o with | some a => [a.id] | none => []) ++ sentIds os := by
      intro o os
      cases o <;> simp [sentIds]
    have hsplit : reports c (x :: xs) = reports c [x] ++ reports c xs := by
      unfold reports
      rw [← List.filterMap_append]; rfl
    rw [hsplit] at hrep
    -- an input that does nothing
    have hskip : step c s x = (s, none) → reports c [x] = [] →
        (sentIds ((step c s x).2 :: (runM (step c) (step c s x).1 xs).2)).Pairwise (· < ·) ∧
        (∀ y ∈ sentIds ((step c s x).2 :: (runM (step c) (step c s x).1 xs).2),
          s.current ≤ y ∧ (s.toSend = none → s.current < y)) := by
      intro hst hr
      rw [hr] at hrep
      rw [hst, hcons]
      exact ih s j i0 idx hn' hs hj hmono ht hidx hlow (by simpa using hrep)
    cases x with
    | airState v wp =>
      by_cases hv : v = c.vehicle
      · have hr : reports c [.airState v wp] = [wp] := by simp [reports, hv]
        rw [hr] at hrep
        rcases idx with _ | ⟨i, idx⟩
        · simp at hrep
        · simp only [List.map_cons, List.singleton_append, List.cons.injEq] at hrep
          obtain ⟨hwp, hrep⟩ := hrep
          rw [List.pairwise_cons] at hidx
          have hi0 := hlow i (by simp)
          obtain ⟨j', hjj, hjl, hscan⟩ := hmono i wp hi0 hwp.symm
          have hseg : segs[j']? = some segs[j'] := List.getElem?_eq_getElem hjl
          have hnew : ∀ i' p', i ≤ i' → W[i']? = some p' →
              ∃ j'', j' ≤ j'' ∧ j'' < segs.length ∧ scanSegs p' none segs = segs[j'']? := by
            intro i' p' hii hp'
            rcases Nat.eq_zero_or_pos i with h0 | h0
            · -- the first waypoint is found in the first segment
              obtain ⟨n, m, hm, hcov⟩ := hp.covers
              rcases Nat.eq_zero_or_pos i' with h0' | h0'
              · subst h0; subst h0'
                rw [← hwp] at hp'
                simp only [Option.some.injEq] at hp'
                subst hp'
                exact ⟨j', Nat.le_refl _, hjl, hscan⟩
              · obtain ⟨_, j2, -, hj2, -, hs2⟩ := scan_mono hcov (by omega) hnd segs rfl i' i' p' p' h0'
                  (Nat.le_refl _) hp' hp' none none
                refine ⟨j2, ?_, hj2, hs2⟩
                have hj0 : j' = 0 := by
                  subst h0
                  exact front_index hp hnd hwp.symm hscan hjl
                omega
            · obtain ⟨n, m, hm, hcov⟩ := hp.covers
              obtain ⟨j1, j2, h12, hj2, hs1, hs2⟩ := scan_mono hcov (by omega) hnd segs rfl i i' wp p' h0 hii
                hwp.symm hp' none none
              refine ⟨j2, ?_, hj2, hs2⟩
              have : j1 = j' := by
                rw [hscan, hseg] at hs1
                have hj1 : j1 < segs.length := by omega
                rw [List.getElem?_eq_getElem hj1] at hs1
                simp only [Option.some.injEq] at hs1
                have hids := hp.ids
                by_cases hlt : j1 < j'
                · have := List.pairwise_iff_getElem.1 hids j1 j' (by simpa using hj1) (by simpa using hjl) hlt
                  simp only [List.getElem_map, ← hs1] at this
                  omega
                · by_cases hgt : j' < j1
                  · have := List.pairwise_iff_getElem.1 hids j' j1 (by simpa using hjl) (by simpa using hj1) hgt
                    simp only [List.getElem_map, ← hs1] at this
                    omega
                  · omega
              omega
          have hstep : step c s (.airState v wp) = (currentSegment s wp, none) := by simp [step, hv]
          rw [hstep, hcons]
          simp only [List.nil_append]
          have hidj' : (segs.map (·.id))[j']? = some segs[j'].id := by
            rw [List.getElem?_map, hseg]; rfl
          have hcmp := pairwise_getElem hp.ids hjj hj hidj'
          by_cases hid : segs[j'].id = s.current
          · have hcs : currentSegment s wp = s := by
              unfold currentSegment
              rw [hs, hscan, hseg]
              simp only []
              rw [if_neg (by simpa using hid)]
            rw [hcs]
            exact ih s j' i idx hn' hs (by rw [hidj', hid]) hnew ht hidx.2 hidx.1 hrep
          · have hcs : (currentSegment s wp).segs = segs ∧ (currentSegment s wp).current = segs[j'].id ∧
                ∃ cmd, (currentSegment s wp).toSend = some cmd ∧ cmd.id = segs[j'].id := by
              unfold currentSegment
              rw [hs, hscan, hseg]
              simp only []
              rw [if_pos hid]
              refine ⟨rfl, rfl, _, rfl, ?_⟩
              split <;> rfl
            obtain ⟨c1, c2, cmd, c3, c4⟩ := hcs
            obtain ⟨g1, g2⟩ := ih (currentSegment s wp) j' i idx hn' c1 (by rw [c2]; exact hidj') hnew
              (.inr ⟨cmd, c3, by rw [c4, c2]⟩) hidx.2 hidx.1 hrep
            refine ⟨g1, ?_⟩
            intro y hy
            have := (g2 y hy).1
            rw [c2] at this
            have h5 := hcmp.2 (fun e => hid e.symm)
            omega
      · exact hskip (by simp [step, hv]) (by simp [reports, hv])
    | automation ms =>
      have : ms.find? (fun m => m.1 == c.vehicle) = none := by
        rw [List.find?_eq_none]
        intro m hm
        simpa using hn _ (List.mem_cons_self ..) m hm
      exact hskip (by simp [step, this]) (by simp [reports])
    | mission v ws =>
      have hv : v ≠ c.vehicle := hn _ (List.mem_cons_self ..)
      exact hskip (by simp [step, hv]) (by simp [reports])
    | idDrawn =>
      rw [hcons]
      have hrep' : (reports c xs).map some = idx.map (fun i => W[i]?) := by simpa [reports] using hrep
      exact ih { s with next := s.next + 1 } j i0 idx hn' hs hj hmono ht hidx hlow hrep'
    | tick =>
      have hrep' : (reports c xs).map some = idx.map (fun i => W[i]?) := by simpa [reports] using hrep
      have hrec := ih { s with toSend := none } j i0 idx hn' hs hj hmono (.inl rfl) hidx hlow hrep'
      rw [hcons]
      rcases ht with ht | ⟨cmd, ht, hid⟩
      · simp only [step, ht, List.nil_append]
        refine ⟨hrec.1, fun y hy => ?_⟩
        have := (hrec.2 y hy).2 rfl
        simp only [] at this
        omega
      · simp only [step, ht, List.singleton_append]
        refine ⟨List.pairwise_cons.2 ⟨fun y hy => ?_, hrec.1⟩, ?_⟩
        · have := (hrec.2 y hy).2 rfl
          simp only [] at this
          omega
        · intro y hy
          rcases List.mem_cons.1 hy with rfl | hy
          · exact ⟨by omega, fun e => by simp at e⟩
          · have := (hrec.2 y hy).2 rfl
            simp only [] at this
            exact ⟨by omega, fun e => by simp at e⟩
where
  front_index {W : List Int} {segs : List Seg} (hp : PlanSegs W segs) (hnd : W.Nodup) {p : Int} {j : Nat}
      (h0 : W[0]? = some p) (hs : scanSegs p none segs = segs[j]?) (hj : j < segs.length) : j = 0 := by
    obtain ⟨n, m, hm, hcov⟩ := hp.covers
    rcases hW : W with _ | ⟨x, rest⟩
    · rw [hW] at h0; simp at h0
    · rw [hW] at h0 hnd
      simp only [List.getElem?_cons_zero, Option.some.injEq] at h0
      subst h0
      have hpr : x ∉ rest := (List.nodup_cons.1 hnd).1
      have hfirst : scanSegs x none segs = segs[0]? := by
        generalize hL : segs.map nums = L at hcov
        cases hcov with
        | last hl =>
          rcases segs with _ | ⟨seg, _ | ⟨s2, segs⟩⟩
          · simp at hL
          · simp only [List.map_cons, List.map_nil, List.cons.injEq, and_true] at hL
            rw [scanSegs, scanSegs, scan_seg (hL.trans hW), if_neg hpr, if_pos ⟨rfl, rfl⟩]; rfl
          · simp at hL
        | more d d1 d2 d3 d4 =>
          rcases segs with _ | ⟨seg, segs⟩
          · simp at hL
          · simp only [List.map_cons, List.cons.injEq] at hL
            have htake : W.take n = x :: rest.take (n - 1) := by
              rw [hW]
              cases n with
              | zero => omega
              | succ n => simp
            have hnp : x ∉ W.drop d := by
              rw [hW]
              cases d with
              | zero => omega
              | succ d => simpa using fun e => hpr (List.mem_of_mem_drop e)
            rw [scanSegs, scan_seg (hL.1.trans htake), if_neg (fun e => hpr (List.mem_of_mem_take e)),
              if_pos ⟨rfl, rfl⟩, scanSegs_not_mem d4 x hnp segs hL.2]; rfl
      rw [hfirst] at hs
      rcases Nat.eq_zero_or_pos j with h | h
      · exact h
      · have h00 : 0 < segs.length := by omega
        rw [List.getElem?_eq_getElem h00, List.getElem?_eq_getElem hj] at hs
        simp only [Option.some.injEq] at hs
        have := List.pairwise_iff_getElem.1 hp.ids 0 j (by simpa using h00) (by simpa using hj) h
        simp only [List.getElem_map, hs] at this
        omega

/-- **C43, partial.** Let a plan with distinct waypoint numbers arrive and let the vehicle afterwards
report waypoints of the plan in the order of the plan (it may repeat and skip some).  Then the mission
commands sent since have increasing command ids; in particular no segment is sent twice.

Missing: the same settings as in `C43_served_partial`. -/
theorem C43_in_order_partial (c : Cfg) (h0 h1 : List In) (i : In) (ws : List Wp) (idx : List Nat)
    (hi : BringsPlan c i ws) (hg : Good c ws) (hov : 2 ≤ c.overlap) (hsz : c.overlap + 3 ≤ c.serveU)
    (hnd : (ws.map (·.number)).Nodup) (h1n : ∀ x ∈ h1, NoPlan c x) (hidx : idx.Pairwise (· ≤ ·))
    (hrep : (reports c h1).map some = idx.map (fun k => (ws.map (·.number))[k]?)) :
    (((runM (step c) (step c (run c h0).1 i).1 h1).2.filterMap (Option.map (·.id)))).Pairwise (· < ·) := by
  have hm : 2 ≤ min c.overlap (c.serveU - c.overlap - 1) := by omega
  have hb := run_bound c h0
  generalize (run c h0).1 = s0 at hb
  rw [step_plan hi]
  obtain ⟨hps, hge, hok, hcur⟩ := planSegs_of_good (s := s0) hg hm
  rcases hw : ws with _ | ⟨w, l⟩
  · exact absurd hw hg.some
  · obtain ⟨n, m, hm2, hcov⟩ := hps.covers
    obtain ⟨seg, hs1, hs2, hs3⟩ := (scan_covers hcov hm2 hnd _ rfl [] (l.map (·.number)) w.number
      (by rw [hw]; rfl) none).2 (.inr rfl)
    rw [← hw]
    have hnp : newPlan c s0 ws = currentSegment (initializePlan c s0 ws).1 w.number := by
      unfold newPlan
      simp only []
      rw [if_pos hok]
      subst hw
      rfl
    obtain ⟨j, hj⟩ := List.getElem?_of_mem hs1
    have hjl := (List.getElem?_eq_some_iff.1 hj).1
    have hW0 : (ws.map (·.number))[0]? = some w.number := by rw [hw]; rfl
    have hj0 : j = 0 := inOrder_run.front_index hps hnd hW0 (hs2.trans hj.symm) hjl
    have hid : seg.id ≠ (initializePlan c s0 ws).1.current := by
      have h5 := hge seg hs1
      have h6 := hb.1
      omega
    have hcs : (newPlan c s0 ws).segs = (initializePlan c s0 ws).1.segs ∧
        (newPlan c s0 ws).current = seg.id ∧
        ∃ cmd, (newPlan c s0 ws).toSend = some cmd ∧ cmd.id = seg.id := by
      rw [hnp]
      unfold currentSegment
      rw [hs2]
      simp only []
      rw [if_pos hid]
      refine ⟨rfl, rfl, _, rfl, ?_⟩
      split <;> rfl
    obtain ⟨c1, c2, cmd, c3, c4⟩ := hcs
    refine (inOrder_run hps hnd h1 (newPlan c s0 ws) j 0 idx h1n c1 ?_ ?_ (.inr ⟨cmd, c3, by rw [c4, c2]⟩)
      hidx (fun _ _ => Nat.zero_le _) hrep).1
    · rw [List.getElem?_map, hj, c2]; rfl
    · intro k p _ hkp
      rcases Nat.eq_zero_or_pos k with h0 | h0
      · subst h0
        rw [hW0] at hkp
        simp only [Option.some.injEq] at hkp
        subst hkp
        exact ⟨j, Nat.le_refl _, hjl, hs2.trans hj.symm⟩
      · obtain ⟨_, j2, -, hj2, -, hsc⟩ := scan_mono hcov (by omega) hnd _ rfl k k p p h0 (Nat.le_refl _)
          hkp hkp none none
        exact ⟨j2, by omega, hj2, hsc⟩

/-- All of the plan is reported in order, with a tick after each. -/
example : (runM (step exCfg) (step exCfg {} (.mission 1 (exPlan 16))).1
    (.tick :: (List.range 16).flatMap fun (k : Nat) => [.airState 1 ((k : Int) + 1), .tick])).2.filterMap
      (Option.map fun s => (s.id, s.first)) = [(1, 2), (2, 6), (3, 10), (4, 14)] := by decide +kernel

end Verif.Waypoint
