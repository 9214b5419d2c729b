import Verif.Waypoint.InitLemmas

namespace Verif.Waypoint

/-- The waypoint numbers of a segment. -/
def nums (s : Seg) : List Int := s.wps.map (·.number)

theorem scanWps_false (seg : Seg) (wp : Int) : ∀ (ws : List Wp) (found : Option Seg),
    scanWps seg wp false found ws = if wp ∈ ws.map (·.number) then some seg else found
  | [], found => by simp [scanWps]
  | w :: ws, found => by
    rw [scanWps, scanWps_false seg wp ws]
    by_cases h : w.number = wp
    · simp [h]
    · have h' : ¬ wp = w.number := fun e => h e.symm
      simp [h, h']

theorem scanWps_true (seg : Seg) (wp : Int) (found : Option Seg) (w : Wp) (ws : List Wp) :
    scanWps seg wp true found (w :: ws) = if wp ∈ ws.map (·.number) then some seg
      else if w.number = wp ∧ found = none then some seg else found := by
  rw [scanWps, scanWps_false]
  congr 1
  by_cases h : w.number = wp
  · cases found <;> simp [h]
  · simp [h]

theorem scanSegs_not_mem {n m : Nat} {W : List Int} {L : List (List Int)} (h : Covers n m W L) (p : Int)
    (hp : p ∉ W) : ∀ (segs : List Seg), segs.map nums = L → ∀ found, scanSegs p found segs = found := by
  have key : ∀ (seg : Seg) (found : Option Seg), p ∉ nums seg →
      scanWps seg p true found seg.wps = found := by
    intro seg found hn
    unfold nums at hn
    rcases hs : seg.wps with _ | ⟨w, ws⟩
    · rfl
    · rw [hs] at hn
      simp only [List.map_cons, List.mem_cons, not_or] at hn
      rw [scanWps_true, if_neg hn.2, if_neg]
      exact fun e => hn.1 e.1.symm
  induction h with
  | last hl =>
    intro segs hs found
    rcases segs with _ | ⟨seg, _ | ⟨s2, segs⟩⟩
    · simp at hs
    · simp only [List.map_cons, List.map_nil, List.cons.injEq, and_true] at hs
      rw [scanSegs, scanSegs, key seg found (by rw [hs]; exact hp)]
    · simp at hs
  | @more W L d h1 h2 h3 h4 ih =>
    intro segs hs found
    rcases segs with _ | ⟨seg, segs⟩
    · simp at hs
    · simp only [List.map_cons, List.cons.injEq] at hs
      rw [scanSegs, key seg found (by rw [hs.1]; exact fun e => hp (List.mem_of_mem_take e)),
        ih (fun e => hp (List.mem_of_mem_drop e)) segs hs.2]

/-- One segment that starts with `pre ++ p :: rest`. -/
theorem scan_seg {seg : Seg} {x : Int} {xs : List Int} (hn : nums seg = x :: xs) (p : Int) (found : Option Seg) :
    scanWps seg p true found seg.wps = if p ∈ xs then some seg
      else if x = p ∧ found = none then some seg else found := by
  unfold nums at hn
  rcases hs : seg.wps with _ | ⟨w, ws⟩
  · rw [hs] at hn; simp at hn
  · rw [hs] at hn
    simp only [List.map_cons, List.cons.injEq] at hn
    rw [scanWps_true, hn.2, hn.1]

/-- The choice of the segment: when nothing was found before, or the waypoint is not the first. -/
theorem scan_covers {n m : Nat} {W : List Int} {L : List (List Int)} (h : Covers n m W L) (hm : 2 ≤ m) :
    W.Nodup → ∀ (segs : List Seg), segs.map nums = L → ∀ (pre rest : List Int) (p : Int),
      W = pre ++ p :: rest → ∀ found : Option Seg,
      (pre = [] → found ≠ none → scanSegs p found segs = found) ∧
      ((pre ≠ [] ∨ found = none) → ∃ seg ∈ segs, scanSegs p found segs = some seg ∧ Serves (nums seg) p rest) := by
  induction h with
  | @last W hl =>
    intro hnd segs hs pre rest p hW found
    rcases segs with _ | ⟨seg, _ | ⟨s2, segs⟩⟩
    · simp at hs
    · simp only [List.map_cons, List.map_nil, List.cons.injEq, and_true] at hs
      rw [scanSegs, scanSegs]
      rw [hW] at hs hnd
      cases pre with
      | nil =>
        simp only [List.nil_append] at hs hnd
        rw [List.nodup_cons] at hnd
        rw [scan_seg hs, if_neg hnd.1]
        refine ⟨fun _ hf => by rw [if_neg]; exact fun e => hf e.2, ?_⟩
        rintro (hf | hf)
        · exact absurd rfl hf
        · exact ⟨seg, by simp, by simp [hf], [], rest, by rw [hs]; rfl, rfl⟩
      | cons x pre =>
        refine ⟨fun e => by simp at e, fun _ => ⟨seg, by simp, ?_, x :: pre, rest, hs, rfl⟩⟩
        rw [scan_seg (x := x) (xs := pre ++ p :: rest) hs, if_pos (by simp)]
    · simp at hs
  | @more W L d h1 h2 h3 h4 ih =>
    intro hnd segs hs pre rest p hW found
    rcases segs with _ | ⟨seg, segs⟩
    · simp at hs
    · simp only [List.map_cons, List.cons.injEq] at hs
      rw [scanSegs]
      have hnd' : (W.drop d).Nodup := hnd.sublist (List.drop_sublist _ _)
      cases pre with
      | nil =>
        simp only [List.nil_append] at hW
        have htake : W.take n = p :: rest.take (n - 1) := by
          rw [hW]
          cases n with
          | zero => omega
          | succ n => simp
        have hpr : p ∉ rest := by
          rw [hW] at hnd
          exact (List.nodup_cons.1 hnd).1
        have hnp : p ∉ W.drop d := by
          rw [hW]
          cases d with
          | zero => omega
          | succ d => simpa using fun e => hpr (List.mem_of_mem_drop e)
        rw [scanSegs_not_mem h4 p hnp segs hs.2, scan_seg (hs.1.trans htake),
          if_neg (fun e => hpr (List.mem_of_mem_take e))]
        refine ⟨fun _ hf => by rw [if_neg]; exact fun e => hf e.2, ?_⟩
        rintro (hf | hf)
        · exact absurd rfl hf
        · refine ⟨seg, by simp, by simp [hf], [], rest.take (n - 1), by rw [hs.1, htake]; rfl, ?_⟩
          rw [List.take_take]
          congr 1
          omega
      | cons x pre =>
        refine ⟨fun e => by simp at e, fun _ => ?_⟩
        have hlenW : W.length = pre.length + 1 + 1 + rest.length := by rw [hW]; simp; omega
        by_cases hd : pre.length + 1 ≤ d
        · -- the waypoint belongs to this segment
          have htake : W.take n = (x :: pre) ++ p :: rest.take (n - pre.length - 2) := by
            rw [hW, List.take_append]
            have h5 : n - (x :: pre).length = (n - pre.length - 2) + 1 := by
              simp only [List.length_cons]; omega
            rw [h5, List.take_succ_cons, List.take_of_length_le (by simp only [List.length_cons]; omega)]
          have hsv : Serves (nums seg) p rest := by
            refine ⟨x :: pre, rest.take (n - pre.length - 2), hs.1.trans htake, ?_⟩
            rw [List.take_take]
            congr 1
            omega
          have hsc : scanWps seg p true found seg.wps = some seg := by
            rw [scan_seg (hs.1.trans htake), if_pos (by simp)]
          rw [hsc]
          by_cases hde : pre.length + 1 = d
          · have hdrop : W.drop d = [] ++ p :: rest := by
              rw [hW, ← hde]
              have : pre.length + 1 = (x :: pre).length := rfl
              rw [this, List.drop_left]; rfl
            have := (ih hnd' segs hs.2 [] rest p hdrop (some seg)).1 rfl (by simp)
            exact ⟨seg, by simp, this, hsv⟩
          · have hnp : p ∉ W.drop d := by
              intro e
              have hdr : W.drop d = rest.drop (d - pre.length - 2) := by
                rw [hW]
                have : d = (x :: pre).length + ((d - pre.length - 2) + 1) := by
                  simp only [List.length_cons]; omega
                rw [this, ← List.drop_drop, List.drop_left, List.drop_succ_cons]
                congr 1
                simp only [List.length_cons]; omega
              rw [hdr] at e
              rw [hW] at hnd
              have := (List.nodup_append.1 hnd).2.1
              exact (List.nodup_cons.1 this).1 (List.mem_of_mem_drop e)
            rw [scanSegs_not_mem h4 p hnp segs hs.2]
            exact ⟨seg, by simp, rfl, hsv⟩
        · -- it is inside of what follows
          have hdrop : W.drop d = (x :: pre).drop d ++ p :: rest := by
            rw [hW, List.drop_append_of_le_length (by simp only [List.length_cons]; omega)]
          have hne : (x :: pre).drop d ≠ [] := by
            intro e
            have := List.drop_eq_nil_iff.1 e
            simp only [List.length_cons] at this
            omega
          obtain ⟨seg', h6, h7, h8⟩ := (ih hnd' segs hs.2 _ rest p hdrop
            (scanWps seg p true found seg.wps)).2 (.inl hne)
          exact ⟨seg', List.mem_cons_of_mem _ h6, h7, h8⟩

/-- Later waypoints are found in later segments. -/
theorem scan_mono {n m : Nat} {W : List Int} {L : List (List Int)} (h : Covers n m W L) (hm : 1 ≤ m) :
    W.Nodup → ∀ (segs : List Seg), segs.map nums = L → ∀ (i i' : Nat) (p p' : Int), 0 < i → i ≤ i' →
      W[i]? = some p → W[i']? = some p' → ∀ found found' : Option Seg,
      ∃ j j', j ≤ j' ∧ j' < segs.length ∧ scanSegs p found segs = segs[j]? ∧
        scanSegs p' found' segs = segs[j']? := by
  have tailMem : ∀ (x : Int) (xs : List Int) (i : Nat) (p : Int), 0 < i → (x :: xs)[i]? = some p → p ∈ xs := by
    intro x xs i p hi h
    cases i with
    | zero => omega
    | succ i => exact List.mem_of_getElem? (by simpa using h)
  induction h with
  | @last W hl =>
    intro _ segs hs i i' p p' hi hii h1 h2 found found'
    rcases segs with _ | ⟨seg, _ | ⟨s2, segs⟩⟩
    · simp at hs
    · simp only [List.map_cons, List.map_nil, List.cons.injEq, and_true] at hs
      rcases hW : W with _ | ⟨x, xs⟩
      · rw [hW] at h1; simp at h1
      · rw [hW] at hs h1 h2
        refine ⟨0, 0, Nat.le_refl _, by simp, ?_, ?_⟩
        · rw [scanSegs, scanSegs, scan_seg hs, if_pos (tailMem x xs i p hi h1)]; rfl
        · rw [scanSegs, scanSegs, scan_seg hs, if_pos (tailMem x xs i' p' (by omega) h2)]; rfl
    · simp at hs
  | @more W L d d1 d2 d3 d4 ih =>
    intro hnd segs hs i i' p p' hi hii h1 h2 found found'
    rcases segs with _ | ⟨seg, segs⟩
    · simp at hs
    · simp only [List.map_cons, List.cons.injEq] at hs
      have hnd' : (W.drop d).Nodup := hnd.sublist (List.drop_sublist _ _)
      -- a waypoint up to the start of the next segment is found here
      have here : ∀ (i : Nat) (p : Int) (found : Option Seg), 0 < i → i ≤ d → W[i]? = some p →
          scanSegs p found (seg :: segs) = some seg := by
        intro i p found hi hid hip
        rcases hW : W.take n with _ | ⟨x, xs⟩
        · exfalso
          have := congrArg List.length hW
          rw [List.length_take, List.length_nil] at this
          omega
        · have hip' : (x :: xs)[i]? = some p := by
            rw [← hW, List.getElem?_take, if_pos (by omega)]; exact hip
          rw [scanSegs, scan_seg (hs.1.trans hW), if_pos (tailMem x xs i p hi hip')]
          by_cases hde : i = d
          · -- the first of the next segment
            have hid' : (W.drop d)[0]? = some p := by rw [List.getElem?_drop, Nat.add_zero, ← hde]; exact hip
            have hdrop : W.drop d = p :: (W.drop d).tail := by
              rcases hx : W.drop d with _ | ⟨y, ys⟩
              · rw [hx] at hid'; simp at hid'
              · rw [hx] at hid'; simp at hid'; rw [hid']; rfl
            rcases segs with _ | ⟨s2, segs⟩
            · rfl
            · exact scan_front d4 hnd' (s2 :: segs) hs.2 p _ hdrop seg
          · have hnp : p ∉ W.drop d := by
              intro e
              obtain ⟨k, hk⟩ := List.getElem?_of_mem e
              rw [List.getElem?_drop] at hk
              have := (List.getElem?_inj (List.getElem?_eq_some_iff.1 hip).1 hnd).1 (hip.trans hk.symm)
              omega
            exact scanSegs_not_mem d4 p hnp segs hs.2 _
      by_cases hid' : i' ≤ d
      · exact ⟨0, 0, Nat.le_refl _, by simp, here i p found hi (by omega) h1,
          here i' p' found' (by omega) hid' h2⟩
      · have h2' : (W.drop d)[i' - d]? = some p' := by
          rw [List.getElem?_drop, Nat.add_sub_cancel' (by omega)]; exact h2
        by_cases hid : i ≤ d
        · obtain ⟨j, j', -, hj', -, hs2⟩ := ih hnd' segs hs.2 (i' - d) (i' - d) p' p' (by omega)
            (Nat.le_refl _) h2' h2' (scanWps seg p' true found' seg.wps) (scanWps seg p' true found' seg.wps)
          refine ⟨0, j' + 1, by omega, by simpa using hj', here i p found hi hid h1, ?_⟩
          rw [scanSegs, hs2]; simp
        · have h1' : (W.drop d)[i - d]? = some p := by
            rw [List.getElem?_drop, Nat.add_sub_cancel' (by omega)]; exact h1
          obtain ⟨j, j', hjj, hj', hs1, hs2⟩ := ih hnd' segs hs.2 (i - d) (i' - d) p p' (by omega)
            (by omega) h1' h2' (scanWps seg p true found seg.wps) (scanWps seg p' true found' seg.wps)
          refine ⟨j + 1, j' + 1, by omega, by simpa using hj', ?_, ?_⟩
          · rw [scanSegs, hs1]; simp
          · rw [scanSegs, hs2]; simp
where
  scan_front {n m : Nat} {W : List Int} {L : List (List Int)} (h : Covers n m W L) (hnd : W.Nodup)
      (segs : List Seg) (hs : segs.map nums = L) (p : Int) (rest : List Int) (hW : W = p :: rest) (f : Seg) :
      scanSegs p (some f) segs = some f := by
    have hpr : p ∉ rest := by
      rw [hW] at hnd
      exact (List.nodup_cons.1 hnd).1
    cases h with
    | last hl =>
      rcases segs with _ | ⟨seg, _ | ⟨s2, segs⟩⟩
      · simp at hs
      · simp only [List.map_cons, List.map_nil, List.cons.injEq, and_true] at hs
        rw [scanSegs, scanSegs, scan_seg (hs.trans hW), if_neg hpr, if_neg (by simp)]
      · simp at hs
    | @more _ L' d h1 h2 h3 h4 =>
      rcases segs with _ | ⟨seg, segs⟩
      · simp at hs
      · simp only [List.map_cons, List.cons.injEq] at hs
        have htake : W.take n = p :: rest.take (n - 1) := by
          rw [hW]
          cases n with
          | zero => omega
          | succ n => simp
        have hnp : p ∉ W.drop d := by
          rw [hW]
          cases d with
          | zero => omega
          | succ d => simpa using fun e => hpr (List.mem_of_mem_drop e)
        rw [scanSegs, scan_seg (hs.1.trans htake), if_neg (fun e => hpr (List.mem_of_mem_take e)),
          if_neg (by simp), scanSegs_not_mem h4 p hnp segs hs.2]

end Verif.Waypoint
