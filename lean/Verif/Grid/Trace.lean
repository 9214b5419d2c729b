import Verif.Grid.Walk

/-!
# What a walk leaves in the cells

The pieces of a cell are the part of the edge in it; a side that is touched is marked; the parities of a row are the crossings of its upper line.
-/

namespace Verif.Grid

/-- Parity of the pieces with a property. -/
def parityP (f : Piece → Bool) (qs : List Piece) : Bool := qs.foldr (fun q s => xor (f q) s) false

theorem parityP_append (f : Piece → Bool) (l m : List Piece) : parityP f (l ++ m) = xor (parityP f l) (parityP f m) := by
  induction l with
  | nil => simp [parityP]
  | cons q l ih =>
      show xor (f q) (parityP f (l ++ m)) = xor (xor (f q) (parityP f l)) _
      rw [ih, Bool.xor_assoc]

theorem toggled_eq (f : Piece → Bool) : ∀ (qs : List Piece) (s : Bool), toggled f s qs = xor s (parityP f qs)
  | [], s => by simp [toggled, parityP]
  | q :: qs, s => by
      rw [toggled, toggled_eq f qs]
      show _ = xor s (xor (f q) (parityP f qs))
      rw [Bool.xor_assoc]

/-- On the boundary of a cell. -/
def Bd (b : Box) (i j : ℤ) (p : Pt) : Prop := p.x = b.gx i ∨ p.x = b.gx (i + 1) ∨ p.y = b.gy j ∨ p.y = b.gy (j + 1)

theorem piecesAt_append (l m : List Ev) (c : ℤ) : piecesAt (l ++ m) c = piecesAt l c ++ piecesAt m c := by
  simp [piecesAt, List.filterMap_append]

theorem piecesAt_hit (k : ℤ) (s : Side) (evs : List Ev) (c : ℤ) : piecesAt (Ev.hit k s :: evs) c = piecesAt evs c := rfl

theorem piecesAt_parity (k : ℤ) (evs : List Ev) (c : ℤ) : piecesAt (Ev.parity k :: evs) c = piecesAt evs c := rfl

theorem piecesAt_piece (k : ℤ) (p : Piece) (evs : List Ev) (c : ℤ) :
    piecesAt (Ev.piece k p :: evs) c = if k = c then p :: piecesAt evs c else piecesAt evs c := by
  unfold piecesAt
  rw [List.filterMap_cons]
  split_ifs with h <;> simp [h]

theorem Trace.start_lt {b : Box} {va vb : Pt} {i j : ℤ} {t : ℚ} {evs : List Ev} (h : Trace b va vb i j t evs) :
    0 ≤ t ∧ t < 1 ∧ (0 ≤ i ∧ i ≤ 4) ∧ (0 ≤ j ∧ j ≤ 4) ∧ InCell b i j (along va vb t) := by
  cases h with
  | last hi hj h0 h hs he => exact ⟨h0, h, hi, hj, hs⟩
  | right hi hj h0 h h1 hs => exact ⟨h0, by linarith, hi, hj, hs⟩
  | left hi hj h0 h h1 hs => exact ⟨h0, by linarith, hi, hj, hs⟩
  | up hi hj h0 h h1 hs => exact ⟨h0, by linarith, hi, hj, hs⟩

/-- Counting pieces of a cell is counting the edge, for every count that adds up along the edge and sees nothing in other cells. -/
theorem trace_pieces {b : Box} {va vb : Pt} {F : Piece → Bool} {M : Piece → Prop} {T : Pt → Pt → Bool} {i j : ℤ} (hi : 0 ≤ i ∧ i ≤ 4)
    (hadd : ∀ {s m s' : ℚ}, s < m → m < s' → T (along va vb s) (along va vb s') = xor (T (along va vb s) (along va vb m)) (T (along va vb m) (along va vb s')))
    (hin : ∀ {s s' : ℚ}, 0 ≤ s → s < s' → s' ≤ 1 → InCell b i j (along va vb s) → InCell b i j (along va vb s') → (s = 0 ∨ Bd b i j (along va vb s)) →
      (s' = 1 ∨ Bd b i j (along va vb s')) → M ⟨along va vb s, along va vb s', va, vb⟩ →
      F ⟨along va vb s, along va vb s', va, vb⟩ = T (along va vb s) (along va vb s'))
    (hout : ∀ {i' j' : ℤ} {s s' : ℚ}, ¬ (i' = i ∧ j' = j) → 0 ≤ s → s < s' → s' ≤ 1 → InCell b i' j' (along va vb s) → InCell b i' j' (along va vb s') →
      T (along va vb s) (along va vb s') = false)
    {i0 j0 : ℤ} {t : ℚ} {evs : List Ev} (h : Trace b va vb i0 j0 t evs) (hb : t = 0 ∨ Bd b i0 j0 (along va vb t))
    (hM : ∀ q ∈ piecesAt evs (j * 5 + i), M q) :
    parityP F (piecesAt evs (j * 5 + i)) = T (along va vb t) (along va vb 1) := by
  have one : ∀ {i0 j0 : ℤ} {t t' : ℚ}, (0 ≤ i0 ∧ i0 ≤ 4) → 0 ≤ t → t < t' → t' ≤ 1 → InCell b i0 j0 (along va vb t) → InCell b i0 j0 (along va vb t') →
      (t = 0 ∨ Bd b i0 j0 (along va vb t)) → (t' = 1 ∨ Bd b i0 j0 (along va vb t')) → ∀ qs,
      (∀ q ∈ (if j0 * 5 + i0 = j * 5 + i then (⟨along va vb t, along va vb t', va, vb⟩ : Piece) :: qs else qs), M q) →
      parityP F (if j0 * 5 + i0 = j * 5 + i then ⟨along va vb t, along va vb t', va, vb⟩ :: qs else qs) = xor (T (along va vb t) (along va vb t')) (parityP F qs) := by
    intro i0 j0 t t' hi0 h0 h1 h2 c1 c2 b1 b2 qs hq
    by_cases hc : i0 = i ∧ j0 = j
    · obtain ⟨rfl, rfl⟩ := hc
      rw [if_pos rfl, ← hin h0 h1 h2 c1 c2 b1 b2 (hq _ (by rw [if_pos rfl]; simp))]
      rfl
    · rw [if_neg (by intro h; apply hc; constructor <;> omega), hout hc h0 h1 h2 c1 c2]
      simp
  induction h with
  | last hi' hj' h0 h hs he =>
      rw [piecesAt_piece] at hM ⊢
      have := one hi' h0 h le_rfl hs (by rw [along_one]; exact he) hb (.inl rfl) [] (by rw [along_one]; exact hM)
      rw [along_one] at this ⊢
      rw [show piecesAt [] (j * 5 + i) = [] from rfl, this]
      simp [parityP]
  | @right i' j' t t' evs hi' hj' h0 h h1 hs hd hx ly hy rest ih =>
      rw [piecesAt_hit, piecesAt_piece, piecesAt_hit] at hM
      rw [piecesAt_hit, piecesAt_piece, piecesAt_hit, one hi' h0 h h1.le hs ⟨?_, hx.le, ly.le, hy.le⟩ hb (.inr (.inr (.inl hx))) _ hM, ih (.inr (.inl hx)) (fun q hq => hM q (by split_ifs <;> simp [hq])),
        ← hadd h h1]
      have := hs.lx
      have h2 : (along va vb t).x ≤ (along va vb t').x := by simp only [along]; nlinarith
      linarith
  | @left i' j' t t' evs hi' hj' h0 h h1 hs hd hx ly hy rest ih =>
      rw [piecesAt_hit, piecesAt_piece, piecesAt_hit] at hM
      rw [piecesAt_hit, piecesAt_piece, piecesAt_hit, one hi' h0 h h1.le hs ⟨hx.ge, ?_, ly.le, hy.le⟩ hb (.inr (.inl hx)) _ hM, ih (.inr (.inr (.inl (by rw [sub_add_cancel]; exact hx)))) (fun q hq => hM q (by split_ifs <;> simp [hq])),
        ← hadd h h1]
      have := hs.hx
      have h2 : (along va vb t').x ≤ (along va vb t).x := by simp only [along]; nlinarith
      linarith
  | @up i' j' t t' evs hi' hj' h0 h h1 hs hd hy lx hx rest ih =>
      rw [piecesAt_hit, piecesAt_parity, piecesAt_piece, piecesAt_hit] at hM
      rw [piecesAt_hit, piecesAt_parity, piecesAt_piece, piecesAt_hit, one hi' h0 h h1.le hs ⟨lx.le, hx.le, ?_, hy.le⟩ hb (.inr (.inr (.inr (.inr hy)))) _ hM,
        ih (.inr (.inr (.inr (.inl hy)))) (fun q hq => hM q (by split_ifs <;> simp [hq])), ← hadd h h1]
      have := hs.ly
      have h2 : (along va vb t).y ≤ (along va vb t').y := by simp only [along]; nlinarith
      linarith

theorem gx_between {b : Box} (h : 0 < b.dx) {k i : ℤ} (h1 : b.gx i < b.gx k) (h2 : b.gx k < b.gx (i + 1)) : False := by
  rw [gx_lt h] at h1 h2; omega

theorem gy_between {b : Box} (h : 0 < b.dy) {k i : ℤ} (h1 : b.gy i < b.gy k) (h2 : b.gy k < b.gy (i + 1)) : False := by
  rw [gy_lt h] at h1 h2; omega

theorem Trace.head {b : Box} {va vb : Pt} {i j : ℤ} {t : ℚ} {evs : List Ev} (h : Trace b va vb i j t evs) :
    ∃ q ∈ piecesAt evs (j * 5 + i), q.va = va ∧ q.vb = vb := by
  cases h <;> simp only [piecesAt_hit, piecesAt_parity, piecesAt_piece, if_true] <;> exact ⟨_, List.mem_cons_self, rfl, rfl⟩

theorem piecesAt_mono {e : Ev} {evs : List Ev} {c : ℤ} {q : Piece} (h : q ∈ piecesAt evs c) : q ∈ piecesAt (e :: evs) c := by
  rw [show e :: evs = [e] ++ evs from rfl, piecesAt_append]
  exact List.mem_append_right _ h

/-- An upright side that the edge touches is marked in the cells on both sides of it. -/
theorem trace_vert {b : Box} {va vb : Pt} (g : Good b va vb) {i0 j0 : ℤ} {t : ℚ} {evs : List Ev} (h : Trace b va vb i0 j0 t evs) :
    ∀ {k j : ℤ} {s : ℚ}, t < s → s ≤ 1 → (along va vb s).x = b.gx k → b.gy j ≤ (along va vb s).y → (along va vb s).y ≤ b.gy (j + 1) →
      Ev.hit (j * 5 + k) .l ∈ evs ∧ Ev.hit (j * 5 + (k - 1)) .r ∈ evs ∧ b.gy j < (along va vb s).y ∧ (along va vb s).y < b.gy (j + 1) ∧
        ∃ q ∈ piecesAt evs (j * 5 + k), q.va = va ∧ q.vb = vb := by
  have mono : va.x < vb.x → ∀ {s s' : ℚ}, s < s' → (along va vb s).x < (along va vb s').x := by
    intro hd s s' h; simp only [along]; nlinarith
  have anti : vb.x < va.x → ∀ {s s' : ℚ}, s < s' → (along va vb s').x < (along va vb s).x := by
    intro hd s s' h; simp only [along]; nlinarith
  have flat : va.x = vb.x → ∀ s, (along va vb s).x = va.x := by
    intro hd s; simp only [along]; rw [hd]; ring
  have hb1 : (along va vb 1).x = vb.x := by rw [along_one]
  induction h with
  | @last i' j' t hi' hj' h0 h hs he =>
      intro k j s hs1 hs2 hx _ _
      exfalso
      rcases lt_trichotomy va.x vb.x with hd | hd | hd
      · have h1 := mono hd hs1
        have h2 : (along va vb s).x ≤ vb.x := by
          rcases hs2.lt_or_eq with h | h
          · rw [← hb1]; exact (mono hd h).le
          · rw [h, hb1]
        have h3 := lt_of_le_of_ne he.hx (g.bx _)
        have := hs.lx
        exact gx_between g.dx (k := k) (i := i') (by linarith) (by linarith)
      · exact g.ax k (by rw [← flat hd s, hx])
      · have h1 := anti hd hs1
        have h2 : vb.x ≤ (along va vb s).x := by
          rcases hs2.lt_or_eq with h | h
          · rw [← hb1]; exact (anti hd h).le
          · rw [h, hb1]
        have h3 := lt_of_le_of_ne he.lx (Ne.symm (g.bx _))
        have := hs.hx
        exact gx_between g.dx (k := k) (i := i') (by linarith) (by linarith)
  | @right i' j' t t' evs hi' hj' h0 h h1 hs hd hx ly hy rest ih =>
      intro k j s hs1 hs2 hxs l1 l2
      rcases lt_trichotomy s t' with h2 | h2 | h2
      · exfalso
        have := mono hd hs1
        have := mono hd h2
        have := hs.lx
        exact gx_between g.dx (k := k) (i := i') (by linarith) (by linarith)
      · subst h2
        have hk : k = i' + 1 := by
          rw [hx] at hxs
          have a1 := (gx_le g.dx).1 hxs.le
          have a2 := (gx_le g.dx).1 hxs.ge
          omega
        have hj : j = j' := by
          have a1 := (gy_lt g.dy).1 (lt_of_le_of_lt l1 hy)
          have a2 := (gy_lt g.dy).1 (lt_of_lt_of_le ly l2)
          omega
        subst hk hj
        rw [add_sub_cancel_right]
        obtain ⟨q, q1, q2⟩ := rest.head
        exact ⟨by simp, by simp, ly, hy, q, piecesAt_mono (piecesAt_mono (piecesAt_mono q1)), q2⟩
      · obtain ⟨m1, m2, m3, m4, q, m5, m6⟩ := ih h2 hs2 hxs l1 l2
        exact ⟨by simp [m1], by simp [m2], m3, m4, q, by first | exact piecesAt_mono (piecesAt_mono (piecesAt_mono (piecesAt_mono m5))) | exact piecesAt_mono (piecesAt_mono (piecesAt_mono m5)), m6⟩
  | @left i' j' t t' evs hi' hj' h0 h h1 hs hd hx ly hy rest ih =>
      intro k j s hs1 hs2 hxs l1 l2
      rcases lt_trichotomy s t' with h2 | h2 | h2
      · exfalso
        have := anti hd hs1
        have := anti hd h2
        have := hs.hx
        exact gx_between g.dx (k := k) (i := i') (by linarith) (by linarith)
      · subst h2
        have hk : k = i' := by
          rw [hx] at hxs
          have a1 := (gx_le g.dx).1 hxs.le
          have a2 := (gx_le g.dx).1 hxs.ge
          omega
        have hj : j = j' := by
          have a1 := (gy_lt g.dy).1 (lt_of_le_of_lt l1 hy)
          have a2 := (gy_lt g.dy).1 (lt_of_lt_of_le ly l2)
          omega
        subst hk hj
        refine ⟨by simp, by simp, ly, hy, ?_⟩
        simp only [piecesAt_hit, piecesAt_piece, if_true]
        exact ⟨_, List.mem_cons_self, rfl, rfl⟩
      · obtain ⟨m1, m2, m3, m4, q, m5, m6⟩ := ih h2 hs2 hxs l1 l2
        exact ⟨by simp [m1], by simp [m2], m3, m4, q, by first | exact piecesAt_mono (piecesAt_mono (piecesAt_mono (piecesAt_mono m5))) | exact piecesAt_mono (piecesAt_mono (piecesAt_mono m5)), m6⟩
  | @up i' j' t t' evs hi' hj' h0 h h1 hs hd hy lx hx rest ih =>
      intro k j s hs1 hs2 hxs l1 l2
      rcases le_or_gt s t' with h2 | h2
      · exfalso
        rcases lt_trichotomy va.x vb.x with hu | hu | hu
        · have a1 := mono hu hs1
          have a2 : (along va vb s).x ≤ (along va vb t').x := by
            rcases h2.lt_or_eq with h | h
            · exact (mono hu h).le
            · rw [h]
          have := hs.lx
          exact gx_between g.dx (k := k) (i := i') (by linarith) (by linarith)
        · exact g.ax k (by rw [← flat hu s, hxs])
        · have a1 := anti hu hs1
          have a2 : (along va vb t').x ≤ (along va vb s).x := by
            rcases h2.lt_or_eq with h | h
            · exact (anti hu h).le
            · rw [h]
          have := hs.hx
          exact gx_between g.dx (k := k) (i := i') (by linarith) (by linarith)
      · obtain ⟨m1, m2, m3, m4, q, m5, m6⟩ := ih h2 hs2 hxs l1 l2
        exact ⟨by simp [m1], by simp [m2], m3, m4, q, by first | exact piecesAt_mono (piecesAt_mono (piecesAt_mono (piecesAt_mono m5))) | exact piecesAt_mono (piecesAt_mono (piecesAt_mono m5)), m6⟩

/-- A level side that the edge touches is marked in the cells on both sides of it. -/
theorem trace_horiz {b : Box} {va vb : Pt} (g : Good b va vb) {i0 j0 : ℤ} {t : ℚ} {evs : List Ev} (h : Trace b va vb i0 j0 t evs) :
    ∀ {k i : ℤ} {s : ℚ}, t < s → s ≤ 1 → (along va vb s).y = b.gy k → b.gx i ≤ (along va vb s).x → (along va vb s).x ≤ b.gx (i + 1) →
      Ev.hit (k * 5 + i) .b ∈ evs ∧ Ev.hit ((k - 1) * 5 + i) .t ∈ evs ∧ ∃ q ∈ piecesAt evs (k * 5 + i), q.va = va ∧ q.vb = vb := by
  have mono : va.y < vb.y → ∀ {s s' : ℚ}, s < s' → (along va vb s).y < (along va vb s').y := by
    intro hd s s' h; simp only [along]; nlinarith
  have flat : va.y = vb.y → ∀ s, (along va vb s).y = va.y := by
    intro hd s; simp only [along]; rw [hd]; ring
  have hb1 : (along va vb 1).y = vb.y := by rw [along_one]
  induction h with
  | @last i' j' t hi' hj' h0 h hs he =>
      intro k j s hs1 hs2 hx _ _
      exfalso
      rcases g.up.lt_or_eq with hd | hd
      · have h1 := mono hd hs1
        have h2 : (along va vb s).y ≤ vb.y := by
          rcases hs2.lt_or_eq with h | h
          · rw [← hb1]; exact (mono hd h).le
          · rw [h, hb1]
        have h3 := lt_of_le_of_ne he.hy (g.by' _)
        have := hs.ly
        exact gy_between g.dy (k := k) (i := j') (by linarith) (by linarith)
      · exact g.ay k (by rw [← flat hd s, hx])
  | @right i' j' t t' evs hi' hj' h0 h h1 hs hd hx ly hy rest ih =>
      intro k j s hs1 hs2 hxs l1 l2
      rcases le_or_gt s t' with h2 | h2
      · exfalso
        rcases g.up.lt_or_eq with hu | hu
        · have a1 := mono hu hs1
          have a2 : (along va vb s).y ≤ (along va vb t').y := by
            rcases h2.lt_or_eq with h | h
            · exact (mono hu h).le
            · rw [h]
          have := hs.ly
          exact gy_between g.dy (k := k) (i := j') (by linarith) (by linarith)
        · exact g.ay k (by rw [← flat hu s, hxs])
      · obtain ⟨m1, m2, q, m5, m6⟩ := ih h2 hs2 hxs l1 l2
        exact ⟨by simp [m1], by simp [m2], q, by first | exact piecesAt_mono (piecesAt_mono (piecesAt_mono (piecesAt_mono m5))) | exact piecesAt_mono (piecesAt_mono (piecesAt_mono m5)), m6⟩
  | @left i' j' t t' evs hi' hj' h0 h h1 hs hd hx ly hy rest ih =>
      intro k j s hs1 hs2 hxs l1 l2
      rcases le_or_gt s t' with h2 | h2
      · exfalso
        rcases g.up.lt_or_eq with hu | hu
        · have a1 := mono hu hs1
          have a2 : (along va vb s).y ≤ (along va vb t').y := by
            rcases h2.lt_or_eq with h | h
            · exact (mono hu h).le
            · rw [h]
          have := hs.ly
          exact gy_between g.dy (k := k) (i := j') (by linarith) (by linarith)
        · exact g.ay k (by rw [← flat hu s, hxs])
      · obtain ⟨m1, m2, q, m5, m6⟩ := ih h2 hs2 hxs l1 l2
        exact ⟨by simp [m1], by simp [m2], q, by first | exact piecesAt_mono (piecesAt_mono (piecesAt_mono (piecesAt_mono m5))) | exact piecesAt_mono (piecesAt_mono (piecesAt_mono m5)), m6⟩
  | @up i' j' t t' evs hi' hj' h0 h h1 hs hd hy lx hx rest ih =>
      intro k j s hs1 hs2 hxs l1 l2
      rcases lt_trichotomy s t' with h2 | h2 | h2
      · exfalso
        have := mono hd hs1
        have := mono hd h2
        have := hs.ly
        exact gy_between g.dy (k := k) (i := j') (by linarith) (by linarith)
      · subst h2
        have hk : k = j' + 1 := by
          rw [hy] at hxs
          have a1 := (gy_le g.dy).1 hxs.le
          have a2 := (gy_le g.dy).1 hxs.ge
          omega
        have hj : j = i' := by
          have a1 := (gx_lt g.dx).1 (lt_of_le_of_lt l1 hx)
          have a2 := (gx_lt g.dx).1 (lt_of_lt_of_le lx l2)
          omega
        subst hk hj
        rw [add_sub_cancel_right]
        obtain ⟨q, q1, q2⟩ := rest.head
        exact ⟨by simp, by simp, q, piecesAt_mono (piecesAt_mono (piecesAt_mono (piecesAt_mono q1))), q2⟩
      · obtain ⟨m1, m2, q, m5, m6⟩ := ih h2 hs2 hxs l1 l2
        exact ⟨by simp [m1], by simp [m2], q, by first | exact piecesAt_mono (piecesAt_mono (piecesAt_mono (piecesAt_mono m5))) | exact piecesAt_mono (piecesAt_mono (piecesAt_mono m5)), m6⟩

/-- A convex combination of two numbers. -/
theorem between {a c l u t s t' : ℚ} (ht : t ≤ s) (hs : s ≤ t') (h1 : l ≤ a + t * c) (h2 : l ≤ a + t' * c) (h3 : a + t * c ≤ u) (h4 : a + t' * c ≤ u) :
    l ≤ a + s * c ∧ a + s * c ≤ u := by
  rcases le_total 0 c with hc | hc
  · constructor <;> nlinarith
  · constructor <;> nlinarith

theorem InCell.between {b : Box} {i j : ℤ} {va vb : Pt} {t s t' : ℚ} (ht : t ≤ s) (hs : s ≤ t') (h : InCell b i j (along va vb t)) (h' : InCell b i j (along va vb t')) :
    InCell b i j (along va vb s) := by
  obtain ⟨a1, a2⟩ := Grid.between ht hs h.lx h'.lx h.hx h'.hx
  obtain ⟨a3, a4⟩ := Grid.between ht hs h.ly h'.ly h.hy h'.hy
  exact ⟨a1, a2, a3, a4⟩

/-- A cell the edge goes through has a piece of it. -/
theorem trace_inner {b : Box} {va vb : Pt} (g : Good b va vb) {i0 j0 : ℤ} {t : ℚ} {evs : List Ev} (h : Trace b va vb i0 j0 t evs) :
    ∀ {i j : ℤ} {s : ℚ}, t ≤ s → s ≤ 1 → b.gx i < (along va vb s).x → (along va vb s).x < b.gx (i + 1) → b.gy j < (along va vb s).y → (along va vb s).y < b.gy (j + 1) →
      ∃ q ∈ piecesAt evs (j * 5 + i), q.va = va ∧ q.vb = vb := by
  have same : ∀ {i j i' j' : ℤ} {p : Pt}, InCell b i' j' p → b.gx i < p.x → p.x < b.gx (i + 1) → b.gy j < p.y → p.y < b.gy (j + 1) → i = i' ∧ j = j' := by
    intro i j i' j' p hc h1 h2 h3 h4
    have a1 := (gx_lt g.dx).1 (lt_of_le_of_lt hc.lx h2)
    have a2 := (gx_lt g.dx).1 (lt_of_lt_of_le h1 hc.hx)
    have a3 := (gy_lt g.dy).1 (lt_of_le_of_lt hc.ly h4)
    have a4 := (gy_lt g.dy).1 (lt_of_lt_of_le h3 hc.hy)
    constructor <;> omega
  induction h with
  | @last i' j' t hi' hj' h0 h hs he =>
      intro i j s hs1 hs2 l1 l2 l3 l4
      obtain ⟨rfl, rfl⟩ := same (hs.between hs1 hs2 (by rw [along_one]; exact he)) l1 l2 l3 l4
      simp only [piecesAt_piece, if_true]
      exact ⟨_, List.mem_cons_self, rfl, rfl⟩
  | @right i' j' t t' evs hi' hj' h0 h h1 hs hd hx ly hy rest ih =>
      intro i j s hs1 hs2 l1 l2 l3 l4
      rcases le_or_gt s t' with h2 | h2
      · have hc : InCell b i' j' (along va vb t') := ⟨by rw [hx, gx_le g.dx]; omega, hx.le, ly.le, hy.le⟩
        obtain ⟨rfl, rfl⟩ := same (hs.between hs1 h2 hc) l1 l2 l3 l4
        simp only [piecesAt_hit, piecesAt_piece, if_true]
        exact ⟨_, List.mem_cons_self, rfl, rfl⟩
      · obtain ⟨q, q1, q2⟩ := ih h2.le hs2 l1 l2 l3 l4
        exact ⟨q, piecesAt_mono (piecesAt_mono (piecesAt_mono q1)), q2⟩
  | @left i' j' t t' evs hi' hj' h0 h h1 hs hd hx ly hy rest ih =>
      intro i j s hs1 hs2 l1 l2 l3 l4
      rcases le_or_gt s t' with h2 | h2
      · have hc : InCell b i' j' (along va vb t') := ⟨hx.ge, by rw [hx, gx_le g.dx]; omega, ly.le, hy.le⟩
        obtain ⟨rfl, rfl⟩ := same (hs.between hs1 h2 hc) l1 l2 l3 l4
        simp only [piecesAt_hit, piecesAt_piece, if_true]
        exact ⟨_, List.mem_cons_self, rfl, rfl⟩
      · obtain ⟨q, q1, q2⟩ := ih h2.le hs2 l1 l2 l3 l4
        exact ⟨q, piecesAt_mono (piecesAt_mono (piecesAt_mono q1)), q2⟩
  | @up i' j' t t' evs hi' hj' h0 h h1 hs hd hy lx hx rest ih =>
      intro i j s hs1 hs2 l1 l2 l3 l4
      rcases le_or_gt s t' with h2 | h2
      · have hc : InCell b i' j' (along va vb t') := ⟨lx.le, hx.le, by rw [hy, gy_le g.dy]; omega, hy.le⟩
        obtain ⟨rfl, rfl⟩ := same (hs.between hs1 h2 hc) l1 l2 l3 l4
        simp only [piecesAt_hit, piecesAt_parity, piecesAt_piece, if_true]
        exact ⟨_, List.mem_cons_self, rfl, rfl⟩
      · obtain ⟨q, q1, q2⟩ := ih h2.le hs2 l1 l2 l3 l4
        exact ⟨q, piecesAt_mono (piecesAt_mono (piecesAt_mono (piecesAt_mono q1))), q2⟩

theorem parityAt_cons (e : Ev) (evs : List Ev) (c : ℤ) : parityAt (e :: evs) c = xor (decide (e = Ev.parity c)) (parityAt evs c) := rfl

theorem parityAt_append (l m : List Ev) (c : ℤ) : parityAt (l ++ m) c = xor (parityAt l c) (parityAt m c) := by
  induction l with
  | nil => simp [parityAt]
  | cons e l ih => rw [List.cons_append, parityAt_cons, ih, parityAt_cons, Bool.xor_assoc]

theorem ioState_append (l m : List Ev) (r : ℤ) (k : ℕ) : ioState (l ++ m) r k = xor (ioState l r k) (ioState m r k) := by
  induction k with
  | zero => rfl
  | succ k ih =>
      rw [ioState, ioState, ioState, ih, parityAt_append]
      cases ioState l r k <;> cases ioState m r k <;> cases parityAt l (r * 5 + k) <;> cases parityAt m (r * 5 + k) <;> rfl

theorem ioState_single {e : Ev} (h : ∀ c, e ≠ Ev.parity c) (r : ℤ) (k : ℕ) : ioState [e] r k = false := by
  induction k with
  | zero => rfl
  | succ k ih => rw [ioState, ih, parityAt_cons]; simp [h, parityAt]

theorem ioState_cons {e : Ev} (h : ∀ c, e ≠ Ev.parity c) (evs : List Ev) (r : ℤ) (k : ℕ) : ioState (e :: evs) r k = ioState evs r k := by
  rw [show e :: evs = [e] ++ evs from rfl, ioState_append, ioState_single h, Bool.false_xor]

theorem ioState_parity (c : ℤ) (evs : List Ev) (r : ℤ) (k : ℕ) :
    ioState (Ev.parity c :: evs) r k = xor (decide (r * 5 ≤ c ∧ c < r * 5 + k)) (ioState evs r k) := by
  rw [show Ev.parity c :: evs = [Ev.parity c] ++ evs from rfl, ioState_append]
  congr 1
  induction k with
  | zero => simp only [ioState]; symm; simp only [decide_eq_false_iff_not]; push_cast; omega
  | succ k ih =>
      rw [ioState, ih, parityAt_cons]
      simp only [parityAt, List.foldr_nil, Bool.xor_false, Ev.parity.injEq]
      by_cases h1 : c = r * 5 + k
      · rw [decide_eq_true h1, decide_eq_false (by omega), decide_eq_true (by push_cast; omega)]; rfl
      · rw [decide_eq_false h1, Bool.xor_false]
        congr 1
        apply propext
        push_cast
        omega

/-- The parities of the first cells of a row are the crossings of its upper line left of them. -/
theorem trace_parity {b : Box} {va vb : Pt} (g : Good b va vb) {i0 j0 : ℤ} {t : ℚ} {evs : List Ev} (h : Trace b va vb i0 j0 t evs) (r : ℤ) (m : ℕ) (hm : m ≤ 5) :
    ioState evs r m = ((decide (b.gy (r + 1) ≤ (along va vb t).y) != decide (b.gy (r + 1) ≤ vb.y)) && decide (area va vb ⟨b.gx m, b.gy (r + 1)⟩ < 0)) := by
  have same : ∀ {y y' : ℚ} {j : ℤ}, b.gy j ≤ y → y < b.gy (j + 1) → b.gy j ≤ y' → y' < b.gy (j + 1) →
      decide (b.gy (r + 1) ≤ y) = decide (b.gy (r + 1) ≤ y') := by
    intro y y' j h1 h2 h3 h4
    congr 1
    apply propext
    have e : ∀ z, b.gy j ≤ z → z < b.gy (j + 1) → (b.gy (r + 1) ≤ z ↔ r + 1 ≤ j) := by
      intro z z1 z2
      constructor
      · intro h; have := (gy_lt g.dy).1 (lt_of_le_of_lt h z2); omega
      · intro h; exact le_trans ((gy_le g.dy).2 h) z1
    rw [e y h1 h2, e y' h3 h4]
  have mono : ∀ {s s' : ℚ}, s < s' → (along va vb s).y ≤ (along va vb s').y := by
    intro s s' h; have := g.up; simp only [along]; nlinarith
  induction h with
  | @last i' j' t hi' hj' h0 h hs he =>
      rw [ioState_cons (by intro c; simp)]
      have h1 : ∀ k, ioState [] r k = false := by
        intro k; induction k with
        | zero => rfl
        | succ k ih => rw [ioState, ih]; rfl
      have h3 := lt_of_le_of_ne he.hy (g.by' _)
      have h4 := mono h
      rw [along_one] at h4
      rw [h1, same hs.ly (lt_of_le_of_lt h4 h3) he.ly h3]
      simp
  | @right i' j' t t' evs hi' hj' h0 h h1 hs hd hx ly hy rest ih =>
      rw [ioState_cons (by intro c; simp), ioState_cons (by intro c; simp), ioState_cons (by intro c; simp), ih,
        same hs.ly (lt_of_le_of_lt (mono h) hy) ly.le hy]
  | @left i' j' t t' evs hi' hj' h0 h h1 hs hd hx ly hy rest ih =>
      rw [ioState_cons (by intro c; simp), ioState_cons (by intro c; simp), ioState_cons (by intro c; simp), ih,
        same hs.ly (lt_of_le_of_lt (mono h) hy) ly.le hy]
  | @up i' j' t t' evs hi' hj' h0 h h1 hs hd hy lx hx rest ih =>
      rw [ioState_cons (by intro c; simp), ioState_parity, ioState_cons (by intro c; simp), ioState_cons (by intro c; simp), ih]
      have hlt : (along va vb t).y < (along va vb t').y := by simp only [along]; nlinarith
      have hv : (along va vb t').y ≤ vb.y := by have := mono h1; rwa [along_one] at this
      by_cases hr : r = j'
      · subst hr
        rw [decide_eq_false (p := b.gy (r + 1) ≤ (along va vb t).y) (by rw [← hy]; exact not_le.2 hlt),
          decide_eq_true (p := b.gy (r + 1) ≤ (along va vb t').y) hy.ge, decide_eq_true (p := b.gy (r + 1) ≤ vb.y) (by rw [← hy]; exact hv)]
        have ha : area va vb ⟨b.gx m, b.gy (r + 1)⟩ = (vb.y - va.y) * ((along va vb t').x - b.gx m) := by
          rw [← hy]; simp only [area, along]; ring
        have : decide (r * 5 ≤ r * 5 + i' ∧ r * 5 + i' < r * 5 + m) = decide (area va vb ⟨b.gx m, b.gy (r + 1)⟩ < 0) := by
          congr 1
          apply propext
          rw [ha]
          constructor
          · rintro ⟨_, h5⟩
            have h6 : i' + 1 ≤ (m : ℤ) := by omega
            have := (gx_le g.dx).2 h6
            nlinarith
          · intro h5
            refine ⟨by omega, ?_⟩
            by_contra h6
            have h7 : (m : ℤ) ≤ i' := by omega
            have := (gx_le g.dx).2 h7
            nlinarith
        rw [this]
        cases decide (area va vb ⟨b.gx m, b.gy (r + 1)⟩ < 0) <;> simp
      · have h5 : decide (r * 5 ≤ j' * 5 + i' ∧ j' * 5 + i' < r * 5 + m) = false := by
          rw [decide_eq_false_iff_not]; omega
        have h6 : decide (b.gy (r + 1) ≤ (along va vb t).y) = decide (b.gy (r + 1) ≤ (along va vb t').y) := by
          congr 1
          apply propext
          rw [hy]
          constructor
          · intro h; linarith
          · intro h
            have := (gy_le g.dy).1 h
            have h7 : r + 1 ≤ j' := by omega
            exact le_trans ((gy_le g.dy).2 h7) hs.ly
        rw [h5, h6, Bool.false_xor]

end Verif.Grid
