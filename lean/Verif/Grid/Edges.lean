import Verif.Grid.Trace

/-!
# The grid after all edges
-/

namespace Verif.Grid

/-- A corner of the polygon in general position: within the box and on no line of the grid. -/
structure GoodPt (b : Box) (v : Pt) : Prop where
  x : ∀ k, v.x ≠ b.gx k
  y : ∀ k, v.y ≠ b.gy k
  lx : b.gx 0 < v.x
  hx : v.x < b.gx 5
  ly : b.gy 0 < v.y
  hy : v.y < b.gy 5

theorem GoodPt.edge {b : Box} {va vb : Pt} (ha : GoodPt b va) (hb : GoodPt b vb) (h1 : 0 < b.dx) (h2 : 0 < b.dy) (hy : va.y ≤ vb.y) (hne : va ≠ vb) :
    Good b va vb where
  dx := h1
  dy := h2
  up := hy
  ne := by
    by_contra h
    apply hne
    cases va; cases vb
    simp only [not_or, not_not] at h
    rw [Pt.mk.injEq]; exact h
  ax := ha.x
  bx := hb.x
  ay := ha.y
  by' := hb.y
  lax := ha.lx
  hax := ha.hx
  lbx := hb.lx
  hbx := hb.hx
  lay := ha.ly
  hay := ha.hy
  lby := hb.ly
  hby := hb.hy

theorem cellIndex_ok {v lo d : ℚ} (hd : 0 < d) (h0 : lo ≤ v) : cellIndex v lo d = .ok ⌊(v - lo) / d⌋ := by
  unfold cellIndex
  rw [if_neg hd.ne', if_pos (div_nonneg (by linarith) hd.le)]

/-- The cell of a number. -/
theorem floor_cell {v lo d : ℚ} (hd : 0 < d) : lo + (⌊(v - lo) / d⌋ : ℚ) * d ≤ v ∧ v < lo + ((⌊(v - lo) / d⌋ : ℚ) + 1) * d := by
  have h1 := Int.floor_le ((v - lo) / d)
  have h2 := Int.lt_floor_add_one ((v - lo) / d)
  rw [le_div_iff₀ hd] at h1
  rw [div_lt_iff₀ hd] at h2
  constructor <;> linarith

theorem start_inv {b : Box} {va vb : Pt} (g : Good b va vb) :
    Inv b va vb (start b va vb ⌊(va.x - b.lo.x) / b.dx⌋ ⌊(va.y - b.lo.y) / b.dy⌋) := by
  obtain ⟨x1, x2⟩ := floor_cell (v := va.x) (lo := b.lo.x) g.dx
  obtain ⟨y1, y2⟩ := floor_cell (v := va.y) (lo := b.lo.y) g.dy
  generalize hI : ⌊(va.x - b.lo.x) / b.dx⌋ = I at x1 x2 ⊢
  generalize hJ : ⌊(va.y - b.lo.y) / b.dy⌋ = J at y1 y2 ⊢
  have x1' : b.gx I ≤ va.x := by rw [gx_eq]; exact x1
  have x2' : va.x < b.gx (I + 1) := by rw [gx_eq]; push_cast; exact x2
  have y1' : b.gy J ≤ va.y := by rw [gy_eq]; exact y1
  have y2' : va.y < b.gy (J + 1) := by rw [gy_eq]; push_cast; exact y2
  have a1 := (gx_lt g.dx).1 (lt_of_lt_of_le' x2' g.lax.le)
  have a2 := (gx_lt g.dx).1 (lt_of_le_of_lt x1' g.hax)
  have a3 := (gy_lt g.dy).1 (lt_of_lt_of_le' y2' g.lay.le)
  have a4 := (gy_lt g.dy).1 (lt_of_le_of_lt y1' g.hay)
  exact
    { t0 := le_rfl
      t1 := zero_lt_one
      hi := ⟨by simp only [start]; omega, by simp only [start]; omega⟩
      hj := ⟨by simp only [start]; omega, by simp only [start]; omega⟩
      at' := by simp only [start]; rw [along_zero]
      cell := by
        simp only [start, along_zero]
        exact ⟨x1', x2'.le, y1', y2'.le⟩
      txn := fun e => by simp only [start, if_pos e]
      txr := fun hd => by
        have : vb.x - va.x ≠ 0 := by intro h; linarith
        refine ⟨_, by simp only [start, if_neg hd.ne, if_pos hd]; rfl, ?_, ?_⟩
        · have h1 : 0 < vb.x - va.x := by linarith
          have h2 : 0 ≤ b.dx * I + b.lo.x - va.x + b.dx := by rw [gx_eq] at x2'; push_cast at x2'; linarith
          positivity
        · simp only [start, along_zero]
          rw [gx_eq]; push_cast; field_simp; ring
      txl := fun hd => by
        have : vb.x - va.x ≠ 0 := by intro h; linarith
        refine ⟨_, by simp only [start, if_neg hd.ne', if_neg (not_lt.2 hd.le)]; rfl, ?_, ?_⟩
        · have h1 : 0 < va.x - vb.x := by linarith
          have h2 : 0 ≤ va.x - (b.dx * I + b.lo.x) := by rw [gx_eq] at x1'; linarith
          rw [show (b.dx * I + b.lo.x - va.x + 0) * (1 / (vb.x - va.x)) = (va.x - (b.dx * I + b.lo.x)) * (1 / (va.x - vb.x)) by
            rw [← neg_sub va.x vb.x, one_div_neg_eq_neg_one_div]; ring]
          positivity
        · simp only [start, along_zero]
          rw [gx_eq]; field_simp; ring
      tyn := fun e => by simp only [start, if_pos e]
      tyu := fun hd => by
        have : vb.y - va.y ≠ 0 := by intro h; linarith
        refine ⟨_, by simp only [start, if_neg hd.ne]; rfl, ?_, ?_⟩
        · have h1 : 0 < vb.y - va.y := by linarith
          have h2 : 0 ≤ b.dy * (J + 1) + b.lo.y - va.y := by rw [gy_eq] at y2'; push_cast at y2'; linarith
          positivity
        · simp only [start, along_zero]
          rw [gy_eq]; push_cast; field_simp; ring }

/-- What an edge leaves in the grid. -/
theorem edge_trace {b : Box} {u v : Pt} (hu : GoodPt b u) (hv : GoodPt b v) (h1 : 0 < b.dx) (h2 : 0 < b.dy) {evs : List Ev}
    (h : edgeEvents b (u, v) = .ok evs) :
    (u = v ∧ evs = []) ∨ ∃ va vb i j, ((va = u ∧ vb = v) ∨ (va = v ∧ vb = u)) ∧ Good b va vb ∧ Trace b va vb i j 0 evs := by
  unfold edgeEvents at h
  simp only at h
  have key : ∀ va vb, GoodPt b va → GoodPt b vb → va.y ≤ vb.y → (va ≠ vb) →
      (cellIndex va.x b.lo.x b.dx).bind (fun i => (cellIndex va.y b.lo.y b.dy).bind fun j => (cellOf i j).bind fun cur => walk b va vb 25 cur (start b va vb i j)) = .ok evs →
      ∃ i j, Good b va vb ∧ Trace b va vb i j 0 evs := by
    intro va vb ha hb hy hne h
    have g := ha.edge hb h1 h2 hy hne
    have e0 : b.gx 0 = b.lo.x := by rw [gx_eq]; simp
    have e1 : b.gy 0 = b.lo.y := by rw [gy_eq]; simp
    rw [cellIndex_ok h1 (by rw [← e0]; exact ha.lx.le)] at h
    obtain ⟨i, hi, h⟩ := bind_ok h
    cases hi
    rw [cellIndex_ok h2 (by rw [← e1]; exact ha.ly.le)] at h
    obtain ⟨j, hj, h⟩ := bind_ok h
    cases hj
    obtain ⟨c, hc, h⟩ := bind_ok h
    rw [cellOf_ok hc] at h
    exact ⟨_, _, g, walk_trace g (start_inv g) h⟩
  by_cases hlt : u.y < v.y
  · simp only [ordered, if_pos hlt] at h
    have hne : u ≠ v := by rintro rfl; exact lt_irrefl _ hlt
    rw [if_neg hne] at h
    obtain ⟨i, j, g, t⟩ := key u v hu hv hlt.le hne h
    exact .inr ⟨u, v, i, j, .inl ⟨rfl, rfl⟩, g, t⟩
  · simp only [ordered, if_neg hlt] at h
    by_cases hne : v = u
    · rw [if_pos hne] at h
      exact .inl ⟨hne.symm, (Res.ok.inj h).symm⟩
    · rw [if_neg hne] at h
      obtain ⟨i, j, g, t⟩ := key v u hv hu (not_lt.1 hlt) hne h
      exact .inr ⟨v, u, i, j, .inr ⟨rfl, rfl⟩, g, t⟩

theorem allEvents_cons {b : Box} {e : Pt × Pt} {es : List (Pt × Pt)} {evs : List Ev} (h : allEvents b (e :: es) = .ok evs) :
    ∃ l m, edgeEvents b e = .ok l ∧ allEvents b es = .ok m ∧ evs = l ++ m := by
  rw [allEvents] at h
  obtain ⟨l, hl, h⟩ := bind_ok h
  obtain ⟨m, hm, h⟩ := bind_ok h
  exact ⟨l, m, hl, hm, (Res.ok.inj h).symm⟩

/-- The situation of the theorems: a grid that has been made for edges in general position. -/
structure Made (b : Box) (es : List (Pt × Pt)) (evs : List Ev) : Prop where
  dx : 0 < b.dx
  dy : 0 < b.dy
  good : ∀ e ∈ es, GoodPt b e.1 ∧ GoodPt b e.2
  made : allEvents b es = .ok evs

/-- Counting the pieces of a cell is counting edges. -/
theorem made_pieces {b : Box} {es : List (Pt × Pt)} {evs : List Ev} (m : Made b es evs) {F : Piece → Bool} {M : Piece → Prop} {T : Pt → Pt → Bool} {i j : ℤ}
    (hi : 0 ≤ i ∧ i ≤ 4) (hcomm : ∀ p q, T p q = T q p) (hself : ∀ p, T p p = false)
    (hadd : ∀ {va vb : Pt} {s m s' : ℚ}, s < m → m < s' →
      T (along va vb s) (along va vb s') = xor (T (along va vb s) (along va vb m)) (T (along va vb m) (along va vb s')))
    (hin : ∀ {va vb : Pt} {s s' : ℚ}, Good b va vb → ((va, vb) ∈ es ∨ (vb, va) ∈ es) → 0 ≤ s → s < s' → s' ≤ 1 → InCell b i j (along va vb s) → InCell b i j (along va vb s') →
      (s = 0 ∨ Bd b i j (along va vb s)) → (s' = 1 ∨ Bd b i j (along va vb s')) → M ⟨along va vb s, along va vb s', va, vb⟩ →
      F ⟨along va vb s, along va vb s', va, vb⟩ = T (along va vb s) (along va vb s'))
    (hout : ∀ {va vb : Pt} {i' j' : ℤ} {s s' : ℚ}, Good b va vb → ((va, vb) ∈ es ∨ (vb, va) ∈ es) → ¬ (i' = i ∧ j' = j) → 0 ≤ s → s < s' → s' ≤ 1 →
      InCell b i' j' (along va vb s) → InCell b i' j' (along va vb s') → T (along va vb s) (along va vb s') = false)
    (hM : ∀ q ∈ piecesAt evs (j * 5 + i), M q) :
    parityP F (piecesAt evs (j * 5 + i)) = parity T es := by
  obtain ⟨hdx, hdy, hg, hm⟩ := m
  induction es generalizing evs with
  | nil => rw [allEvents] at hm; cases hm; rfl
  | cons e es ih =>
      obtain ⟨l, m, hl, hm', rfl⟩ := allEvents_cons hm
      rw [piecesAt_append] at hM
      have ih' := ih (fun g h => hin g (h.imp (fun h => List.mem_cons_of_mem _ h) (fun h => List.mem_cons_of_mem _ h)))
        (fun g h => hout g (h.imp (fun h => List.mem_cons_of_mem _ h) (fun h => List.mem_cons_of_mem _ h))) (fun q hq => hM q (List.mem_append_right _ hq))
        (fun e he => hg e (List.mem_cons_of_mem _ he)) hm'
      rw [piecesAt_append, parityP_append, parity_cons, ih']
      congr 1
      obtain ⟨hu, hv⟩ := hg e (by simp)
      rcases edge_trace hu hv hdx hdy hl with ⟨h1, rfl⟩ | ⟨va, vb, i0, j0, hor, g, t⟩
      · rw [h1, hself]; rfl
      · have hmem : (va, vb) ∈ e :: es ∨ (vb, va) ∈ e :: es := by
          rcases hor with ⟨rfl, rfl⟩ | ⟨rfl, rfl⟩
          · left; simp
          · right; simp
        have key := trace_pieces (F := F) (M := M) (T := T) hi (fun h h' => hadd h h') (fun h0 h1 h2 c1 c2 b1 b2 hM => hin g hmem h0 h1 h2 c1 c2 b1 b2 hM)
          (fun hne h0 h1 h2 c1 c2 => hout g hmem hne h0 h1 h2 c1 c2) t (.inl rfl) (fun q hq => hM q (List.mem_append_left _ hq))
        rw [key, along_zero, along_one]
        rcases hor with ⟨rfl, rfl⟩ | ⟨rfl, rfl⟩
        · rfl
        · rw [hcomm]

/-- The edge through a point of an upright side: the side is marked. -/
theorem made_vert {b : Box} {es : List (Pt × Pt)} {evs : List Ev} (m : Made b es evs) {k j : ℤ} {p : Pt} (hx : p.x = b.gx k) (ly : b.gy j ≤ p.y)
    (hy : p.y ≤ b.gy (j + 1)) {e : Pt × Pt} (he : e ∈ es) (hp : OnEdge p e.1 e.2) :
    Ev.hit (j * 5 + k) .l ∈ evs ∧ Ev.hit (j * 5 + (k - 1)) .r ∈ evs ∧ b.gy j < p.y ∧ p.y < b.gy (j + 1) ∧
      ∃ q ∈ piecesAt evs (j * 5 + k), OnEdge p q.va q.vb := by
  obtain ⟨hdx, hdy, hg, hm⟩ := m
  induction es generalizing evs with
  | nil => cases he
  | cons f es ih =>
      obtain ⟨l, m, hl, hm', rfl⟩ := allEvents_cons hm
      rcases List.mem_cons.1 he with rfl | he
      · obtain ⟨hu, hv⟩ := hg e (by simp)
        rcases edge_trace hu hv hdx hdy hl with ⟨h1, rfl⟩ | ⟨va, vb, i0, j0, hor, g, t⟩
        · exfalso
          obtain ⟨s, _, _, h4, _⟩ := hp
          rw [h1, sub_self, mul_zero, add_zero] at h4
          exact hv.x k (by rw [← h4, hx])
        · have hp' : OnEdge p va vb := by
            rcases hor with ⟨rfl, rfl⟩ | ⟨rfl, rfl⟩
            · exact hp
            · exact hp.comm
          obtain ⟨s, s0, s1, rfl⟩ := (onEdge_iff _ _ _).1 hp'
          have h0 : 0 < s := by
            rcases s0.lt_or_eq with h | h
            · exact h
            · exfalso; rw [← h, along_zero] at hx; exact g.ax k hx
          obtain ⟨m1, m2, m3, m4, q, m5, m6, m7⟩ := trace_vert g t h0 s1 hx ly hy
          exact ⟨List.mem_append_left _ m1, List.mem_append_left _ m2, m3, m4, q, by rw [piecesAt_append]; exact List.mem_append_left _ m5, by rw [m6, m7]; exact hp'⟩
      · obtain ⟨m1, m2, m3, m4, q, m5, m6⟩ := ih he (fun e he => hg e (List.mem_cons_of_mem _ he)) hm'
        exact ⟨List.mem_append_right _ m1, List.mem_append_right _ m2, m3, m4, q, by rw [piecesAt_append]; exact List.mem_append_right _ m5, m6⟩

/-- The edge through a point of a level side: the side is marked. -/
theorem made_horiz {b : Box} {es : List (Pt × Pt)} {evs : List Ev} (m : Made b es evs) {k i : ℤ} {p : Pt} (hy : p.y = b.gy k) (lx : b.gx i ≤ p.x)
    (hx : p.x ≤ b.gx (i + 1)) {e : Pt × Pt} (he : e ∈ es) (hp : OnEdge p e.1 e.2) :
    Ev.hit (k * 5 + i) .b ∈ evs ∧ Ev.hit ((k - 1) * 5 + i) .t ∈ evs ∧ ∃ q ∈ piecesAt evs (k * 5 + i), OnEdge p q.va q.vb := by
  obtain ⟨hdx, hdy, hg, hm⟩ := m
  induction es generalizing evs with
  | nil => cases he
  | cons f es ih =>
      obtain ⟨l, m, hl, hm', rfl⟩ := allEvents_cons hm
      rcases List.mem_cons.1 he with rfl | he
      · obtain ⟨hu, hv⟩ := hg e (by simp)
        rcases edge_trace hu hv hdx hdy hl with ⟨h1, rfl⟩ | ⟨va, vb, i0, j0, hor, g, t⟩
        · exfalso
          obtain ⟨s, _, _, _, h4⟩ := hp
          rw [h1, sub_self, mul_zero, add_zero] at h4
          exact hv.y k (by rw [← h4, hy])
        · have hp' : OnEdge p va vb := by
            rcases hor with ⟨rfl, rfl⟩ | ⟨rfl, rfl⟩
            · exact hp
            · exact hp.comm
          obtain ⟨s, s0, s1, rfl⟩ := (onEdge_iff _ _ _).1 hp'
          have h0 : 0 < s := by
            rcases s0.lt_or_eq with h | h
            · exact h
            · exfalso; rw [← h, along_zero] at hy; exact g.ay k hy
          obtain ⟨m1, m2, q, m5, m6, m7⟩ := trace_horiz g t h0 s1 hy lx hx
          exact ⟨List.mem_append_left _ m1, List.mem_append_left _ m2, q, by rw [piecesAt_append]; exact List.mem_append_left _ m5, by rw [m6, m7]; exact hp'⟩
      · obtain ⟨m1, m2, q, m5, m6⟩ := ih he (fun e he => hg e (List.mem_cons_of_mem _ he)) hm'
        exact ⟨List.mem_append_right _ m1, List.mem_append_right _ m2, q, by rw [piecesAt_append]; exact List.mem_append_right _ m5, m6⟩

/-- A cell that an edge goes through has a piece of the edge. -/
theorem made_inner {b : Box} {es : List (Pt × Pt)} {evs : List Ev} (m : Made b es evs) {i j : ℤ} {p : Pt} (lx : b.gx i < p.x)
    (hx : p.x < b.gx (i + 1)) (ly : b.gy j < p.y) (hy : p.y < b.gy (j + 1)) {e : Pt × Pt} (he : e ∈ es) (hne : e.1 ≠ e.2) (hp : OnEdge p e.1 e.2) :
    ∃ q ∈ piecesAt evs (j * 5 + i), OnEdge p q.va q.vb := by
  obtain ⟨hdx, hdy, hg, hm⟩ := m
  induction es generalizing evs with
  | nil => cases he
  | cons f es ih =>
      obtain ⟨l, m, hl, hm', rfl⟩ := allEvents_cons hm
      rw [piecesAt_append]
      rcases List.mem_cons.1 he with rfl | he
      · obtain ⟨hu, hv⟩ := hg e (by simp)
        rcases edge_trace hu hv hdx hdy hl with ⟨h1, rfl⟩ | ⟨va, vb, i0, j0, hor, g, t⟩
        · exact absurd h1 hne
        · have hp' : OnEdge p va vb := by
            rcases hor with ⟨rfl, rfl⟩ | ⟨rfl, rfl⟩
            · exact hp
            · exact hp.comm
          obtain ⟨s, s0, s1, rfl⟩ := (onEdge_iff _ _ _).1 hp'
          obtain ⟨q, m5, m6, m7⟩ := trace_inner g t s0 s1 lx hx ly hy
          exact ⟨q, List.mem_append_left _ m5, by rw [m6, m7]; exact hp'⟩
      · obtain ⟨q, m5, m6⟩ := ih he (fun e he => hg e (List.mem_cons_of_mem _ he)) hm'
        exact ⟨q, List.mem_append_right _ m5, m6⟩

/-- The state of the scan is the even-odd rule at the corner. -/
theorem made_corner {b : Box} {es : List (Pt × Pt)} {evs : List Ev} (m : Made b es evs) (r : ℤ) (k : ℕ) (hk : k ≤ 5) :
    ioState evs r k = parity (crossL ⟨b.gx k, b.gy (r + 1)⟩) es := by
  obtain ⟨hdx, hdy, hg, hm⟩ := m
  induction es generalizing evs with
  | nil =>
      rw [allEvents] at hm; cases hm
      show _ = false
      clear hk
      induction k with
      | zero => rfl
      | succ k ih => rw [ioState, ih]; rfl
  | cons e es ih =>
      obtain ⟨l, m, hl, hm', rfl⟩ := allEvents_cons hm
      rw [ioState_append, parity_cons, ih (fun e he => hg e (List.mem_cons_of_mem _ he)) hm']
      congr 1
      obtain ⟨hu, hv⟩ := hg e (by simp)
      rcases edge_trace hu hv hdx hdy hl with ⟨h1, rfl⟩ | ⟨va, vb, i0, j0, hor, g, t⟩
      · rw [h1]
        have h2 : crossL ⟨b.gx k, b.gy (r + 1)⟩ e.2 e.2 = false := by simp [crossL]
        rw [h2]
        clear hk
        induction k with
        | zero => rfl
        | succ k ih =>
            rw [ioState]
            have : ∀ n, ioState [] r n = false := by
              intro n; induction n with
              | zero => rfl
              | succ n ih => rw [ioState, ih]; rfl
            rw [this]; rfl
      · rw [trace_parity g t r k hk, along_zero]
        have h3 : crossL ⟨b.gx k, b.gy (r + 1)⟩ e.1 e.2 = crossL ⟨b.gx k, b.gy (r + 1)⟩ va vb := by
          rcases hor with ⟨rfl, rfl⟩ | ⟨rfl, rfl⟩
          · rfl
          · rw [crossL_comm]
        rw [h3]
        unfold crossL
        have e1 : decide (b.gy (r + 1) ≤ va.y) = decide (b.gy (r + 1) < va.y) := by
          congr 1; apply propext
          exact ⟨fun h => lt_of_le_of_ne h (Ne.symm (g.ay _)), le_of_lt⟩
        have e2 : decide (b.gy (r + 1) ≤ vb.y) = decide (b.gy (r + 1) < vb.y) := by
          congr 1; apply propext
          exact ⟨fun h => lt_of_le_of_ne h (Ne.symm (g.by' _)), le_of_lt⟩
        rw [e1, e2]
        rcases g.up.lt_or_eq with hu | hu
        · simp only [if_pos hu]
        · simp only [hu, bne_self_eq_false, Bool.false_and]

end Verif.Grid
