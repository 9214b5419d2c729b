import Verif.Grid.Parity

/-!
# The walk along an edge

What the loop of the constructor does to the cells, for an edge whose ends are on no grid line.
-/

namespace Verif.Grid

theorem gx_eq (b : Box) (k : ℤ) : b.gx k = b.lo.x + k * b.dx := by
  unfold Box.gx
  split_ifs with h
  · subst h; unfold Box.dx; push_cast; ring
  · rfl

theorem gy_eq (b : Box) (k : ℤ) : b.gy k = b.lo.y + k * b.dy := by
  unfold Box.gy
  split_ifs with h
  · subst h; unfold Box.dy; push_cast; ring
  · rfl

/-- An edge in general position: within the box, no end on a line of the grid, from smaller to larger `y`, not a point. -/
structure Good (b : Box) (va vb : Pt) : Prop where
  dx : 0 < b.dx
  dy : 0 < b.dy
  up : va.y ≤ vb.y
  ne : va.x ≠ vb.x ∨ va.y ≠ vb.y
  ax : ∀ k, va.x ≠ b.gx k
  bx : ∀ k, vb.x ≠ b.gx k
  ay : ∀ k, va.y ≠ b.gy k
  by' : ∀ k, vb.y ≠ b.gy k
  lax : b.gx 0 < va.x
  hax : va.x < b.gx 5
  lbx : b.gx 0 < vb.x
  hbx : vb.x < b.gx 5
  lay : b.gy 0 < va.y
  hay : va.y < b.gy 5
  lby : b.gy 0 < vb.y
  hby : vb.y < b.gy 5

/-- A closed cell of the grid. -/
structure InCell (b : Box) (i j : ℤ) (p : Pt) : Prop where
  lx : b.gx i ≤ p.x
  hx : p.x ≤ b.gx (i + 1)
  ly : b.gy j ≤ p.y
  hy : p.y ≤ b.gy (j + 1)

/-- What the walk along an edge does from the share `t` on, in the cell `i`, `j`. -/
inductive Trace (b : Box) (va vb : Pt) : ℤ → ℤ → ℚ → List Ev → Prop where
  | last {i j t} (hi : 0 ≤ i ∧ i ≤ 4) (hj : 0 ≤ j ∧ j ≤ 4) (h0 : 0 ≤ t) (h : t < 1) (hs : InCell b i j (along va vb t)) (he : InCell b i j vb) :
      Trace b va vb i j t [Ev.piece (j * 5 + i) ⟨along va vb t, vb, va, vb⟩]
  | right {i j t t' evs} (hi : 0 ≤ i ∧ i ≤ 4) (hj : 0 ≤ j ∧ j ≤ 4) (h0 : 0 ≤ t) (h : t < t') (h1 : t' < 1) (hs : InCell b i j (along va vb t))
      (hd : va.x < vb.x) (hx : (along va vb t').x = b.gx (i + 1)) (ly : b.gy j < (along va vb t').y) (hy : (along va vb t').y < b.gy (j + 1))
      (rest : Trace b va vb (i + 1) j t' evs) :
      Trace b va vb i j t (Ev.hit (j * 5 + i) .r :: Ev.piece (j * 5 + i) ⟨along va vb t, along va vb t', va, vb⟩ :: Ev.hit (j * 5 + (i + 1)) .l :: evs)
  | left {i j t t' evs} (hi : 0 ≤ i ∧ i ≤ 4) (hj : 0 ≤ j ∧ j ≤ 4) (h0 : 0 ≤ t) (h : t < t') (h1 : t' < 1) (hs : InCell b i j (along va vb t))
      (hd : vb.x < va.x) (hx : (along va vb t').x = b.gx i) (ly : b.gy j < (along va vb t').y) (hy : (along va vb t').y < b.gy (j + 1))
      (rest : Trace b va vb (i - 1) j t' evs) :
      Trace b va vb i j t (Ev.hit (j * 5 + i) .l :: Ev.piece (j * 5 + i) ⟨along va vb t, along va vb t', va, vb⟩ :: Ev.hit (j * 5 + (i - 1)) .r :: evs)
  | up {i j t t' evs} (hi : 0 ≤ i ∧ i ≤ 4) (hj : 0 ≤ j ∧ j ≤ 4) (h0 : 0 ≤ t) (h : t < t') (h1 : t' < 1) (hs : InCell b i j (along va vb t))
      (hd : va.y < vb.y) (hy : (along va vb t').y = b.gy (j + 1)) (lx : b.gx i < (along va vb t').x) (hx : (along va vb t').x < b.gx (i + 1))
      (rest : Trace b va vb i (j + 1) t' evs) :
      Trace b va vb i j t (Ev.hit (j * 5 + i) .t :: Ev.parity (j * 5 + i) :: Ev.piece (j * 5 + i) ⟨along va vb t, along va vb t', va, vb⟩ ::
        Ev.hit ((j + 1) * 5 + i) .b :: evs)

/-- The variables of the loop. -/
structure Inv (b : Box) (va vb : Pt) (w : Walk) : Prop where
  t0 : 0 ≤ w.t
  t1 : w.t < 1
  hi : 0 ≤ w.i ∧ w.i ≤ 4
  hj : 0 ≤ w.j ∧ w.j ≤ 4
  at' : w.at' = along va vb w.t
  cell : InCell b w.i w.j (along va vb w.t)
  txn : va.x = vb.x → w.tx = none
  txr : va.x < vb.x → ∃ τ, w.tx = some τ ∧ 0 ≤ τ ∧ τ * (vb.x - va.x) = b.gx (w.i + 1) - (along va vb w.t).x
  txl : vb.x < va.x → ∃ τ, w.tx = some τ ∧ 0 ≤ τ ∧ τ * (vb.x - va.x) = b.gx w.i - (along va vb w.t).x
  tyn : va.y = vb.y → w.ty = none
  tyu : va.y < vb.y → ∃ τ, w.ty = some τ ∧ 0 ≤ τ ∧ τ * (vb.y - va.y) = b.gy (w.j + 1) - (along va vb w.t).y

theorem refused_same {p va vb : Pt} : (Piece.mk p p va vb).refused = true := by
  simp [Piece.refused, nearly]

theorem bind_ok {α β : Type} {r : Res α} {f : α → Res β} {x : β} (h : r.bind f = .ok x) : ∃ a, r = .ok a ∧ f a = .ok x := by
  cases r <;> simp_all [Res.bind]

theorem line_ok {g : ℤ → ℚ} {k : ℤ} {v : ℚ} (h : line g k = .ok v) : v = g k ∧ 0 ≤ k ∧ k ≤ 5 := by
  unfold line at h
  split_ifs at h with h1
  exact ⟨(Res.ok.inj h).symm, h1⟩

theorem cellOf_ok {i j c : ℤ} (h : cellOf i j = .ok c) : c = j * 5 + i := by
  unfold cellOf at h
  split_ifs at h
  exact (Res.ok.inj h).symm

theorem signX_pos {va vb : Pt} (h : va.x < vb.x) : signX va vb = 1 := by
  unfold signX; rw [if_neg h.ne, if_pos h]

theorem signX_neg {va vb : Pt} (h : vb.x < va.x) : signX va vb = -1 := by
  unfold signX; rw [if_neg h.ne', if_neg (not_lt.2 h.le)]

theorem along_add (va vb : Pt) (t τ : ℚ) : (along va vb (t + τ)).x = (along va vb t).x + τ * (vb.x - va.x) ∧
    (along va vb (t + τ)).y = (along va vb t).y + τ * (vb.y - va.y) := by
  constructor <;> simp only [along] <;> ring

/-- The first way that is not longer than the other. -/
theorem xFirst_le {tx ty : Option ℚ} {τ : ℚ} (h : xFirst tx ty = true) (hx : tx = some τ) : ∀ σ, ty = some σ → τ ≤ σ := by
  rintro σ rfl
  subst hx
  simpa [xFirst] using h

theorem not_xFirst {tx ty : Option ℚ} {τ : ℚ} (h : ¬ xFirst tx ty = true) (hy : ty = some τ) : ∀ σ, tx = some σ → τ < σ := by
  rintro σ rfl
  subst hy
  simpa [xFirst] using h

/-- A walk that ends well never stands on the next line. -/
theorem walk_pos {b : Box} {va vb : Pt} (g : Good b va vb) {n : ℕ} {cur : ℤ} {w : Walk} {evs : List Ev} (hw : Inv b va vb w)
    (h : walk b va vb n cur w = .ok evs) : w.tx ≠ some 0 ∧ w.ty ≠ some 0 := by
  by_contra hc
  have hc : w.tx = some 0 ∨ w.ty = some 0 := by
    by_contra h2; exact hc ⟨fun h => h2 (.inl h), fun h => h2 (.inr h)⟩
  cases n with
  | zero => simp [walk] at h
  | succ n =>
    rw [walk] at h
    by_cases h1 : xFirst w.tx w.ty = true
    · rw [if_pos h1] at h
      cases htx : w.tx with
      | none => rw [htx] at h; simp at h
      | some τ =>
        have hτ0 : 0 ≤ τ := by
          rcases lt_trichotomy va.x vb.x with hd | hd | hd
          · obtain ⟨σ, e, h0, _⟩ := hw.txr hd; rw [htx] at e; cases e; exact h0
          · rw [hw.txn hd] at htx; cases htx
          · obtain ⟨σ, e, h0, _⟩ := hw.txl hd; rw [htx] at e; cases e; exact h0
        have hτ : τ = 0 := by
          rcases hc with h2 | h2
          · rw [htx] at h2; cases h2; rfl
          · exact le_antisymm (xFirst_le h1 htx 0 h2) hτ0
        subst hτ
        rw [htx] at h
        simp only [add_zero, hw.t1, if_true] at h
        obtain ⟨x1, hl, h⟩ := bind_ok h
        obtain ⟨hx1, _, _⟩ := line_ok hl
        have hx : x1 = w.at'.x ∧ w.t * (vb.y - va.y) + va.y = w.at'.y := by
          rw [hw.at']
          refine ⟨?_, by simp only [along]; ring⟩
          rcases lt_trichotomy va.x vb.x with hd | hd | hd
          · obtain ⟨σ, e, h0, h4⟩ := hw.txr hd; rw [htx] at e; cases e
            rw [signX_pos hd] at hx1
            rw [hx1]; simp at h4 ⊢; linarith
          · rw [hw.txn hd] at htx; cases htx
          · obtain ⟨σ, e, h0, h4⟩ := hw.txl hd; rw [htx] at e; cases e
            rw [signX_neg hd] at hx1
            rw [hx1]; simp at h4 ⊢; linarith
        rw [hx.1, hx.2] at h
        rw [show (Piece.mk w.at' ⟨w.at'.x, w.at'.y⟩ va vb) = Piece.mk w.at' w.at' va vb from rfl, refused_same] at h
        simp at h
    · rw [if_neg h1] at h
      cases hty : w.ty with
      | none => rw [hty] at h; simp at h
      | some τ =>
        have hup : va.y < vb.y := by
          rcases g.up.lt_or_eq with hd | hd
          · exact hd
          · rw [hw.tyn hd] at hty; cases hty
        obtain ⟨σ, e, hτ0, h4⟩ := hw.tyu hup
        rw [hty] at e; cases e
        have hτ : τ = 0 := by
          rcases hc with h2 | h2
          · exact le_antisymm (not_xFirst h1 hty 0 h2).le hτ0
          · rw [hty] at h2; cases h2; rfl
        subst hτ
        rw [hty] at h
        simp only [add_zero, hw.t1, if_true] at h
        obtain ⟨y1, hl, h⟩ := bind_ok h
        obtain ⟨hy1, _, _⟩ := line_ok hl
        have hx : w.t * (vb.x - va.x) + va.x = w.at'.x ∧ y1 = w.at'.y := by
          rw [hw.at']
          refine ⟨by simp only [along]; ring, ?_⟩
          rw [hy1]; simp at h4 ⊢; linarith
        rw [hx.1, hx.2] at h
        rw [show (Piece.mk w.at' ⟨w.at'.x, w.at'.y⟩ va vb) = Piece.mk w.at' w.at' va vb from rfl, refused_same] at h
        simp at h

theorem gx_succ (b : Box) (k : ℤ) : b.gx (k + 1) = b.gx k + b.dx := by
  rw [gx_eq, gx_eq]; push_cast; ring

theorem gy_succ (b : Box) (k : ℤ) : b.gy (k + 1) = b.gy k + b.dy := by
  rw [gy_eq, gy_eq]; push_cast; ring

theorem gx_lt {b : Box} (h : 0 < b.dx) {k l : ℤ} : b.gx k < b.gx l ↔ k < l := by
  rw [gx_eq, gx_eq]
  constructor
  · intro h1
    have : (k : ℚ) < l := by by_contra h2; nlinarith
    exact_mod_cast this
  · intro h1
    have : (k : ℚ) < l := by exact_mod_cast h1
    nlinarith

theorem gy_lt {b : Box} (h : 0 < b.dy) {k l : ℤ} : b.gy k < b.gy l ↔ k < l := by
  rw [gy_eq, gy_eq]
  constructor
  · intro h1
    have : (k : ℚ) < l := by by_contra h2; nlinarith
    exact_mod_cast this
  · intro h1
    have : (k : ℚ) < l := by exact_mod_cast h1
    nlinarith

theorem gx_le {b : Box} (h : 0 < b.dx) {k l : ℤ} : b.gx k ≤ b.gx l ↔ k ≤ l := by
  rw [← not_lt, gx_lt h, not_lt]

theorem gy_le {b : Box} (h : 0 < b.dy) {k l : ℤ} : b.gy k ≤ b.gy l ↔ k ≤ l := by
  rw [← not_lt, gy_lt h, not_lt]

/-- The walk of the code, when it ends well, is a trace. -/
theorem walk_trace {b : Box} {va vb : Pt} (g : Good b va vb) : ∀ {n : ℕ} {w : Walk} {evs : List Ev}, Inv b va vb w →
    walk b va vb n (w.j * 5 + w.i) w = .ok evs → Trace b va vb w.i w.j w.t evs := by
  intro n
  induction n with
  | zero => intro w evs hw h; simp [walk] at h
  | succ n ih =>
    intro w evs hw h
    have hpos := walk_pos g hw h
    rw [walk] at h
    by_cases h1 : xFirst w.tx w.ty = true
    · rw [if_pos h1] at h
      cases htx : w.tx with
      | none => rw [htx] at h; simp at h
      | some τ =>
        rw [htx] at h
        have hty : ∀ σ, w.ty = some σ → τ ≤ σ := xFirst_le h1 htx
        have hτne : τ ≠ 0 := fun h2 => hpos.1 (by rw [htx, h2])
        obtain ⟨axx, axy⟩ := along_add va vb w.t τ
        rcases lt_trichotomy va.x vb.x with hd | hd | hd
        · -- to the right
          obtain ⟨σ, e, h0, h4⟩ := hw.txr hd
          rw [htx] at e; cases e
          have hτ : 0 < τ := lt_of_le_of_ne h0 (Ne.symm hτne)
          have hxt : (along va vb (w.t + τ)).x = b.gx (w.i + 1) := by rw [axx, h4]; ring
          have hyle : (along va vb (w.t + τ)).y ≤ b.gy (w.j + 1) := by
            rcases g.up.lt_or_eq with hu | hu
            · obtain ⟨σ, e, _, h5⟩ := hw.tyu hu
              have := hty σ e
              rw [axy]; nlinarith
            · rw [axy, ← hu]; have := hw.cell.hy; linarith
          by_cases ht : w.t + τ < 1
          · simp only [if_pos ht, signX_pos hd, zero_lt_one, if_true] at h
            obtain ⟨x1, hl, h⟩ := bind_ok h
            obtain ⟨hx1, hk0, hk5⟩ := line_ok hl
            by_cases href : (Piece.mk w.at' ⟨x1, (w.t + τ) * (vb.y - va.y) + va.y⟩ va vb).refused = true
            · rw [if_pos href] at h; cases h
            rw [if_neg href] at h
            obtain ⟨next, hc, h⟩ := bind_ok h
            have hnext := cellOf_ok hc
            obtain ⟨evs', hrec, h⟩ := bind_ok h
            have hevs := Res.ok.inj h
            have hq : (⟨x1, (w.t + τ) * (vb.y - va.y) + va.y⟩ : Pt) = along va vb (w.t + τ) := by
              have : (w.t + τ) * (vb.y - va.y) + va.y = (along va vb (w.t + τ)).y := by simp only [along]; ring
              rw [this, hx1, ← hxt]
            rw [hq] at hrec hevs
            have hi5 : w.i + 1 < 5 := by
              rw [← gx_lt g.dx, ← hxt]
              have : (along va vb (w.t + τ)).x < vb.x := by simp only [along]; nlinarith
              linarith [g.hbx]
            have hinv : Inv b va vb ⟨w.i + 1, w.j, tgcx b va vb, w.ty.map (· - τ), w.t + τ, along va vb (w.t + τ)⟩ :=
              { t0 := by have := hw.t0; simp only; linarith
                t1 := ht
                hi := ⟨by have := hw.hi.1; simp only; omega, by simp only; omega⟩
                hj := hw.hj
                at' := rfl
                cell := { lx := by simp only; rw [hxt]
                          hx := by simp only; rw [hxt, gx_le g.dx]; omega
                          ly := by
                            simp only; rw [axy]; have := hw.cell.ly; have := g.up; nlinarith
                          hy := hyle }
                txn := fun e => absurd e hd.ne
                txr := fun _ => by
                  refine ⟨b.dx * (1 / (vb.x - va.x)), by simp only [tgcx, if_neg hd.ne, if_pos hd], ?_, ?_⟩
                  · have := g.dx; have : 0 < vb.x - va.x := by linarith
                    positivity
                  · have : vb.x - va.x ≠ 0 := by intro h; linarith
                    simp only; rw [hxt, gx_succ b (w.i + 1)]; field_simp; ring
                txl := fun e => absurd e (not_lt.2 hd.le)
                tyn := fun e => by simp only; rw [hw.tyn e]; rfl
                tyu := fun e => by
                  obtain ⟨σ, e1, _, h5⟩ := hw.tyu e
                  have := hty σ e1
                  refine ⟨σ - τ, by simp only [e1, Option.map_some], by linarith, ?_⟩
                  simp only; rw [axy]; linarith }
            subst hnext
            have hrest := ih hinv hrec
            have hpos' := walk_pos g hinv hrec
            rw [← hevs]
            refine Trace.right hw.hi hw.hj hw.t0 (by linarith) ht hw.cell hd hxt ?_ ?_ hrest |> fun T => by rw [hw.at']; exact T
            · rcases g.up.lt_or_eq with hu | hu
              · rw [axy]; have := hw.cell.ly; nlinarith
              · have h6 : (along va vb (w.t + τ)).y = va.y := by simp only [along]; rw [← hu]; ring
                have := hinv.cell.ly
                rw [h6]
                simp only at this
                rw [h6] at this
                exact lt_of_le_of_ne this (Ne.symm (g.ay _))
            · rcases g.up.lt_or_eq with hu | hu
              · obtain ⟨σ, e1, h6, h5⟩ := hinv.tyu hu
                refine lt_of_le_of_ne hyle fun h7 => hpos'.2 ?_
                rw [e1]
                simp only at h5
                rw [h7] at h5
                have : σ * (vb.y - va.y) = 0 := by linarith
                rcases mul_eq_zero.1 this with h8 | h8
                · rw [h8]
                · exact absurd h8 (by intro h9; linarith)
              · have h6 : (along va vb (w.t + τ)).y = va.y := by simp only [along]; rw [← hu]; ring
                rw [h6] at hyle ⊢
                exact lt_of_le_of_ne hyle (g.ay _)
          · simp only [if_neg ht] at h
            by_cases href : (Piece.mk w.at' vb va vb).refused = true
            · rw [if_pos href] at h; cases h
            rw [if_neg href] at h
            rw [← Res.ok.inj h, hw.at']
            refine Trace.last hw.hi hw.hj hw.t0 hw.t1 hw.cell ?_
            have e1 : vb.x = (along va vb w.t).x + (1 - w.t) * (vb.x - va.x) := by simp only [along]; ring
            have e2 : vb.y = (along va vb w.t).y + (1 - w.t) * (vb.y - va.y) := by simp only [along]; ring
            have ht1 := hw.t1
            refine ⟨?_, ?_, ?_, ?_⟩
            · rw [e1]; have := hw.cell.lx; nlinarith
            · rw [← hxt, axx]; rw [e1]; nlinarith
            · rw [e2]; have := hw.cell.ly; have := g.up; nlinarith
            · refine le_trans ?_ hyle
              rw [axy]; rw [e2]; have := g.up; nlinarith
        · rw [hw.txn hd] at htx; cases htx
        · -- to the left
          obtain ⟨σ, e, h0, h4⟩ := hw.txl hd
          rw [htx] at e; cases e
          have hτ : 0 < τ := lt_of_le_of_ne h0 (Ne.symm hτne)
          have hxt : (along va vb (w.t + τ)).x = b.gx w.i := by rw [axx, h4]; ring
          have hyle : (along va vb (w.t + τ)).y ≤ b.gy (w.j + 1) := by
            rcases g.up.lt_or_eq with hu | hu
            · obtain ⟨σ, e, _, h5⟩ := hw.tyu hu
              have := hty σ e
              rw [axy]; nlinarith
            · rw [axy, ← hu]; have := hw.cell.hy; linarith
          by_cases ht : w.t + τ < 1
          · simp only [if_pos ht, signX_neg hd, show ¬ ((0:ℤ) < -1) by omega, if_false] at h
            rw [show w.i + -1 = w.i - 1 from rfl] at h
            obtain ⟨x1, hl, h⟩ := bind_ok h
            obtain ⟨hx1, hk0, hk5⟩ := line_ok hl
            by_cases href : (Piece.mk w.at' ⟨x1, (w.t + τ) * (vb.y - va.y) + va.y⟩ va vb).refused = true
            · rw [if_pos href] at h; cases h
            rw [if_neg href] at h
            obtain ⟨next, hc, h⟩ := bind_ok h
            have hnext := cellOf_ok hc
            obtain ⟨evs', hrec, h⟩ := bind_ok h
            have hevs := Res.ok.inj h
            have hq : (⟨x1, (w.t + τ) * (vb.y - va.y) + va.y⟩ : Pt) = along va vb (w.t + τ) := by
              have : (w.t + τ) * (vb.y - va.y) + va.y = (along va vb (w.t + τ)).y := by simp only [along]; ring
              rw [this, hx1, sub_add_cancel, ← hxt]
            rw [hq] at hrec hevs
            have hi5 : 0 < w.i := by
              rw [← gx_lt g.dx, ← hxt]
              have : vb.x < (along va vb (w.t + τ)).x := by simp only [along]; nlinarith
              linarith [g.lbx]
            have hinv : Inv b va vb ⟨w.i - 1, w.j, tgcx b va vb, w.ty.map (· - τ), w.t + τ, along va vb (w.t + τ)⟩ :=
              { t0 := by have := hw.t0; simp only; linarith
                t1 := ht
                hi := ⟨by simp only; omega, by have := hw.hi.2; simp only; omega⟩
                hj := hw.hj
                at' := rfl
                cell := { lx := by simp only; rw [hxt, gx_le g.dx]; omega
                          hx := by simp only; rw [hxt, sub_add_cancel]
                          ly := by
                            simp only; rw [axy]; have := hw.cell.ly; have := g.up; nlinarith
                          hy := hyle }
                txn := fun e => absurd e hd.ne'
                txr := fun e => absurd e (not_lt.2 hd.le)
                txl := fun _ => by
                  refine ⟨-b.dx * (1 / (vb.x - va.x)), by simp only [tgcx, if_neg hd.ne', if_neg (not_lt.2 hd.le)], ?_, ?_⟩
                  · have := g.dx; have : 0 < va.x - vb.x := by linarith
                    rw [show -b.dx * (1 / (vb.x - va.x)) = b.dx * (1 / (va.x - vb.x)) by rw [← neg_sub va.x vb.x, one_div_neg_eq_neg_one_div]; ring]
                    positivity
                  · have : vb.x - va.x ≠ 0 := by intro h; linarith
                    have h9 := gx_succ b (w.i - 1)
                    rw [sub_add_cancel] at h9
                    simp only; rw [hxt, h9]; field_simp; ring
                tyn := fun e => by simp only; rw [hw.tyn e]; rfl
                tyu := fun e => by
                  obtain ⟨σ, e1, _, h5⟩ := hw.tyu e
                  have := hty σ e1
                  refine ⟨σ - τ, by simp only [e1, Option.map_some], by linarith, ?_⟩
                  simp only; rw [axy]; linarith }
            subst hnext
            have hrest := ih hinv hrec
            have hpos' := walk_pos g hinv hrec
            rw [← hevs]
            refine Trace.left hw.hi hw.hj hw.t0 (by linarith) ht hw.cell hd hxt ?_ ?_ hrest |> fun T => by rw [hw.at']; exact T
            · rcases g.up.lt_or_eq with hu | hu
              · rw [axy]; have := hw.cell.ly; nlinarith
              · have h6 : (along va vb (w.t + τ)).y = va.y := by simp only [along]; rw [← hu]; ring
                have := hinv.cell.ly
                rw [h6]
                simp only at this
                rw [h6] at this
                exact lt_of_le_of_ne this (Ne.symm (g.ay _))
            · rcases g.up.lt_or_eq with hu | hu
              · obtain ⟨σ, e1, h6, h5⟩ := hinv.tyu hu
                refine lt_of_le_of_ne hyle fun h7 => hpos'.2 ?_
                rw [e1]
                simp only at h5
                rw [h7] at h5
                have : σ * (vb.y - va.y) = 0 := by linarith
                rcases mul_eq_zero.1 this with h8 | h8
                · rw [h8]
                · exact absurd h8 (by intro h9; linarith)
              · have h6 : (along va vb (w.t + τ)).y = va.y := by simp only [along]; rw [← hu]; ring
                rw [h6] at hyle ⊢
                exact lt_of_le_of_ne hyle (g.ay _)
          · simp only [if_neg ht] at h
            by_cases href : (Piece.mk w.at' vb va vb).refused = true
            · rw [if_pos href] at h; cases h
            rw [if_neg href] at h
            rw [← Res.ok.inj h, hw.at']
            refine Trace.last hw.hi hw.hj hw.t0 hw.t1 hw.cell ?_
            have e1 : vb.x = (along va vb w.t).x + (1 - w.t) * (vb.x - va.x) := by simp only [along]; ring
            have e2 : vb.y = (along va vb w.t).y + (1 - w.t) * (vb.y - va.y) := by simp only [along]; ring
            have ht1 := hw.t1
            refine ⟨?_, ?_, ?_, ?_⟩
            · rw [← hxt, axx]; rw [e1]; nlinarith
            · rw [e1]; have := hw.cell.hx; nlinarith
            · rw [e2]; have := hw.cell.ly; have := g.up; nlinarith
            · refine le_trans ?_ hyle
              rw [axy]; rw [e2]; have := g.up; nlinarith
    · rw [if_neg h1] at h
      cases hty : w.ty with
      | none => rw [hty] at h; simp at h
      | some τ =>
        rw [hty] at h
        have htx : ∀ σ, w.tx = some σ → τ < σ := not_xFirst h1 hty
        have hτne : τ ≠ 0 := fun h2 => hpos.2 (by rw [hty, h2])
        obtain ⟨axx, axy⟩ := along_add va vb w.t τ
        have hd : va.y < vb.y := by
          rcases g.up.lt_or_eq with hd | hd
          · exact hd
          · rw [hw.tyn hd] at hty; cases hty
        obtain ⟨σ, e, h0, h4⟩ := hw.tyu hd
        rw [hty] at e; cases e
        have hτ : 0 < τ := lt_of_le_of_ne h0 (Ne.symm hτne)
        have hyt : (along va vb (w.t + τ)).y = b.gy (w.j + 1) := by rw [axy, h4]; ring
        have hxle : b.gx w.i ≤ (along va vb (w.t + τ)).x ∧ (along va vb (w.t + τ)).x ≤ b.gx (w.i + 1) := by
          have c1 := hw.cell.lx
          have c2 := hw.cell.hx
          rw [axx]
          rcases lt_trichotomy va.x vb.x with hu | hu | hu
          · obtain ⟨σ, e, _, h5⟩ := hw.txr hu
            have := htx σ e
            constructor <;> nlinarith
          · rw [← hu]; constructor <;> linarith
          · obtain ⟨σ, e, _, h5⟩ := hw.txl hu
            have := htx σ e
            constructor <;> nlinarith
        by_cases ht : w.t + τ < 1
        · simp only [if_pos ht] at h
          obtain ⟨y1, hl, h⟩ := bind_ok h
          obtain ⟨hy1, hk0, hk5⟩ := line_ok hl
          by_cases href : (Piece.mk w.at' ⟨(w.t + τ) * (vb.x - va.x) + va.x, y1⟩ va vb).refused = true
          · rw [if_pos href] at h; cases h
          rw [if_neg href] at h
          obtain ⟨next, hc, h⟩ := bind_ok h
          have hnext := cellOf_ok hc
          obtain ⟨evs', hrec, h⟩ := bind_ok h
          have hevs := Res.ok.inj h
          have hq : (⟨(w.t + τ) * (vb.x - va.x) + va.x, y1⟩ : Pt) = along va vb (w.t + τ) := by
            have : (w.t + τ) * (vb.x - va.x) + va.x = (along va vb (w.t + τ)).x := by simp only [along]; ring
            rw [this, hy1, ← hyt]
          rw [hq] at hrec hevs
          have hj5 : w.j + 1 < 5 := by
            rw [← gy_lt g.dy, ← hyt]
            have : (along va vb (w.t + τ)).y < vb.y := by simp only [along]; nlinarith
            linarith [g.hby]
          have hinv : Inv b va vb ⟨w.i, w.j + 1, w.tx.map (· - τ), tgcy b va vb, w.t + τ, along va vb (w.t + τ)⟩ :=
            { t0 := by have := hw.t0; simp only; linarith
              t1 := ht
              hi := hw.hi
              hj := ⟨by have := hw.hj.1; simp only; omega, by simp only; omega⟩
              at' := rfl
              cell := { lx := hxle.1
                        hx := hxle.2
                        ly := by simp only; rw [hyt]
                        hy := by simp only; rw [hyt, gy_le g.dy]; omega }
              txn := fun e => by simp only; rw [hw.txn e]; rfl
              txr := fun e => by
                obtain ⟨σ, e1, _, h5⟩ := hw.txr e
                have := htx σ e1
                refine ⟨σ - τ, by simp only [e1, Option.map_some], by linarith, ?_⟩
                simp only; rw [axx]; linarith
              txl := fun e => by
                obtain ⟨σ, e1, _, h5⟩ := hw.txl e
                have := htx σ e1
                refine ⟨σ - τ, by simp only [e1, Option.map_some], by linarith, ?_⟩
                simp only; rw [axx]; linarith
              tyn := fun e => absurd e hd.ne
              tyu := fun _ => by
                refine ⟨b.dy * (1 / (vb.y - va.y)), by simp only [tgcy, if_neg hd.ne], ?_, ?_⟩
                · have := g.dy; have : 0 < vb.y - va.y := by linarith
                  positivity
                · have : vb.y - va.y ≠ 0 := by intro h; linarith
                  simp only; rw [hyt, gy_succ b (w.j + 1)]; field_simp; ring }
          subst hnext
          have hrest := ih hinv hrec
          have hpos' := walk_pos g hinv hrec
          have hxne : b.gx w.i < (along va vb (w.t + τ)).x ∧ (along va vb (w.t + τ)).x < b.gx (w.i + 1) := by
            rcases lt_trichotomy va.x vb.x with hu | hu | hu
            · refine ⟨?_, lt_of_le_of_ne hxle.2 fun h7 => hpos'.1 ?_⟩
              · rw [axx]; have := hw.cell.lx; nlinarith
              · obtain ⟨σ, e1, h6, h5⟩ := hinv.txr hu
                rw [e1]
                simp only at h5
                rw [h7] at h5
                have : σ * (vb.x - va.x) = 0 := by linarith
                rcases mul_eq_zero.1 this with h8 | h8
                · rw [h8]
                · exact absurd h8 (by intro h9; linarith)
            · have h6 : (along va vb (w.t + τ)).x = va.x := by simp only [along]; rw [← hu]; ring
              rw [h6] at hxle ⊢
              exact ⟨lt_of_le_of_ne hxle.1 (Ne.symm (g.ax _)), lt_of_le_of_ne hxle.2 (g.ax _)⟩
            · refine ⟨lt_of_le_of_ne hxle.1 fun h7 => hpos'.1 ?_, ?_⟩
              · obtain ⟨σ, e1, h6, h5⟩ := hinv.txl hu
                rw [e1]
                simp only at h5
                rw [← h7] at h5
                have : σ * (vb.x - va.x) = 0 := by linarith
                rcases mul_eq_zero.1 this with h8 | h8
                · rw [h8]
                · exact absurd h8 (by intro h9; linarith)
              · rw [axx]; have := hw.cell.hx; nlinarith
          rw [← hevs, hw.at']
          exact Trace.up hw.hi hw.hj hw.t0 (by linarith) ht hw.cell hd hyt hxne.1 hxne.2 hrest
        · simp only [if_neg ht] at h
          by_cases href : (Piece.mk w.at' vb va vb).refused = true
          · rw [if_pos href] at h; cases h
          rw [if_neg href] at h
          rw [← Res.ok.inj h, hw.at']
          refine Trace.last hw.hi hw.hj hw.t0 hw.t1 hw.cell ?_
          have e1 : vb.x = (along va vb w.t).x + (1 - w.t) * (vb.x - va.x) := by simp only [along]; ring
          have e2 : vb.y = (along va vb w.t).y + (1 - w.t) * (vb.y - va.y) := by simp only [along]; ring
          have ht1 := hw.t1
          have c1 := hw.cell.lx
          have c2 := hw.cell.hx
          rw [axx] at hxle
          refine ⟨?_, ?_, ?_, ?_⟩
          · rw [e1]
            rcases le_total va.x vb.x with hu | hu
            · nlinarith
            · nlinarith [hxle.1]
          · rw [e1]
            rcases le_total va.x vb.x with hu | hu
            · nlinarith [hxle.2]
            · nlinarith
          · rw [e2]; have := hw.cell.ly; nlinarith
          · rw [← hyt, axy]; rw [e2]; nlinarith

end Verif.Grid
