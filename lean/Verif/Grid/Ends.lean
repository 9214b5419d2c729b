import Verif.Grid.Edges

/-!
# The walk along an edge ends

In general position the loop of the constructor never reads outside its arrays, and has at most nine steps.
-/

namespace Verif.Grid

/-- It ends with a value or with a refused piece. -/
def Ends {α : Type} (r : Res α) : Prop := r = .corner ∨ ∃ a, r = .ok a

theorem Ends.bind {α β : Type} {r : Res α} {f : α → Res β} (h : Ends r) (hf : ∀ a, r = .ok a → Ends (f a)) : Ends (r.bind f) := by
  rcases h with rfl | ⟨a, rfl⟩
  · exact .inl rfl
  · exact hf a rfl

theorem ends_ok {α : Type} (a : α) : Ends (Res.ok a) := .inr ⟨a, rfl⟩

theorem ends_corner {α : Type} : Ends (Res.corner : Res α) := .inl rfl

/-- The cells that may still come. -/
def ahead (va vb : Pt) (w : Walk) : ℤ := (if va.x < vb.x then 4 - w.i else if vb.x < va.x then w.i else 0) + (4 - w.j)

/-- The walk ends, with one step more than the cells that may come. -/
theorem walk_ends {b : Box} {va vb : Pt} (g : Good b va vb) : ∀ {n : ℕ} {w : Walk}, Inv b va vb w → ahead va vb w < n →
    Ends (walk b va vb n (w.j * 5 + w.i) w) := by
  intro n
  induction n with
  | zero =>
    intro w hw hn
    exfalso
    have := hw.hi; have := hw.hj
    unfold ahead at hn
    split_ifs at hn <;> push_cast at hn <;> omega
  | succ n ih =>
    intro w hw hn
    rw [walk]
    by_cases h1 : xFirst w.tx w.ty = true
    · rw [if_pos h1]
      cases htx : w.tx with
      | none =>
        exfalso
        have hxe : va.x = vb.x := by
          rcases lt_trichotomy va.x vb.x with hd | hd | hd
          · obtain ⟨σ, e, _⟩ := hw.txr hd; rw [htx] at e; cases e
          · exact hd
          · obtain ⟨σ, e, _⟩ := hw.txl hd; rw [htx] at e; cases e
        have hye : va.y = vb.y := by
          rcases g.up.lt_or_eq with hd | hd
          · obtain ⟨σ, e, _⟩ := hw.tyu hd; rw [htx, e] at h1; cases h1
          · exact hd
        rcases g.ne with h | h
        · exact h hxe
        · exact h hye
      | some τ =>
        have hty : ∀ σ, w.ty = some σ → τ ≤ σ := xFirst_le h1 htx
        obtain ⟨axx, axy⟩ := along_add va vb w.t τ
        rcases lt_trichotomy va.x vb.x with hd | hd | hd
        · -- to the right
          obtain ⟨σ, e, h0, h4⟩ := hw.txr hd
          rw [htx] at e; cases e
          have hxt : (along va vb (w.t + τ)).x = b.gx (w.i + 1) := by rw [axx, h4]; ring
          have hyle : (along va vb (w.t + τ)).y ≤ b.gy (w.j + 1) := by
            rcases g.up.lt_or_eq with hu | hu
            · obtain ⟨σ, e, _, h5⟩ := hw.tyu hu
              have := hty σ e
              rw [axy]; nlinarith
            · rw [axy, ← hu]; have := hw.cell.hy; linarith
          by_cases ht : w.t + τ < 1
          · simp only [if_pos ht, signX_pos hd, zero_lt_one, if_true]
            have hi5 : w.i + 1 < 5 := by
              rw [← gx_lt g.dx, ← hxt]
              have : (along va vb (w.t + τ)).x < vb.x := by simp only [along]; nlinarith
              linarith [g.hbx]
            have hi0 := hw.hi.1
            have hj0 := hw.hj
            have hinv : Inv b va vb ⟨w.i + 1, w.j, tgcx b va vb, w.ty.map (· - τ), w.t + τ, along va vb (w.t + τ)⟩ :=
              { t0 := by have := hw.t0; simp only; linarith
                t1 := ht
                hi := ⟨by have := hw.hi.1; simp only; omega, by simp only; omega⟩
                hj := hw.hj
                at' := rfl
                cell := { lx := by simp only; rw [hxt]
                          hx := by simp only; rw [hxt, gx_le g.dx]; omega
                          ly := by
                            simp only; rw [axy]; have := hw.cell.ly; have := g.up; nlinarith
                          hy := hyle }
                txn := fun e => absurd e hd.ne
                txr := fun _ => by
                  refine ⟨b.dx * (1 / (vb.x - va.x)), by simp only [tgcx, if_neg hd.ne, if_pos hd], ?_, ?_⟩
                  · have := g.dx; have : 0 < vb.x - va.x := by linarith
                    positivity
                  · have : vb.x - va.x ≠ 0 := by intro h; linarith
                    simp only; rw [hxt, gx_succ b (w.i + 1)]; field_simp; ring
                txl := fun e => absurd e (not_lt.2 hd.le)
                tyn := fun e => by simp only; rw [hw.tyn e]; rfl
                tyu := fun e => by
                  obtain ⟨σ, e1, _, h5⟩ := hw.tyu e
                  have := hty σ e1
                  refine ⟨σ - τ, by simp only [e1, Option.map_some], by linarith, ?_⟩
                  simp only; rw [axy]; linarith }
            rw [show line b.gx (w.i + 1) = .ok (b.gx (w.i + 1)) from if_pos ⟨by omega, by omega⟩]
            simp only [Res.bind]
            have hq : (⟨b.gx (w.i + 1), (w.t + τ) * (vb.y - va.y) + va.y⟩ : Pt) = along va vb (w.t + τ) := by
              have : (w.t + τ) * (vb.y - va.y) + va.y = (along va vb (w.t + τ)).y := by simp only [along]; ring
              rw [this, ← hxt]
            rw [hq]
            split_ifs with href
            · exact ends_corner
            rw [show cellOf (w.i + 1) w.j = .ok (w.j * 5 + (w.i + 1)) from if_pos ⟨by omega, by omega⟩]
            simp only
            refine (ih hinv ?_).bind fun _ _ => ends_ok _
            unfold ahead at hn ⊢
            rw [if_pos hd] at hn ⊢
            push_cast at hn
            simp only
            omega
          · simp only [if_neg ht]
            split_ifs
            · exact ends_corner
            · exact ends_ok _
        · rw [hw.txn hd] at htx; cases htx
        · -- to the left
          obtain ⟨σ, e, h0, h4⟩ := hw.txl hd
          rw [htx] at e; cases e
          have hxt : (along va vb (w.t + τ)).x = b.gx w.i := by rw [axx, h4]; ring
          have hyle : (along va vb (w.t + τ)).y ≤ b.gy (w.j + 1) := by
            rcases g.up.lt_or_eq with hu | hu
            · obtain ⟨σ, e, _, h5⟩ := hw.tyu hu
              have := hty σ e
              rw [axy]; nlinarith
            · rw [axy, ← hu]; have := hw.cell.hy; linarith
          by_cases ht : w.t + τ < 1
          · simp only [if_pos ht, signX_neg hd, show ¬ ((0:ℤ) < -1) by omega, if_false]
            rw [show w.i + -1 = w.i - 1 from rfl]
            have hi5 : 0 < w.i := by
              rw [← gx_lt g.dx, ← hxt]
              have : vb.x < (along va vb (w.t + τ)).x := by simp only [along]; nlinarith
              linarith [g.lbx]
            have hi0 := hw.hi.2
            have hj0 := hw.hj
            have hinv : Inv b va vb ⟨w.i - 1, w.j, tgcx b va vb, w.ty.map (· - τ), w.t + τ, along va vb (w.t + τ)⟩ :=
              { t0 := by have := hw.t0; simp only; linarith
                t1 := ht
                hi := ⟨by simp only; omega, by have := hw.hi.2; simp only; omega⟩
                hj := hw.hj
                at' := rfl
                cell := { lx := by simp only; rw [hxt, gx_le g.dx]; omega
                          hx := by simp only; rw [hxt, sub_add_cancel]
                          ly := by
                            simp only; rw [axy]; have := hw.cell.ly; have := g.up; nlinarith
                          hy := hyle }
                txn := fun e => absurd e hd.ne'
                txr := fun e => absurd e (not_lt.2 hd.le)
                txl := fun _ => by
                  refine ⟨-b.dx * (1 / (vb.x - va.x)), by simp only [tgcx, if_neg hd.ne', if_neg (not_lt.2 hd.le)], ?_, ?_⟩
                  · have := g.dx; have : 0 < va.x - vb.x := by linarith
                    rw [show -b.dx * (1 / (vb.x - va.x)) = b.dx * (1 / (va.x - vb.x)) by rw [← neg_sub va.x vb.x, one_div_neg_eq_neg_one_div]; ring]
                    positivity
                  · have : vb.x - va.x ≠ 0 := by intro h; linarith
                    have h9 := gx_succ b (w.i - 1)
                    rw [sub_add_cancel] at h9
                    simp only; rw [hxt, h9]; field_simp; ring
                tyn := fun e => by simp only; rw [hw.tyn e]; rfl
                tyu := fun e => by
                  obtain ⟨σ, e1, _, h5⟩ := hw.tyu e
                  have := hty σ e1
                  refine ⟨σ - τ, by simp only [e1, Option.map_some], by linarith, ?_⟩
                  simp only; rw [axy]; linarith }
            rw [show line b.gx (w.i - 1 + 1) = .ok (b.gx (w.i - 1 + 1)) from if_pos ⟨by omega, by omega⟩]
            simp only [Res.bind]
            have hq : (⟨b.gx (w.i - 1 + 1), (w.t + τ) * (vb.y - va.y) + va.y⟩ : Pt) = along va vb (w.t + τ) := by
              have : (w.t + τ) * (vb.y - va.y) + va.y = (along va vb (w.t + τ)).y := by simp only [along]; ring
              rw [this, sub_add_cancel, ← hxt]
            rw [hq]
            split_ifs with href
            · exact ends_corner
            rw [show cellOf (w.i - 1) w.j = .ok (w.j * 5 + (w.i - 1)) from if_pos ⟨by omega, by omega⟩]
            simp only
            refine (ih hinv ?_).bind fun _ _ => ends_ok _
            unfold ahead at hn ⊢
            rw [if_neg (not_lt.2 hd.le), if_pos hd] at hn ⊢
            push_cast at hn
            simp only
            omega
          · simp only [if_neg ht]
            split_ifs
            · exact ends_corner
            · exact ends_ok _
    · rw [if_neg h1]
      cases hty : w.ty with
      | none => exfalso; apply h1; rw [hty]; cases w.tx <;> rfl
      | some τ =>
        have htx : ∀ σ, w.tx = some σ → τ < σ := not_xFirst h1 hty
        obtain ⟨axx, axy⟩ := along_add va vb w.t τ
        have hd : va.y < vb.y := by
          rcases g.up.lt_or_eq with hd | hd
          · exact hd
          · rw [hw.tyn hd] at hty; cases hty
        obtain ⟨σ, e, h0, h4⟩ := hw.tyu hd
        rw [hty] at e; cases e
        have hyt : (along va vb (w.t + τ)).y = b.gy (w.j + 1) := by rw [axy, h4]; ring
        have hxle : b.gx w.i ≤ (along va vb (w.t + τ)).x ∧ (along va vb (w.t + τ)).x ≤ b.gx (w.i + 1) := by
          have c1 := hw.cell.lx
          have c2 := hw.cell.hx
          rw [axx]
          rcases lt_trichotomy va.x vb.x with hu | hu | hu
          · obtain ⟨σ, e, _, h5⟩ := hw.txr hu
            have := htx σ e
            constructor <;> nlinarith
          · rw [← hu]; constructor <;> linarith
          · obtain ⟨σ, e, _, h5⟩ := hw.txl hu
            have := htx σ e
            constructor <;> nlinarith
        by_cases ht : w.t + τ < 1
        · simp only [if_pos ht]
          have hj5 : w.j + 1 < 5 := by
            rw [← gy_lt g.dy, ← hyt]
            have : (along va vb (w.t + τ)).y < vb.y := by simp only [along]; nlinarith
            linarith [g.hby]
          have hi0 := hw.hi
          have hj0 := hw.hj.1
          have hinv : Inv b va vb ⟨w.i, w.j + 1, w.tx.map (· - τ), tgcy b va vb, w.t + τ, along va vb (w.t + τ)⟩ :=
            { t0 := by have := hw.t0; simp only; linarith
              t1 := ht
              hi := hw.hi
              hj := ⟨by have := hw.hj.1; simp only; omega, by simp only; omega⟩
              at' := rfl
              cell := { lx := hxle.1
                        hx := hxle.2
                        ly := by simp only; rw [hyt]
                        hy := by simp only; rw [hyt, gy_le g.dy]; omega }
              txn := fun e => by simp only; rw [hw.txn e]; rfl
              txr := fun e => by
                obtain ⟨σ, e1, _, h5⟩ := hw.txr e
                have := htx σ e1
                refine ⟨σ - τ, by simp only [e1, Option.map_some], by linarith, ?_⟩
                simp only; rw [axx]; linarith
              txl := fun e => by
                obtain ⟨σ, e1, _, h5⟩ := hw.txl e
                have := htx σ e1
                refine ⟨σ - τ, by simp only [e1, Option.map_some], by linarith, ?_⟩
                simp only; rw [axx]; linarith
              tyn := fun e => absurd e hd.ne
              tyu := fun _ => by
                refine ⟨b.dy * (1 / (vb.y - va.y)), by simp only [tgcy, if_neg hd.ne], ?_, ?_⟩
                · have := g.dy; have : 0 < vb.y - va.y := by linarith
                  positivity
                · have : vb.y - va.y ≠ 0 := by intro h; linarith
                  simp only; rw [hyt, gy_succ b (w.j + 1)]; field_simp; ring }
          rw [show line b.gy (w.j + 1) = .ok (b.gy (w.j + 1)) from if_pos ⟨by omega, by omega⟩]
          simp only [Res.bind]
          have hq : (⟨(w.t + τ) * (vb.x - va.x) + va.x, b.gy (w.j + 1)⟩ : Pt) = along va vb (w.t + τ) := by
            have : (w.t + τ) * (vb.x - va.x) + va.x = (along va vb (w.t + τ)).x := by simp only [along]; ring
            rw [this, ← hyt]
          rw [hq]
          split_ifs with href
          · exact ends_corner
          rw [show cellOf w.i (w.j + 1) = .ok ((w.j + 1) * 5 + w.i) from if_pos ⟨by omega, by omega⟩]
          simp only
          refine (ih hinv ?_).bind fun _ _ => ends_ok _
          unfold ahead at hn ⊢
          push_cast at hn
          simp only
          split_ifs at hn ⊢ <;> omega
        · simp only [if_neg ht]
          split_ifs
          · exact ends_corner
          · exact ends_ok _

/-- An edge in general position leaves something in the grid or is refused. -/
theorem edge_ends {b : Box} {e : Pt × Pt} (hu : GoodPt b e.1) (hv : GoodPt b e.2) (h1 : 0 < b.dx) (h2 : 0 < b.dy) : Ends (edgeEvents b e) := by
  unfold edgeEvents
  simp only
  have ho : GoodPt b (ordered e.1 e.2).1 ∧ GoodPt b (ordered e.1 e.2).2 ∧ (ordered e.1 e.2).1.y ≤ (ordered e.1 e.2).2.y := by
    unfold ordered
    split_ifs with h
    · exact ⟨hu, hv, h.le⟩
    · exact ⟨hv, hu, not_lt.1 h⟩
  generalize (ordered e.1 e.2).1 = va at *
  generalize (ordered e.1 e.2).2 = vb at *
  obtain ⟨ha, hb, hy⟩ := ho
  split_ifs with hne
  · exact ends_ok _
  have g := ha.edge hb h1 h2 hy hne
  have e0 : b.gx 0 = b.lo.x := by rw [gx_eq]; simp
  have e1 : b.gy 0 = b.lo.y := by rw [gy_eq]; simp
  rw [cellIndex_ok h1 (by rw [← e0]; exact ha.lx.le), cellIndex_ok h2 (by rw [← e1]; exact ha.ly.le)]
  simp only [Res.bind]
  have inv := start_inv g
  have i1 := inv.hi
  have j1 := inv.hj
  simp only [start] at i1 j1
  rw [show cellOf ⌊(va.x - b.lo.x) / b.dx⌋ ⌊(va.y - b.lo.y) / b.dy⌋ = .ok (⌊(va.y - b.lo.y) / b.dy⌋ * 5 + ⌊(va.x - b.lo.x) / b.dx⌋) from
    if_pos ⟨by omega, by omega⟩]
  refine walk_ends g inv ?_
  unfold ahead
  simp only [start]
  split_ifs <;> push_cast <;> omega

/-- In general position an attempt at the grid neither throws nor is undefined, and every walk ends. -/
theorem attempt_ends {b : Box} {es : List (Pt × Pt)} (h1 : 0 < b.dx) (h2 : 0 < b.dy) (hg : ∀ e ∈ es, GoodPt b e.1 ∧ GoodPt b e.2) : Ends (allEvents b es) := by
  induction es with
  | nil => exact ends_ok _
  | cons e es ih =>
      rw [allEvents]
      obtain ⟨hu, hv⟩ := hg e (by simp)
      exact (edge_ends hu hv h1 h2).bind fun _ _ => (ih fun e he => hg e (by simp [he])).bind fun _ _ => ends_ok _

end Verif.Grid
