import Verif.Dpss.SteerProps

/-!
# The point of the road a searching vehicle looks at (C168)
-/

namespace Verif.Dpss

open Complex
open Verif.Escort (closestPoint distTo along C143_closest)
open Verif.Stare (len len_nil len_single len_cons len_nonneg len_take_mono len_take_le len_take_succ along_zero along_step along_lip' along_corner along_between)

theorem cum_cons (p q : ℂ) (l : List ℂ) (i : ℕ) : cum (p :: q :: l) (i + 1) = ‖q - p‖ + cum (q :: l) i := by
  unfold cum
  rw [List.take_succ_cons, List.take_succ_cons, len_cons]

theorem cum_succ (R : List ℂ) {i : ℕ} (h : i + 1 < R.length) : cum R (i + 1) = cum R i + ‖R.getD (i + 1) 0 - R.getD i 0‖ := by
  unfold cum
  have e1 : R.getD (i + 1) 0 = R[i + 1] := by rw [List.getD_eq_getElem?_getD, List.getElem?_eq_getElem h]; rfl
  have e2 : R.getD i 0 = R[i] := by rw [List.getD_eq_getElem?_getD, List.getElem?_eq_getElem (by omega)]; rfl
  rw [len_take_succ R i h, e1, e2]

/-! ### The distances aimed at -/

theorem targets_spec (total L : ℝ) : ∀ (l : List ℂ) (c : ℝ) (p : ℂ), (targets total L c p l).length = l.length - 1 ∧
    ∀ i, i + 1 < l.length → (targets total L c p l)[i]? = some ((c + cum (p :: l) (i + 1)) / total * L)
  | [], _, _ => by simp [targets]
  | [_], _, _ => by simp [targets]
  | q :: x :: l, c, p => by
      obtain ⟨h1, h2⟩ := targets_spec total L (x :: l) (c + ‖q - p‖) q
      rw [targets]
      refine ⟨by simp [h1], ?_⟩
      intro i hi
      cases i with
      | zero =>
          rw [List.getElem?_cons_zero, cum_cons, cum_zero, add_zero]
      | succ i =>
          rw [List.getElem?_cons_succ, h2 i (by simp only [List.length_cons] at hi ⊢; omega), cum_cons p, ← add_assoc]

theorem targets_sorted {total L : ℝ} (ht : 0 < total) (hL : 0 ≤ L) : ∀ (l : List ℂ) (c : ℝ) (p : ℂ), 
    (targets total L c p l).Pairwise (· ≤ ·) ∧ ∀ t ∈ targets total L c p l, c / total * L ≤ t ∧ t ≤ (c + len (p :: l)) / total * L
  | [], _, _ => by simp [targets]
  | [_], _, _ => by simp [targets]
  | q :: x :: l, c, p => by
      obtain ⟨h1, h2⟩ := targets_sorted ht hL (x :: l) (c + ‖q - p‖) q
      have hn := norm_nonneg (q - p)
      have hl := len_nonneg (q :: x :: l)
      rw [targets, len_cons]
      refine ⟨List.pairwise_cons.2 ⟨fun t h => (h2 t h).1, h1⟩, ?_⟩
      intro t h
      rcases List.mem_cons.1 h with rfl | h
      · constructor <;> gcongr <;> linarith
      · obtain ⟨g1, g2⟩ := h2 t h
        refine ⟨le_trans ?_ g1, le_trans g2 (le_of_eq ?_)⟩
        · gcongr; linarith
        · ring

/-! ### The road in parts of its length -/

theorem lengthsFrom_spec (L : ℝ) : ∀ (l : List ℂ) (c : ℝ) (p : ℂ), l ≠ [] → c + len (p :: l) / L = 1 →
    (lengthsFrom L c p l).length = l.length ∧
    ∀ i, i < l.length → (lengthsFrom L c p l)[i]? = some (c + cum (p :: l) (i + 1) / L)
  | [], _, _, h, _ => absurd rfl h
  | [q], c, p, _, h => by
      refine ⟨rfl, ?_⟩
      intro i hi
      obtain rfl : i = 0 := by simpa using hi
      rw [cum_last (by simp), h]; rfl
  | q :: x :: l, c, p, _, h => by
      rw [len_cons] at h
      obtain ⟨h1, h2⟩ := lengthsFrom_spec L (x :: l) (c + ‖q - p‖ / L) q (by simp) (by rw [← h]; ring)
      rw [lengthsFrom]
      refine ⟨by simp [h1], ?_⟩
      intro i hi
      cases i with
      | zero => rw [List.getElem?_cons_zero, cum_cons, cum_zero, add_zero]
      | succ i =>
          rw [List.getElem?_cons_succ, h2 i (by simpa using hi), cum_cons p]
          congr 1; ring

theorem lengths_spec {R : List ℂ} (hR : 2 ≤ R.length) (hL : 0 < len R) :
    (lengths (len R) R).length = R.length ∧ ∀ i, i < R.length → (lengths (len R) R).getD i 0 = cum R i / len R := by
  match R, hR with
  | p :: q :: l, _ =>
      obtain ⟨h1, h2⟩ := lengthsFrom_spec (len (p :: q :: l)) (q :: l) 0 p (by simp) (by rw [zero_add, div_self hL.ne'])
      rw [lengths]
      refine ⟨by simp [h1], ?_⟩
      intro i hi
      cases i with
      | zero => simp
      | succ i =>
          rw [List.getD_cons_succ, List.getD_eq_getElem?_getD, h2 i (by simpa using hi)]
          simp

theorem locateFrom_spec {norm : List ℝ} {R : List ℂ} {L : ℝ} (hL : 0 < L) (hn : ∀ i, i < R.length → norm.getD i 0 = cum R i / L) :
    ∀ (n k : ℕ) (d : ℝ), 0 ≤ d → k + n < R.length → |locateFrom norm R n k d * L - min (cum R k + d) (cum R (k + n))| ≤ 1e-6 ∧
      cum R k ≤ locateFrom norm R n k d * L ∧ locateFrom norm R n k d * L ≤ cum R (k + n)
  | 0, k, d, hd, hk => by
      rw [locateFrom, hn k (by omega), add_zero, min_eq_right (by linarith), div_mul_cancel₀ _ hL.ne', sub_self]
      exact ⟨by norm_num, le_refl _, le_refl _⟩
  | n + 1, k, d, hd, hk => by
      have hs := cum_succ R (show k + 1 < R.length by omega)
      rw [locateFrom]
      set s := ‖R.getD (k + 1) 0 - R.getD k 0‖ with hsdef
      by_cases h : s < d
      · rw [if_pos h]
        have := locateFrom_spec hL hn n (k + 1) (d - s) (by linarith) (by omega)
        rw [hs, show cum R k + s + (d - s) = cum R k + d by ring, show k + 1 + n = k + (n + 1) by omega] at this
        have hs0 : 0 ≤ s := norm_nonneg _
        exact ⟨this.1, by linarith [this.2.1], this.2.2⟩
      · rw [if_neg h]
        rw [not_lt] at h
        have hmo := cum_mono R (show k + 1 ≤ k + (n + 1) by omega)
        have hm : min (cum R k + d) (cum R (k + (n + 1))) = cum R k + d := by
          apply min_eq_left
          have := cum_mono R (show k + 1 ≤ k + (n + 1) by omega)
          linarith
        rw [hm, hn k (by omega)]
        by_cases h6 : 1e-6 < s
        · have hs0 : 0 < s := lt_trans (by norm_num) h6
          rw [if_pos h6, hn (k + 1) (by omega), hs]
          have : (cum R k / L + d / s * ((cum R k + s) / L - cum R k / L)) * L = cum R k + d := by
            field_simp; ring
          rw [this, sub_self]
          exact ⟨by norm_num, by linarith, by linarith⟩
        · rw [if_neg h6, div_mul_cancel₀ _ hL.ne']
          rw [not_lt] at h6
          rw [show cum R k - (cum R k + d) = -d by ring, abs_neg, abs_of_nonneg hd]
          exact ⟨by linarith, le_refl _, cum_mono R (by omega)⟩

theorem roadFrom_spec {x L : ℝ} (hL : 0 < L) : ∀ (pts : List ℂ) (ns : List ℝ) (c : ℝ) (p : ℂ), ns.length = pts.length → pts ≠ [] →
    (∀ i, i < pts.length → ns[i]? = some (c + cum (p :: pts) (i + 1) / L)) → c ≤ x → x ≤ c + len (p :: pts) / L →
    ‖roadFrom x c p (ns.zip pts) - along (p :: pts) ((x - c) * L)‖ ≤ 1e-6 * L
  | [], _, _, _, _, h, _, _, _ => absurd rfl h
  | q :: pts, [], _, _, h, _, _, _, _ => by simp at h
  | q :: pts, n :: ns, c, p, hlen, _, hns, hc, hx => by
      have hq := norm_nonneg (q - p)
      have hn : n = c + ‖q - p‖ / L := by
        have := hns 0 (by simp)
        rw [cum_cons, cum_zero, add_zero] at this
        simpa using this
      rw [List.zip_cons_cons, roadFrom]
      by_cases h : x ≤ n
      · have hle : (x - c) * L ≤ ‖q - p‖ := by
          rw [hn] at h
          have : x - c ≤ ‖q - p‖ / L := by linarith
          rwa [le_div_iff₀ hL] at this
        rw [if_pos h, along, if_pos hle]
        by_cases h6 : 1e-6 < n - c
        · have h0 : 0 < n - c := lt_trans (by norm_num) h6
          have hp : 0 < ‖q - p‖ := by
            rw [hn, add_sub_cancel_left] at h0
            by_contra h'
            have : ‖q - p‖ = 0 := le_antisymm (not_lt.1 h') hq
            rw [this] at h0; simp at h0
          rw [if_pos h6]
          have e : (x - c) / (n - c) = (x - c) * L / ‖q - p‖ := by
            rw [hn, add_sub_cancel_left]; field_simp
          rw [e, mul_comm (q - p), sub_self, norm_zero]
          positivity
        · rw [if_neg h6]
          rw [not_lt] at h6
          have hxn : (x - c) * L ≤ 1e-6 * L := by
            apply mul_le_mul_of_nonneg_right _ hL.le
            linarith
          rw [sub_add_cancel_left, norm_neg, norm_mul, norm_real, Real.norm_eq_abs,
            abs_of_nonneg (div_nonneg (mul_nonneg (by linarith) hL.le) hq)]
          refine le_trans ?_ hxn
          rcases hq.eq_or_lt with h' | h'
          · rw [← h', mul_zero]; exact mul_nonneg (by linarith) hL.le
          · rw [div_mul_cancel₀ _ h'.ne']
      · rw [if_neg h]
        rw [not_le] at h
        rw [len_cons] at hx
        have hle : ‖q - p‖ ≤ (x - c) * L := by
          have : ‖q - p‖ / L ≤ x - c := by rw [hn] at h; linarith
          rwa [div_le_iff₀ hL] at this
        have hne : pts ≠ [] := by
          rintro rfl
          rw [len_single, add_zero] at hx
          rw [hn] at h; linarith
        have := roadFrom_spec (x := x) hL pts ns n q (by simpa using hlen) hne (by
          intro i hi
          have := hns (i + 1) (by simpa using hi)
          rw [List.getElem?_cons_succ] at this
          rw [this, cum_cons, hn]
          congr 1; ring) h.le (by rw [hn]; refine le_trans hx (le_of_eq ?_); ring)
        rw [along_step p q pts hle]
        have e : (x - c) * L - ‖q - p‖ = (x - n) * L := by rw [hn]; field_simp; ring
        rw [e]; exact this

/-! ### The nearest segment -/

/-- The distance to the segment that ends at the waypoint `k`, as it is computed. -/
noncomputable def segDist (pos : ℂ) (W : List ℂ) (k : ℕ) : ℝ :=
  if k = 1 then distTo (W.getD 0 0) (W.getD 1 0) pos else distTo (W.getD k 0) (W.getD (k - 1) 0) pos

theorem nearestFrom_spec (pos : ℂ) (W : List ℂ) : ∀ (l : List ℂ) (k best : ℕ) (p : ℂ), 2 ≤ k → W.drop (k - 1) = p :: l → 1 ≤ best →
    best < k → (∀ j, 1 ≤ j → j < k → segDist pos W best ≤ segDist pos W j) → (∀ j, 1 ≤ j → j < best → segDist pos W best < segDist pos W j) →
    let r := nearestFrom pos k best (segDist pos W best) p l
    1 ≤ r ∧ r < W.length ∧ (∀ j, 1 ≤ j → j < W.length → segDist pos W r ≤ segDist pos W j) ∧
      ∀ j, 1 ≤ j → j < r → segDist pos W r < segDist pos W j
  | [], k, best, p, hk, hW, hb1, hb2, hmin, hfirst => by
      have hlen : W.length = k := by
        have := congrArg List.length hW
        simp only [List.length_drop, List.length_singleton] at this
        omega
      rw [nearestFrom]
      refine ⟨hb1, by omega, fun j hj1 hj2 => hmin j hj1 (by omega), hfirst⟩
  | x :: l, k, best, p, hk, hW, hb1, hb2, hmin, hfirst => by
      have hlen := congrArg List.length hW
      simp only [List.length_drop, List.length_cons] at hlen
      have hp : W.getD (k - 1) 0 = p := by
        have := congrArg (fun l => l.getD 0 0) hW
        simpa [List.getD_eq_getElem?_getD] using this
      have hx : W.getD k 0 = x := by
        have := congrArg (fun l => l.getD 1 0) hW
        simp only [List.getD_eq_getElem?_getD, List.getElem?_drop] at this
        rw [show k - 1 + 1 = k by omega] at this
        simpa [List.getD_eq_getElem?_getD] using this
      have hd : W.drop (k + 1 - 1) = x :: l := by
        have := congrArg List.tail hW
        rw [List.tail_drop] at this
        rw [show k + 1 - 1 = k - 1 + 1 by omega]
        simpa using this
      have hsd : distTo x p pos = segDist pos W k := by
        unfold segDist
        rw [if_neg (by omega), hp, hx]
      rw [nearestFrom, hsd]
      by_cases h : segDist pos W k < segDist pos W best
      · rw [if_pos h]
        refine nearestFrom_spec pos W l (k + 1) k x (by omega) hd (by omega) (by omega) ?_ ?_
        · intro j hj1 hj2
          rcases Nat.lt_or_ge j k with hj | hj
          · exact h.le.trans (hmin j hj1 hj)
          · obtain rfl : j = k := by omega
            exact le_refl _
        · intro j hj1 hj2
          exact lt_of_lt_of_le h (hmin j hj1 hj2)
      · rw [if_neg h]
        rw [not_lt] at h
        refine nearestFrom_spec pos W l (k + 1) best x (by omega) hd hb1 (by omega) ?_ hfirst
        intro j hj1 hj2
        rcases Nat.lt_or_ge j k with hj | hj
        · exact hmin j hj1 hj
        · obtain rfl : j = k := by omega
          exact h

theorem nearest_spec (pos : ℂ) {W : List ℂ} (hW : 2 ≤ W.length) :
    1 ≤ nearest pos W ∧ nearest pos W < W.length ∧
    (∀ j, 1 ≤ j → j < W.length → segDist pos W (nearest pos W) ≤ segDist pos W j) ∧
      ∀ j, 1 ≤ j → j < nearest pos W → segDist pos W (nearest pos W) < segDist pos W j := by
  match W, hW with
  | a :: b :: l, _ =>
      have := nearestFrom_spec pos (a :: b :: l) l 2 1 b (le_refl _) rfl (le_refl _) (by omega)
        (by intro j h1 h2; obtain rfl : j = 1 := by omega
            exact le_refl _) (by intro j h1 h2; omega)
      exact this

/-! ### What is set -/

theorem along_last : ∀ {l : List ℂ}, l ≠ [] → along l (len l) = l.getLastD 0 := by
  intro l hl
  have h : l.length - 1 < l.length := by have := List.length_pos_of_ne_nil hl; omega
  have := along_corner l (l.length - 1) h
  rw [List.take_of_length_le (by omega)] at this
  rw [this, List.getLastD_eq_getLast?, List.getLast?_eq_getElem?, List.getElem?_eq_getElem h]
  rfl

/-- Each point of a line is in one of its segments. -/
theorem along_seg : ∀ (l : List ℂ) (e : ℝ), 2 ≤ l.length → 0 ≤ e → e ≤ len l →
    ∃ j, 1 ≤ j ∧ j < l.length ∧ ∃ f : ℝ, 0 ≤ f ∧ f ≤ 1 ∧ along l e = l.getD (j - 1) 0 + (f : ℂ) * (l.getD j 0 - l.getD (j - 1) 0)
  | [], _, h, _, _ => by simp at h
  | [_], _, h, _, _ => by simp at h
  | p :: q :: l, e, _, h0, h1 => by
      have hn := norm_nonneg (q - p)
      by_cases h : e ≤ ‖q - p‖
      · refine ⟨1, le_refl _, by simp, e / ‖q - p‖, div_nonneg h0 hn, div_le_one_of_le₀ h hn, ?_⟩
        rw [along, if_pos h]; simp
      · rw [not_le] at h
        rw [len_cons] at h1
        have hl : 2 ≤ (q :: l).length := by
          cases l with
          | nil => rw [len_single] at h1; linarith
          | cons x l => simp
        obtain ⟨j, j1, j2, f, f0, f1, hj⟩ := along_seg (q :: l) (e - ‖q - p‖) hl (by linarith) (by linarith)
        refine ⟨j + 1, by omega, by simpa using j2, f, f0, f1, ?_⟩
        rw [along_step p q l h.le, hj]
        obtain ⟨i, rfl⟩ : ∃ i, j = i + 1 := ⟨j - 1, by omega⟩
        simp

theorem len_pos_two {l : List ℂ} (h : len l ≠ 0) : 2 ≤ l.length := by
  match l with
  | [] => simp at h
  | [_] => simp at h
  | _ :: _ :: _ => simp

/-- What `SetObjective` leaves behind, without the functions that compute it. -/
structure Ready (road W : List ℂ) (o : Objective) : Prop where
  plan : o.plan = W
  wlen : 2 ≤ W.length
  wpos : 0 < len W
  rlen : 2 ≤ o.road.length
  rpos : 0 < len road
  len_eq : len o.road = len road
  same : ∀ d, 0 ≤ d → along o.road d = along road d
  norm_len : o.norm.length = o.road.length
  norm : ∀ i, i < o.road.length → o.norm.getD i 0 = cum o.road i / len road
  ids_lt : ∀ k, k < W.length → o.ids.getD k 0 < o.road.length
  ids_low : ∀ k, k < W.length → cum W k / len W * len road - 1e-6 ≤ cum o.road (o.ids.getD k 0)
  ids_high : ∀ k, k < W.length → cum o.road (o.ids.getD k 0) ≤ cum W k / len W * len road
  ids_mono : ∀ k, k + 1 < W.length → o.ids.getD k 0 ≤ o.ids.getD (k + 1) 0

theorem setObjective_ready {road W : List ℂ} {o : Objective} (h : setObjective road W = some o) : Ready road W o := by
  unfold setObjective at h
  split at h
  · rename_i r road p W
    simp only [lengthOf_eq] at h
    split at h
    · simp at h
    · rename_i h0
      rw [not_or] at h0
      obtain ⟨hr, hw⟩ := h0
      have rl := len_pos_two hr
      have wl := len_pos_two hw
      have rpos : 0 < len (r :: road) := lt_of_le_of_ne (len_nonneg _) (Ne.symm hr)
      have wpos : 0 < len (p :: W) := lt_of_le_of_ne (len_nonneg _) (Ne.symm hw)
      obtain ⟨t1, t2⟩ := targets_spec (len (p :: W)) (len (r :: road)) W 0 p
      obtain ⟨t3, t4⟩ := targets_sorted wpos rpos.le W 0 p
      set ts := targets (len (p :: W)) (len (r :: road)) 0 p W with hts
      obtain ⟨i1, i2, i3, i4, i5, i6, _⟩ := insertAll_spec ts (r :: road) rl (by
        intro t ht
        have := t4 t ht
        rw [zero_div, zero_mul, zero_add, div_self hw, one_mul] at this
        exact this) t3
      set m := insertAll ts (r :: road) with hm
      obtain ⟨n1, n2⟩ := lengths_spec i2 (by rw [i3]; exact rpos)
      rw [i3] at n1 n2
      simp only [Option.some.injEq] at h
      subst h
      simp only [List.length_cons] at wl
      -- the places of the road, for waypoints other than the first
      have ids0 : (0 :: m.1 ++ [m.2.length - 1]).getD 0 0 = 0 := by simp
      have idsl : ∀ k, k + 1 = W.length → (0 :: m.1 ++ [m.2.length - 1]).getD (k + 1) 0 = m.2.length - 1 := by
        intro k hk
        rw [List.cons_append, List.getD_cons_succ, List.getD_eq_getElem?_getD, List.getElem?_append_right (by omega)]
        rw [show k - m.1.length = 0 by omega]; rfl
      have idsm : ∀ k (hk : k + 1 < W.length), (0 :: m.1 ++ [m.2.length - 1]).getD (k + 1) 0 = m.1[k]'(by omega) := by
        intro k hk
        rw [List.cons_append, List.getD_cons_succ, List.getD_eq_getElem?_getD, List.getElem?_append_left (by omega),
          List.getElem?_eq_getElem (by omega)]; rfl
      have good : ∀ k (hk : k + 1 < W.length), Good m.2 (m.1[k]'(by omega)) (cum (p :: W) (k + 1) / len (p :: W) * len (r :: road)) := by
        intro k hk
        have := i5 k (by omega) (by omega)
        have e := t2 k hk
        rw [List.getElem?_eq_getElem (by omega), Option.some.injEq, zero_add] at e
        rwa [e] at this
      have last : ∀ k, k + 1 = W.length → cum (p :: W) (k + 1) / len (p :: W) * len (r :: road) = len (r :: road) := by
        intro k hk
        rw [cum_last (by simp only [List.length_cons]; omega), div_self hw, one_mul]
      constructor
      · rfl
      · simp only [List.length_cons]; omega
      · exact wpos
      · exact i2
      · exact rpos
      · exact i3
      · exact i4
      · exact n1
      · exact n2
      · intro k hk
        simp only [List.length_cons] at hk
        cases k with
        | zero => show (0 :: m.1 ++ [m.2.length - 1]).getD 0 0 < _; rw [ids0]; show 0 < m.2.length; omega
        | succ k =>
            show (0 :: m.1 ++ [m.2.length - 1]).getD (k + 1) 0 < m.2.length
            rcases Nat.lt_or_ge (k + 1) W.length with h' | h'
            · rw [idsm k h']; have := (good k h').lt; omega
            · rw [idsl k (by omega)]; omega
      · intro k hk
        simp only [List.length_cons] at hk
        cases k with
        | zero =>
            show _ ≤ cum m.2 ((0 :: m.1 ++ [m.2.length - 1]).getD 0 0)
            rw [ids0, cum_zero, cum_zero]; norm_num
        | succ k =>
            show _ ≤ cum m.2 ((0 :: m.1 ++ [m.2.length - 1]).getD (k + 1) 0)
            rcases Nat.lt_or_ge (k + 1) W.length with h' | h'
            · rw [idsm k h']; exact (good k h').low
            · rw [idsl k (by omega), last k (by omega), cum_last (by omega), i3]; norm_num
      · intro k hk
        simp only [List.length_cons] at hk
        cases k with
        | zero =>
            show cum m.2 ((0 :: m.1 ++ [m.2.length - 1]).getD 0 0) ≤ _
            rw [ids0, cum_zero, cum_zero]; norm_num
        | succ k =>
            show cum m.2 ((0 :: m.1 ++ [m.2.length - 1]).getD (k + 1) 0) ≤ _
            rcases Nat.lt_or_ge (k + 1) W.length with h' | h'
            · rw [idsm k h']; exact (good k h').high
            · rw [idsl k (by omega), last k (by omega), cum_last (by omega), i3]
      · intro k hk
        simp only [List.length_cons] at hk
        show (0 :: m.1 ++ [m.2.length - 1]).getD k 0 ≤ (0 :: m.1 ++ [m.2.length - 1]).getD (k + 1) 0
        cases k with
        | zero => rw [ids0]; omega
        | succ k =>
            rw [idsm k (by omega)]
            rcases Nat.lt_or_ge (k + 1 + 1) W.length with h' | h'
            · rw [idsm (k + 1) h']
              exact List.pairwise_iff_getElem.1 i6 k (k + 1) (by omega) (by omega) (by omega)
            · rw [idsl (k + 1) (by omega)]; have := (good k (by omega)).lt; omega
  · simp at h

end Verif.Dpss
