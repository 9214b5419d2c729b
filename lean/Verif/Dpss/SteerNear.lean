import Verif.Dpss.SteerMain

/-!
# The point of the road a searching vehicle looks at: what is proved and what fails (C168)
-/

namespace Verif.Dpss

open Complex
open Verif.Escort (closestPoint distTo along C143_closest dot foot swathSide swathSide_spec intersect_foot)
open Verif.Stare (len len_nil len_single len_cons len_nonneg along_zero along_step along_lip' along_between)

/-- The part of a road between two of its points. -/
theorem len_part {R : List ℂ} : ∀ {m n : ℕ}, m ≤ n → n < R.length → len ((R.drop m).take (n + 1 - m)) = cum R n - cum R m := by
  intro m n h hn
  have e : R.take (n + 1) = R.take m ++ R[m] :: ((R.drop (m + 1)).take (n - m)) := by
    have e1 : R.take (n + 1) = R.take m ++ (R.drop m).take (n + 1 - m) := by
      rw [show n + 1 = m + (n + 1 - m) by omega, List.take_add, show m + (n + 1 - m) - m = n + 1 - m by omega]
    rw [e1, List.drop_eq_getElem_cons (by omega), show n + 1 - m = (n - m) + 1 by omega, List.take_succ_cons]
  have e2 : (R.drop m).take (n + 1 - m) = R[m] :: ((R.drop (m + 1)).take (n - m)) := by
    rw [List.drop_eq_getElem_cons (by omega), show n + 1 - m = (n - m) + 1 by omega, List.take_succ_cons]
  have e3 : R.take (m + 1) = R.take m ++ [R[m]] := by
    rw [List.take_succ_eq_append_getElem]
  unfold cum
  rw [e, len_split, e3, e2]; ring

theorem segDist_le (pos : ℂ) (W : List ℂ) {k : ℕ} (hk : 1 ≤ k) {f : ℝ} (f0 : 0 ≤ f) (f1 : f ≤ 1) :
    segDist pos W k ≤ ‖W.getD (k - 1) 0 + (f : ℂ) * (W.getD k 0 - W.getD (k - 1) 0) - pos‖ + 1e-5 := by
  unfold segDist
  split
  · rename_i h; subst h
    exact (C143_closest _ _ pos).2 f f0 f1
  · have := (C143_closest (W.getD k 0) (W.getD (k - 1) 0) pos).2 (1 - f) (by linarith) (by linarith)
    have e : W.getD k 0 + ((1 - f : ℝ) : ℂ) * (W.getD (k - 1) 0 - W.getD k 0) =
        W.getD (k - 1) 0 + (f : ℂ) * (W.getD k 0 - W.getD (k - 1) 0) := by push_cast; ring
    rwa [e] at this

theorem le_segDist (pos : ℂ) (W : List ℂ) {k : ℕ} (hk : 1 ≤ k) : ∃ f : ℝ, 0 ≤ f ∧ f ≤ 1 ∧
    ‖W.getD (k - 1) 0 + (f : ℂ) * (W.getD k 0 - W.getD (k - 1) 0) - pos‖ ≤ segDist pos W k + 1e-5 := by
  unfold segDist
  split
  · rename_i h; subst h
    obtain ⟨f, f0, f1, hf⟩ := (C143_closest (W.getD (1 - 1) 0) (W.getD 1 0) pos).1
    refine ⟨f, f0, f1, ?_⟩
    have := norm_sub_le_norm_sub_add_norm_sub (W.getD (1 - 1) 0 + (f : ℂ) * (W.getD 1 0 - W.getD (1 - 1) 0)) (closestPoint (W.getD (1 - 1) 0) (W.getD 1 0) pos) pos
    rw [norm_sub_rev] at hf
    unfold distTo
    linarith
  · obtain ⟨f, f0, f1, hf⟩ := (C143_closest (W.getD k 0) (W.getD (k - 1) 0) pos).1
    refine ⟨1 - f, by linarith, by linarith, ?_⟩
    have e : W.getD (k - 1) 0 + ((1 - f : ℝ) : ℂ) * (W.getD k 0 - W.getD (k - 1) 0) =
        W.getD k 0 + (f : ℂ) * (W.getD (k - 1) 0 - W.getD k 0) := by push_cast; ring
    rw [e]
    have := norm_sub_le_norm_sub_add_norm_sub (W.getD k 0 + (f : ℂ) * (W.getD (k - 1) 0 - W.getD k 0)) (closestPoint (W.getD k 0) (W.getD (k - 1) 0) pos) pos
    rw [norm_sub_rev] at hf
    unfold distTo
    linarith

/-- Where on the road the vehicle is taken to be. -/
theorem located_spec {road W : List ℂ} {o : Objective} (r : Ready road W o) (pos : ℂ) :
    0 ≤ located o pos ∧ located o pos ≤ 1 ∧
    ∃ d, 0 ≤ d ∧ d ≤ cum W (nearest pos W) ∧ (∀ e, 0 ≤ e → e ≤ len W → ‖along W d - pos‖ ≤ ‖along W e - pos‖ + 4e-5) ∧
      |located o pos * len road - d / len W * len road| ≤ 2e-6 + 1e-5 * (len road / len W) := by
  obtain ⟨k1, k2, kmin, _⟩ := nearest_spec pos r.wlen
  have hL := r.rpos
  have hW := r.wpos
  unfold located
  rw [r.plan, if_neg (by have := r.wlen; omega)]
  simp only
  set k := nearest pos W with hk
  set a := W.getD (k - 1) 0 with ha
  set b := W.getD k 0 with hb
  set frm := o.ids.getD (k - 1) 0 with hfrm
  set upto := o.ids.getD k 0 with hup
  obtain ⟨⟨l, l0, l1, hl⟩, hcl⟩ := C143_closest a b pos
  set pct := (if 1e-10 < ‖b - a‖ then ‖closestPoint a b pos - a‖ / ‖b - a‖ else 0) with hpct
  have hpct0 : 0 ≤ pct := by rw [hpct]; split <;> positivity
  have hle : frm ≤ upto := by
    have := r.ids_mono (k - 1) (by omega)
    rwa [show k - 1 + 1 = k by omega] at this
  have hult := r.ids_lt k k2
  have hx : (if frm = upto then o.norm.getD frm 0 else
      locateFrom o.norm o.road (upto - frm) frm (pct * lengthOf ((o.road.drop frm).take (upto + 1 - frm)))) =
      locateFrom o.norm o.road (upto - frm) frm (pct * (cum o.road upto - cum o.road frm)) := by
    split
    · rename_i h; rw [h, Nat.sub_self]; rfl
    · rw [lengthOf_eq, len_part hle hult]
  rw [hx]
  have hS : 0 ≤ cum o.road upto - cum o.road frm := by have := cum_mono o.road hle; linarith
  obtain ⟨g1, g2, g3⟩ := locateFrom_spec hL r.norm (upto - frm) frm (pct * (cum o.road upto - cum o.road frm))
    (mul_nonneg hpct0 hS) (by omega)
  rw [show frm + (upto - frm) = upto by omega] at g1 g3
  set x := locateFrom o.norm o.road (upto - frm) frm (pct * (cum o.road upto - cum o.road frm)) with hxdef
  refine ⟨?_, ?_, ?_⟩
  · have := cum_nonneg o.road frm
    by_contra h'
    have := mul_neg_of_neg_of_pos (not_le.1 h') hL
    linarith
  · have := cum_le o.road upto
    rw [r.len_eq] at this
    by_contra h'
    have := mul_lt_mul_of_pos_right (not_le.1 h') hL
    linarith
  · have low1 := r.ids_low (k - 1) (by omega)
    have high1 := r.ids_high (k - 1) (by omega)
    have low2 := r.ids_low k k2
    have high2 := r.ids_high k k2
    rw [← hfrm] at low1 high1
    rw [← hup] at low2 high2
    have hc : cum W k = cum W (k - 1) + ‖b - a‖ := by
      have := cum_succ W (show k - 1 + 1 < W.length by omega)
      rw [show k - 1 + 1 = k by omega] at this
      exact this
    have hba := norm_nonneg (b - a)
    refine ⟨cum W (k - 1) + l * ‖b - a‖, by have := cum_nonneg W (k - 1); positivity, ?_, ?_, ?_⟩
    · rw [hc]; nlinarith
    · intro e e0 e1
      have hp : along W (cum W (k - 1) + l * ‖b - a‖) = a + (l : ℂ) * (b - a) := by
        have := along_between W (k - 1) (by omega) l l0 l1
        have e1 : W[k - 1 + 1]'(by omega) = b := by
          rw [hb, List.getD_eq_getElem?_getD, List.getElem?_eq_getElem k2]
          simp only [show k - 1 + 1 = k by omega]; rfl
        have e2 : W[k - 1]'(by omega) = a := by
          rw [ha, List.getD_eq_getElem?_getD, List.getElem?_eq_getElem (by omega)]; rfl
        rw [e1, e2] at this
        exact this
      rw [hp]
      obtain ⟨j, j1, j2, f, f0, f1, hj⟩ := along_seg W e r.wlen e0 e1
      rw [hj]
      have s1 := segDist_le pos W j1 f0 f1
      have s2 := kmin j j1 j2
      obtain ⟨f', f0', f1', s3⟩ := le_segDist pos W k1
      rw [← ha, ← hb] at s3
      have s4 := hcl f' f0' f1'
      have s5 := norm_sub_le_norm_sub_add_norm_sub (a + (l : ℂ) * (b - a)) (closestPoint a b pos) pos
      rw [norm_sub_rev (a + (l : ℂ) * (b - a)) (closestPoint a b pos)] at s5
      unfold distTo at s4
      linarith
    · -- the share of the segment
      have hd1 : ‖closestPoint a b pos - a‖ ≤ l * ‖b - a‖ + 1e-5 ∧ l * ‖b - a‖ - 1e-5 ≤ ‖closestPoint a b pos - a‖ := by
        have e : ‖(l : ℂ) * (b - a)‖ = l * ‖b - a‖ := by rw [norm_mul, norm_real, Real.norm_eq_abs, abs_of_nonneg l0]
        have e' : closestPoint a b pos - (a + (l : ℂ) * (b - a)) = (closestPoint a b pos - a) - (l : ℂ) * (b - a) := by ring
        rw [e'] at hl
        have h1 := norm_sub_norm_le (closestPoint a b pos - a) ((l : ℂ) * (b - a))
        have h2 := norm_sub_norm_le ((l : ℂ) * (b - a)) (closestPoint a b pos - a)
        rw [norm_sub_rev ((l : ℂ) * (b - a))] at h2
        rw [e] at h1 h2
        constructor <;> linarith
      obtain ⟨m, hm0, hm1, hmd, hmin⟩ : ∃ m : ℝ, 0 ≤ m ∧ m ≤ 1 ∧ |m - l| * ‖b - a‖ ≤ 1e-5 ∧
          min (cum o.road frm + pct * (cum o.road upto - cum o.road frm)) (cum o.road upto) =
            cum o.road frm + m * (cum o.road upto - cum o.road frm) := by
        refine ⟨min pct 1, le_min hpct0 (by norm_num), min_le_right _ _, ?_, ?_⟩
        · by_cases hs : 1e-10 < ‖b - a‖
          · have hs0 : 0 < ‖b - a‖ := lt_trans (by norm_num) hs
            have hpe : pct * ‖b - a‖ = ‖closestPoint a b pos - a‖ := by
              rw [hpct, if_pos hs, div_mul_cancel₀ _ hs0.ne']
            rw [← hpe] at hd1
            have e : |min pct 1 - l| * ‖b - a‖ = |(min pct 1 - l) * ‖b - a‖| := by rw [abs_mul, abs_of_nonneg hba]
            rw [e, sub_mul, abs_le]
            rcases le_total pct 1 with h | h
            · rw [min_eq_left h]; constructor <;> linarith
            · rw [min_eq_right h]
              have : 1 * ‖b - a‖ ≤ pct * ‖b - a‖ := mul_le_mul_of_nonneg_right h hba
              have : l * ‖b - a‖ ≤ 1 * ‖b - a‖ := mul_le_mul_of_nonneg_right l1 hba
              constructor <;> linarith
          · have : |min pct 1 - l| ≤ 1 := by
              rw [abs_le]
              have h1 := min_le_right pct 1
              have h2 : 0 ≤ min pct 1 := le_min hpct0 (by norm_num)
              constructor <;> linarith
            rw [not_lt] at hs
            calc |min pct 1 - l| * ‖b - a‖ ≤ 1 * 1e-10 := mul_le_mul this hs hba (by norm_num)
              _ ≤ 1e-5 := by norm_num
        · rcases le_total pct 1 with h | h
          · rw [min_eq_left h, min_eq_left]
            nlinarith
          · rw [min_eq_right h, min_eq_right]
            · ring
            · nlinarith
      rw [hmin] at g1
      have hq : 0 < len road / len W := div_pos hL hW
      have et : ∀ y : ℝ, y / len W * len road = y * (len road / len W) := fun y => by ring
      rw [et] at low1 high1 low2 high2 ⊢
      set Q := len road / len W with hQ
      rw [hc] at low2 high2
      have ed : (m - l) * ‖b - a‖ ≤ 1e-5 ∧ -1e-5 ≤ (m - l) * ‖b - a‖ := by
        have : |(m - l) * ‖b - a‖| ≤ 1e-5 := by rwa [abs_mul, abs_of_nonneg hba]
        rw [abs_le] at this
        exact ⟨this.2, this.1⟩
      have ed1 : (m - l) * ‖b - a‖ * Q ≤ 1e-5 * Q := mul_le_mul_of_nonneg_right ed.1 hq.le
      have ed2 : -1e-5 * Q ≤ (m - l) * ‖b - a‖ * Q := mul_le_mul_of_nonneg_right ed.2 hq.le
      set u := cum o.road frm
      set v := cum o.road upto
      set c := cum W (k - 1)
      set s := ‖b - a‖
      -- the errors at the two ends
      have hu : (1 - m) * (c * Q - 1e-6) ≤ (1 - m) * u ∧ (1 - m) * u ≤ (1 - m) * (c * Q) :=
        ⟨mul_le_mul_of_nonneg_left low1 (by linarith), mul_le_mul_of_nonneg_left high1 (by linarith)⟩
      have hv : m * ((c + s) * Q - 1e-6) ≤ m * v ∧ m * v ≤ m * ((c + s) * Q) :=
        ⟨mul_le_mul_of_nonneg_left low2 hm0, mul_le_mul_of_nonneg_left high2 hm0⟩
      rw [abs_le] at g1 ⊢
      constructor <;> nlinarith

/-- The point for a place on the road. -/
theorem starePoint_spec {road W : List ℂ} {o : Objective} (r : Ready road W o) (pos : ℂ) :
    ‖starePoint o pos - along road (located o pos * len road)‖ ≤ 1e-6 * len road := by
  obtain ⟨h0, h1, _⟩ := located_spec r pos
  have hL := r.rpos
  have hne : o.road ≠ [] := by intro h; have := r.rlen; rw [h] at this; simp at this
  unfold starePoint
  simp only
  set x := located o pos with hx
  rw [if_neg (not_lt.2 h0)]
  by_cases e1 : x = 1
  · rw [if_pos e1, e1, one_mul, ← r.same _ hL.le, ← r.len_eq, along_last hne, sub_self, norm_zero]
    have := len_nonneg o.road; positivity
  · rw [if_neg e1]
    by_cases e0 : x = 0
    · rw [if_pos e0, e0, zero_mul, ← r.same _ (le_refl _)]
      match hR : o.road, hne with
      | p :: R, _ => rw [along_zero]; simp; positivity
    · rw [if_neg e0]
      unfold roadAt
      have h0' : 0 < x := lt_of_le_of_ne h0 (Ne.symm e0)
      have h1' : x < 1 := lt_of_le_of_ne h1 e1
      rw [if_neg (not_le.2 h0'), if_neg (not_le.2 h1'), ← r.same _ (by positivity)]
      have hn := r.norm
      have hnl := r.norm_len
      have hrl := r.rlen
      have hle := r.len_eq
      match hR : o.road, hN : o.norm with
      | [], _ => exact absurd hR hne
      | [_], _ => rw [hR] at hrl; simp at hrl
      | _ :: _ :: _, [] => rw [hR, hN] at hnl; simp at hnl
      | p :: q :: R, n :: ns =>
          rw [hR, hN] at hnl
          rw [hR] at hrl hle
          rw [hR, hN] at hn
          have n0 : n = 0 := by
            have := hn 0 (by simp)
            rw [cum_zero, zero_div] at this
            simpa using this
          have := roadFrom_spec (x := x) hL (q :: R) ns n p (by simpa using hnl) (by simp) (by
            intro i hi
            have hi' : i < ns.length := by
              have : ns.length = (q :: R).length := by simpa using hnl
              omega
            have := hn (i + 1) (by simpa using hi)
            rw [List.getD_cons_succ, List.getD_eq_getElem?_getD, List.getElem?_eq_getElem hi'] at this
            rw [List.getElem?_eq_getElem hi', n0, zero_add]
            congr 1) (by rw [n0]; exact h0) (by rw [n0, hle, div_self hL.ne', zero_add]; exact h1)
          rw [n0, sub_zero] at this
          rw [n0]
          exact this

/-- **C168.**  A vehicle that searches a line looks at the point of the line that is at the same share of its length as, on the
route, the point of the route that is nearest to the vehicle, to within 2 micrometres, a millionth of the length of the line and
0.01 mm scaled from the route to the line.  Only for routes in one direction. -/
theorem C168_share_partial {road plan : List ℂ} {o : Objective} (h : setObjective road plan = some o) (pos : ℂ) :
    ∃ d, 0 ≤ d ∧ d ≤ len plan ∧ (∀ e, 0 ≤ e → e ≤ len plan → ‖along plan d - pos‖ ≤ ‖along plan e - pos‖ + 4e-5) ∧
      ‖starePoint o pos - along road (d / len plan * len road)‖ ≤ 2e-6 + 1e-5 * (len road / len plan) + 1e-6 * len road := by
  have r := setObjective_ready h
  obtain ⟨h0, h1, d, d0, d1, hd, hx⟩ := located_spec r pos
  refine ⟨d, d0, d1.trans (cum_le _ _), hd, ?_⟩
  have hL := r.rpos
  have hW := r.wpos
  have s := starePoint_spec r pos
  have t := along_lip' road (d := d / len plan * len road) (e := located o pos * len road) (by positivity) (by positivity)
  have u := norm_sub_le_norm_sub_add_norm_sub (starePoint o pos) (along road (located o pos * len road)) (along road (d / len plan * len road))
  linarith

/-- **C168.**  There is something to look at as soon as the line and the route have a length. -/
theorem C168_set {road plan : List ℂ} (hr : 0 < len road) (hp : 0 < len plan) : ∃ o, setObjective road plan = some o := by
  match road, plan with
  | [], _ => simp at hr
  | _ :: _, [] => simp at hp
  | r :: road, p :: plan =>
      unfold setObjective
      simp only [lengthOf_eq]
      rw [if_neg (by rw [not_or]; exact ⟨hr.ne', hp.ne'⟩)]
      exact ⟨_, rfl⟩

/-! ### A route that passes a place twice -/

/-- A line that goes out and comes back at 200 m. -/
def hairpin : List ℂ := [0, 1000, 1000 + 200 * I, 200 * I]

/-- A route half way between. -/
def middle : List ℂ := [100 * I, 1000 + 100 * I, 100 * I]

theorem norm_of_re {z : ℂ} (r : ℝ) (h : 0 ≤ r) (hz : z = (r : ℂ)) : ‖z‖ = r := by
  rw [hz, norm_real, Real.norm_eq_abs, abs_of_nonneg h]

theorem norm_of_neg {z : ℂ} (r : ℝ) (h : 0 ≤ r) (hz : z = -(r : ℂ)) : ‖z‖ = r := by
  rw [hz, norm_neg, norm_real, Real.norm_eq_abs, abs_of_nonneg h]

theorem norm_of_im {z : ℂ} (r : ℝ) (h : 0 ≤ r) (hz : z = (r : ℂ) * I) : ‖z‖ = r := by
  rw [hz, norm_mul, norm_I, mul_one, norm_real, Real.norm_eq_abs, abs_of_nonneg h]

theorem hairpin_norms : ‖(1000 : ℂ) - 0‖ = 1000 ∧ ‖(1000 : ℂ) + 200 * I - 1000‖ = 200 ∧ ‖200 * I - (1000 + 200 * I)‖ = 1000 :=
  ⟨norm_of_re 1000 (by norm_num) (by norm_num), norm_of_im 200 (by norm_num) (by push_cast; ring),
    norm_of_neg 1000 (by norm_num) (by push_cast; ring)⟩

theorem middle_norms : ‖(1000 : ℂ) + 100 * I - 100 * I‖ = 1000 ∧ ‖100 * I - (1000 + 100 * I)‖ = 1000 :=
  ⟨norm_of_re 1000 (by norm_num) (by push_cast; ring), norm_of_neg 1000 (by norm_num) (by push_cast; ring)⟩

theorem hairpin_len : len hairpin = 2200 := by
  obtain ⟨h1, h2, h3⟩ := hairpin_norms
  unfold hairpin
  rw [len_cons, len_cons, len_cons, len_single, h1, h2, h3]; norm_num

theorem middle_len : len middle = 2000 := by
  obtain ⟨h1, h2⟩ := middle_norms
  unfold middle
  rw [len_cons, len_cons, len_single, h1, h2]; norm_num

/-- **C168, what fails.**  The place on the route is looked for among all of it, and the first of the nearest ones is taken.  A line
goes out and comes back 200 m beside; a route between the two, of the same shape.  On the way back, after 1500 m of 2000, the vehicle
should look at the line after three quarters of it, and looks at a point that is more than 199 m away, on the way out. -/
theorem C168_twice_violated : ∃ (road plan : List ℂ) (o : Objective) (d : ℝ), setObjective road plan = some o ∧ 0 ≤ d ∧
    d ≤ len plan ∧ 199 ≤ ‖starePoint o (along plan d) - along road (d / len plan * len road)‖ := by
  obtain ⟨h1, h2, h3⟩ := hairpin_norms
  obtain ⟨m1, m2⟩ := middle_norms
  obtain ⟨o, ho⟩ := C168_set (road := hairpin) (plan := middle) (by rw [hairpin_len]; norm_num) (by rw [middle_len]; norm_num)
  refine ⟨hairpin, middle, o, 1500, ho, by norm_num, by rw [middle_len]; norm_num, ?_⟩
  have r := setObjective_ready ho
  -- where the vehicle is
  have hp : along middle 1500 = 500 + 100 * I := by
    unfold middle
    rw [along_step _ _ _ (by rw [m1]; norm_num), m1, along, if_pos (by rw [m2]; norm_num), m2]
    push_cast; ring
  -- where it should look
  have hw : along hairpin (1500 / len middle * len hairpin) = 550 + 200 * I := by
    rw [middle_len, hairpin_len]
    unfold hairpin
    rw [along_step _ _ _ (by rw [h1]; norm_num), h1, along_step _ _ _ (by rw [h2]; norm_num), h2, along,
      if_pos (by rw [h3]; norm_num), h3]
    push_cast; ring
  rw [hp, hw]
  set pos : ℂ := 500 + 100 * I with hpos
  -- the first segment is taken
  obtain ⟨k1, k2, kmin, kfirst⟩ := nearest_spec pos (W := middle) (by unfold middle; simp)
  have hz : segDist pos middle 1 = 0 := by
    have e1 : segDist pos middle 1 = distTo (100 * I) (1000 + 100 * I) pos := rfl
    have e2 : foot (100 * I) (1000 + 100 * I) pos = pos := by
      have e0 : dot (1000 + 100 * I - 100 * I) (pos - 100 * I) = 500000 := by unfold dot; simp [hpos]; norm_num
      unfold foot
      rw [m1, e0, hpos]
      push_cast; ring
    have e3 : swathSide (100 * I) (1000 + 100 * I) pos = 0 := by
      rw [swathSide_spec, if_neg, if_pos]
      · unfold dot; simp [hpos]; norm_num
      · unfold dot; simp [hpos]; norm_num
    rw [e1]
    unfold distTo closestPoint
    rw [intersect_foot, if_neg (by rw [m1]; norm_num)]
    simp only [e2, e3]
    simp
  have hk : nearest pos middle = 1 := by
    by_contra h
    have := kfirst 1 (le_refl _) (by omega)
    rw [hz] at this
    have h' : 0 ≤ segDist pos middle (nearest pos middle) := by unfold segDist distTo; split <;> positivity
    linarith
  obtain ⟨h0, h1', d, d0, d1, hd, hx⟩ := located_spec r pos
  rw [hk] at d1
  have d1' : d ≤ 1000 := by
    have e : cum middle 1 = 1000 := by
      unfold cum middle
      simp only [List.take_succ_cons, List.take_zero, len_cons, len_single, m1]; norm_num
    rwa [e] at d1
  have hd' := hd 500 (by norm_num) (by rw [middle_len]; norm_num)
  have ha : ∀ y : ℝ, y ≤ 1000 → along middle y = (y : ℂ) + 100 * I := by
    intro y hy
    unfold middle
    rw [along, if_pos (by rw [m1]; exact hy), m1]
    push_cast; ring
  rw [ha d d1', ha 500 (by norm_num)] at hd'
  have hd2 : |d - 500| ≤ 4e-5 := by
    have e1 : (d : ℂ) + 100 * I - pos = ((d - 500 : ℝ) : ℂ) := by rw [hpos]; push_cast; ring
    have e2 : ((500 : ℝ) : ℂ) + 100 * I - pos = 0 := by rw [hpos]; push_cast; ring
    rw [e1, e2, norm_zero, zero_add, norm_real, Real.norm_eq_abs] at hd'
    exact hd'
  have s := starePoint_spec r pos
  rw [middle_len, hairpin_len] at hx
  rw [hairpin_len] at s
  set x := located o pos with hxdef
  have hx0 : 0 ≤ x * 2200 := by positivity
  rw [abs_le] at hd2 hx
  have hxl : x * 2200 ≤ 1000 := by norm_num at hx hd2 ⊢; linarith [hx.2, hd2.2]
  have he : along hairpin (x * 2200) = ((x * 2200 : ℝ) : ℂ) := by
    unfold hairpin
    rw [along, if_pos (by rw [h1]; exact hxl), h1]
    push_cast; ring
  rw [he] at s
  -- the distance across
  have him : |(starePoint o pos - ((x * 2200 : ℝ) : ℂ)).im| ≤ 1e-6 * 2200 := le_trans (abs_im_le_norm _) s
  have hfar := abs_im_le_norm (starePoint o pos - (550 + 200 * I))
  simp only [sub_im, add_im, mul_im, ofReal_im, I_im, I_re, sub_zero] at him hfar
  norm_num at him hfar
  rw [abs_le] at him
  have : 199 ≤ |(starePoint o pos).im - 200| := by
    rw [abs_of_nonpos (by linarith [him.2])]; linarith [him.2]
  linarith

/-- The hypotheses of C168 hold for the line and the route above; the point looked at on the way out is the right one. -/
example : ∃ o, setObjective hairpin middle = some o :=
  C168_set (by rw [hairpin_len]; norm_num) (by rw [middle_len]; norm_num)

end Verif.Dpss
