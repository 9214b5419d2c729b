import Verif.Stare.Steering

/-!
# The point of the road (C161)
-/

namespace Verif.Stare

open Complex
open Verif.Escort (along)

/-! ### Along a broken line -/

theorem along_zero (p : ℂ) (l : List ℂ) : along (p :: l) 0 = p := by
  cases l with
  | nil => rfl
  | cons q l => rw [along, if_pos (norm_nonneg _)]; simp

theorem along_step (p q : ℂ) (l : List ℂ) {d : ℝ} (h : ‖q - p‖ ≤ d) : along (p :: q :: l) d = along (q :: l) (d - ‖q - p‖) := by
  rcases h.eq_or_lt with h | h
  · rw [← h, sub_self, along_zero, along, if_pos (le_refl _)]
    rcases (norm_nonneg (q - p)).eq_or_lt with h0 | h0
    · have : q - p = 0 := norm_eq_zero.1 h0.symm
      have : q = p := sub_eq_zero.1 this
      subst this; simp
    · rw [div_self h0.ne']; simp
  · rw [along, if_neg (not_le.2 h)]

theorem along_lip : ∀ (l : List ℂ) {d e : ℝ}, 0 ≤ d → d ≤ e → ‖along l e - along l d‖ ≤ e - d
  | [], d, e, _, h => by simp [along]; exact h
  | [p], d, e, _, h => by simp [along]; exact h
  | p :: q :: l, d, e, h0, h => by
      have hn := norm_nonneg (q - p)
      have key : ∀ {a b : ℝ}, a ≤ b → b ≤ ‖q - p‖ → 0 ≤ a → ‖along (p :: q :: l) b - along (p :: q :: l) a‖ ≤ b - a := by
        intro a b hab hb ha
        rw [along, if_pos hb, along, if_pos (hab.trans hb)]
        have e : p + ((b / ‖q - p‖ : ℝ) : ℂ) * (q - p) - (p + ((a / ‖q - p‖ : ℝ) : ℂ) * (q - p)) =
            (((b - a) / ‖q - p‖ : ℝ) : ℂ) * (q - p) := by push_cast; ring
        rw [e, norm_mul, Complex.norm_real, Real.norm_eq_abs, abs_of_nonneg (div_nonneg (by linarith) hn)]
        rcases hn.eq_or_lt with h0 | h0
        · rw [← h0]; simp; exact hab
        · rw [div_mul_cancel₀ _ h0.ne']
      rcases le_or_gt e ‖q - p‖ with he | he
      · exact key h he h0
      · rcases le_or_gt d ‖q - p‖ with hd | hd
        · have k1 := key hd (le_refl _) h0
          have k2 := along_lip (q :: l) (d := 0) (e := e - ‖q - p‖) (le_refl _) (by linarith)
          rw [along_step p q l (le_refl _), sub_self] at k1
          rw [along_step p q l he.le]
          calc ‖along (q :: l) (e - ‖q - p‖) - along (p :: q :: l) d‖
              = ‖(along (q :: l) (e - ‖q - p‖) - along (q :: l) 0) + (along (q :: l) 0 - along (p :: q :: l) d)‖ := by
                congr 1; ring
            _ ≤ _ := norm_add_le _ _
            _ ≤ e - d := by linarith
        · rw [along_step p q l he.le, along_step p q l hd.le]
          have := along_lip (q :: l) (d := d - ‖q - p‖) (e := e - ‖q - p‖) (by linarith) (by linarith)
          linarith

theorem along_lip' (l : List ℂ) {d e : ℝ} (h0 : 0 ≤ d) (h1 : 0 ≤ e) : ‖along l e - along l d‖ ≤ |e - d| := by
  rcases le_total d e with h | h
  · rw [abs_of_nonneg (by linarith)]; exact along_lip l h0 h
  · rw [abs_of_nonpos (by linarith), norm_sub_rev, neg_sub]; exact along_lip l h1 h

/-- The corners, and the points between two of them. -/
theorem along_corner : ∀ (l : List ℂ) (i : ℕ) (h : i < l.length), along l (len (l.take (i + 1))) = l[i]
  | [], _, h => by simp at h
  | [p], i, h => by
      have : i = 0 := by simpa using h
      subst this; rfl
  | p :: q :: l, 0, _ => by simp only [List.take_succ_cons, List.take_zero, len_single]; exact along_zero _ _
  | p :: q :: l, i + 1, h => by
      have := along_corner (q :: l) i (by simpa using h)
      simp only [List.take_succ_cons, List.getElem_cons_succ] at this ⊢
      have h0 := len_nonneg (q :: l.take i)
      rw [len_cons, along_step _ _ _ (by linarith), add_sub_cancel_left, this]

theorem along_between : ∀ (l : List ℂ) (i : ℕ) (h : i + 1 < l.length) (f : ℝ), 0 ≤ f → f ≤ 1 →
    along l (len (l.take (i + 1)) + f * ‖l[i + 1] - l[i]‖) = l[i] + ((f : ℝ) : ℂ) * (l[i + 1] - l[i])
  | [], _, h, _, _, _ => by simp at h
  | [_], _, h, _, _, _ => by simp at h
  | p :: q :: l, 0, h, f, h0, h1 => by
      simp only [List.take_succ_cons, List.take_zero, len_single, zero_add, List.getElem_cons_succ, List.getElem_cons_zero]
      have hn := norm_nonneg (q - p)
      rw [along, if_pos (by nlinarith)]
      rcases hn.eq_or_lt with h2 | h2
      · have : q - p = 0 := norm_eq_zero.1 h2.symm
        rw [this]; simp
      · rw [mul_div_cancel_right₀ _ h2.ne']
  | p :: q :: l, i + 1, h, f, h0, h1 => by
      have := along_between (q :: l) i (by simpa using h) f h0 h1
      simp only [List.take_succ_cons, List.getElem_cons_succ] at this ⊢
      have k0 := len_nonneg (q :: l.take i)
      have hi : i < (q :: l).length := by simp at h ⊢; omega
      have hi' : i < l.length := by simpa using h
      have k1 := mul_nonneg h0 (norm_nonneg (l[i]'hi' - (q :: l)[i]'hi))
      rw [len_cons, along_step _ _ _ (by linarith), ← this]
      congr 1; ring

/-! ### The keys -/

theorem toInt_nonneg {x : ℝ} (h : 0 ≤ x) : toInt x = ⌊x⌋ := if_pos h

/-- The thousandths of a point of a line: its distance from the start as a number of thousandths of the length. -/
theorem roadKey_spec {L c : ℝ} (hL : 0 < L) (hc : 0 ≤ c) : (roadKey L c : ℝ) ≤ c / L * 1000 ∧ c / L * 1000 < roadKey L c + 1 := by
  unfold roadKey
  rw [if_pos hL, toInt_nonneg (by positivity)]
  exact ⟨Int.floor_le _, Int.lt_floor_add_one _⟩

/-- The entries of the road from which the map is filled. -/
theorem road_entries (road : List Spot) (i : ℕ) (h : i < road.length) :
    ((road.zip (dists (road.map (·.at_)))).map fun x => (roadKey (total (road.map (·.at_))) x.2, x.1))[i]'(by
      simp [dists_length, h]) =
    (roadKey (len (road.map (·.at_))) (len ((road.map (·.at_)).take (i + 1))), road[i]) := by
  simp only [List.getElem_map, List.getElem_zip]
  rw [dists_get, total_eq]

/-- The point of the road that is looked at for `n` thousandths: within two thousandths of the length of the road of each
point whose thousandths are `n`. -/
theorem lookAt_near {road : List Spot} (hL : 0 < len (road.map (·.at_))) {n : ℤ} (h0 : 0 ≤ n) (h1 : n ≤ 1000)
    {x : ℝ} (hx0 : (n : ℝ) ≤ x) (hx1 : x < n + 1) :
    ∃ z, (lookAt (Steering.init [] road).road n = .onto z ∨
        ∃ alt, lookAt (Steering.init [] road).road n = .wholly ⟨z, alt⟩) ∧
      ‖z - along (road.map (·.at_)) (x / 1000 * len (road.map (·.at_)))‖ ≤ 2 / 1000 * len (road.map (·.at_)) := by
  set l := road.map (·.at_) with hl
  set L := len l with hLdef
  have hlen : l.length = road.length := by simp [hl]
  set es := (road.zip (dists l)).map fun x => (roadKey (total l) x.2, x.1) with hes
  have heslen : es.length = road.length := by simp [hes, dists_length, hlen]
  have hroad : (Steering.init [] road).road = build es := rfl
  set c : ℕ → ℝ := fun i => len (l.take (i + 1)) with hc
  have hc0 : ∀ i, 0 ≤ c i := fun i => len_nonneg _
  have hcm : ∀ {i j}, i ≤ j → c i ≤ c j := fun h => len_take_mono l (by omega)
  have hent : ∀ i (h : i < es.length), es[i] = (roadKey L (c i), road[i]'(by omega)) := by
    intro i h
    exact road_entries road i (by omega)
  set key : ℕ → ℤ := fun i => roadKey L (c i) with hkey
  have hk : ∀ i, (key i : ℝ) ≤ c i / L * 1000 ∧ c i / L * 1000 < key i + 1 := fun i => roadKey_spec hL (hc0 i)
  have hkm : ∀ {i j}, i ≤ j → key i ≤ key j := by
    intro i j hij
    have h2 := (hk i).1
    have h3 := (hk j).2
    have h4 : c i / L ≤ c j / L := by gcongr; exact hcm hij
    have : (key i : ℝ) < key j + 1 := by linarith
    exact Int.lt_add_one_iff.1 (by exact_mod_cast this)
  have hne : road ≠ [] := by
    rintro rfl
    simp [hl, hLdef] at hL
  have hposlen : 0 < road.length := List.length_pos_of_ne_nil hne
  have hlast : c (road.length - 1) = L := by
    simp only [hc, hLdef]
    rw [List.take_of_length_le (by omega)]
  have hkl : key (road.length - 1) = 1000 := by
    simp only [hkey, hlast]
    unfold roadKey
    rw [if_pos hL, div_self hL.ne', toInt_nonneg (by norm_num)]
    norm_num
  have hk0 : key 0 = 0 := by
    have : c 0 = 0 := by
      simp only [hc]
      cases hr : l with
      | nil => rfl
      | cons p l' => simp
    simp only [hkey, this]
    unfold roadKey
    rw [if_pos hL]; simp [toInt]
  -- every key is in the map
  have hin : ∀ i, i < road.length → ∃ y ∈ build es, y.1 = key i := by
    intro i hi
    classical
    have hex : ∃ d, ∃ h : i + d < road.length, key (i + d) = key i ∧ ∀ j, j < road.length → i + d < j → key j ≠ key i := by
      by_contra hcon
      push Not at hcon
      have : ∀ d, ∃ j, i + d ≤ j ∧ j < road.length ∧ key j = key i := by
        intro d
        induction d with
        | zero => exact ⟨i, by omega, hi, rfl⟩
        | succ d ih =>
            obtain ⟨j, g1, g2, g3⟩ := ih
            obtain ⟨j', g4, g5, g6⟩ := hcon (j - i) (by omega) (by rw [show i + (j - i) = j by omega]; exact g3)
            exact ⟨j', by omega, g4, g6⟩
      obtain ⟨j, g1, g2, -⟩ := this road.length
      omega
    obtain ⟨d, hd, g1, g2⟩ := hex
    refine ⟨_, mem_build.2 ⟨i + d, by omega, rfl, ?_⟩, ?_⟩
    · intro j hj hlt
      rw [hent j hj, hent (i + d) (by omega)]
      simp only
      change key j ≠ key (i + d)
      rw [g1]
      exact g2 j (by omega) hlt
    · rw [hent]; exact g1
  -- the points looked at
  have hsp : ∀ y ∈ build es, ∃ i, ∃ h : i < road.length, y = (key i, road[i]) ∧ ∀ j, j < road.length → i < j → key j ≠ key i := by
    intro y hy
    obtain ⟨i, hi, g1, g2⟩ := mem_build.1 hy
    refine ⟨i, by omega, by rw [← g1, hent], ?_⟩
    intro j hj hlt
    have := g2 j (by omega) hlt
    rw [← g1, hent j (by omega), hent i hi] at this
    exact this
  have hat : ∀ i (h : i < road.length), (road[i]).at_ = l[i]'(by omega) := by
    intro i h; simp [hl]
  have hcorner : ∀ i (h : i < road.length), along l (c i) = (road[i]).at_ := by
    intro i h
    rw [hat i h]
    exact along_corner l i (by omega)
  -- distances in thousandths
  have hfar : ∀ {u v : ℝ}, 0 ≤ u → 0 ≤ v → |u / L * 1000 - v / L * 1000| ≤ 1 → ‖along l u - along l v‖ ≤ 1 / 1000 * L := by
    intro u v hu hv huv
    have g1 := along_lip' l hv hu
    have e : u / L * 1000 - v / L * 1000 = (u - v) / L * 1000 := by ring
    rw [e, abs_mul, abs_div, abs_of_pos hL, abs_of_pos (show (0 : ℝ) < 1000 by norm_num)] at huv
    have : |u - v| / L ≤ 1 / 1000 := by linarith
    rw [div_le_iff₀ hL] at this
    linarith
  have hx' : x / 1000 * L / L * 1000 = x := by field_simp
  have hxnn : 0 ≤ x / 1000 * L := by
    have : (0 : ℝ) ≤ n := by exact_mod_cast h0
    have : 0 ≤ x := by linarith
    positivity
  rw [hroad]
  unfold lookAt
  cases hlb : lowerBound n none (build es) with
  | none =>
      rw [lowerBound_none] at hlb
      obtain ⟨y, hy, hyk⟩ := hin (road.length - 1) (by omega)
      have := hlb y hy
      rw [hyk, hkl] at this
      omega
  | some r =>
      obtain ⟨p, y⟩ := r
      obtain ⟨hy, hny, hmin, hcase⟩ := lowerBound_some (sorted_build es) hlb
      obtain ⟨j, hj, rfl, hjl⟩ := hsp y hy
      rcases hcase with ⟨rfl, hall⟩ | ⟨w, hw, rfl, hwn, hmax⟩
      · -- the first entry
        refine ⟨_, Or.inl rfl, ?_⟩
        obtain ⟨y0, hy0, hyk0⟩ := hin 0 hposlen
        have g1 := hall y0 hy0
        rw [hyk0, hk0] at g1
        have hn0 : n = 0 := le_antisymm g1 h0
        have g2 := hmin y0 hy0 (by rw [hyk0, hk0]; exact g1)
        rw [hyk0, hk0] at g2
        have g3 : key j = 0 := le_antisymm g2 (by rw [← hk0]; exact hkm (Nat.zero_le _))
        have g4 := hk j
        rw [g3] at g4
        rw [hn0] at hx0 hx1
        push_cast at g4 hx0 hx1
        simp only
        rw [← hcorner j hj]
        have := hfar (hc0 j) hxnn (by rw [hx', abs_le]; constructor <;> linarith)
        linarith
      · obtain ⟨i, hi, rfl, hil⟩ := hsp w hw
        simp only at hwn hny hmin hmax
        have hij : i < j := by
          by_contra hc'
          have := hkm (not_lt.1 hc')
          omega
        -- the next point of the road has the upper key already
        have hnext : key (i + 1) = key j := by
          have g1 : key i ≠ key (i + 1) := fun h => hil (i + 1) (by omega) (by omega) h.symm
          have g2 : key i ≤ key (i + 1) := hkm (by omega)
          obtain ⟨y', hy', hyk'⟩ := hin (i + 1) (by omega)
          apply le_antisymm (hkm (by omega))
          have := hmin y' hy'
          rw [hyk'] at this
          apply this
          by_contra hlt
          have := hmax y' hy' (by rw [hyk']; omega)
          rw [hyk'] at this
          omega
        have hdelta : (0 : ℝ) < ((key j - key i : ℤ) : ℝ) := by
          have : key i < key j := by omega
          exact_mod_cast sub_pos.2 this
        refine ⟨_, Or.inr ⟨_, rfl⟩, ?_⟩
        simp only
        rw [if_pos hdelta]
        set f : ℝ := ((n - key i : ℤ) : ℝ) / ((key j - key i : ℤ) : ℝ) with hf
        have hf0 : 0 ≤ f := by
          apply div_nonneg _ hdelta.le
          have : 0 ≤ n - key i := by omega
          exact_mod_cast this
        have hf1 : f ≤ 1 := by
          rw [div_le_one hdelta]
          have : n - key i ≤ key j - key i := by omega
          exact_mod_cast this
        have hfe : f * (key j - key i) = n - key i := by
          have := div_mul_cancel₀ ((n - key i : ℤ) : ℝ) hdelta.ne'
          rw [← hf] at this
          push_cast at this
          exact this
        -- the point of the road between the two corners
        have hb := along_between l i (by omega) f hf0 hf1
        have hci : c (i + 1) = c i + ‖l[i + 1]'(by omega) - l[i]'(by omega)‖ := len_take_succ l i (by omega)
        have hu : len (l.take (i + 1)) + f * ‖l[i + 1]'(by omega) - l[i]'(by omega)‖ = c i + f * (c (i + 1) - c i) := by
          rw [hci]; simp only [hc]; ring
        rw [hu] at hb
        have hunn : 0 ≤ c i + f * (c (i + 1) - c i) := by
          have := hcm (show i ≤ i + 1 by omega)
          have := hc0 i
          have := mul_nonneg hf0 (show 0 ≤ c (i + 1) - c i by linarith)
          linarith
        have hku : |(c i + f * (c (i + 1) - c i)) / L * 1000 - x| ≤ 1 := by
          have e : (c i + f * (c (i + 1) - c i)) / L * 1000 = (1 - f) * (c i / L * 1000) + f * (c (i + 1) / L * 1000) := by
            field_simp; ring
          have g1 := hk i
          have g2 := hk (i + 1)
          rw [hnext] at g2
          have a1 : (1 - f) * key i + f * key j ≤ (1 - f) * (c i / L * 1000) + f * (c (i + 1) / L * 1000) := by
            have := mul_le_mul_of_nonneg_left g1.1 (show 0 ≤ 1 - f by linarith)
            have := mul_le_mul_of_nonneg_left g2.1 hf0
            linarith
          have a2 : (1 - f) * (c i / L * 1000) + f * (c (i + 1) / L * 1000) ≤ (1 - f) * key i + f * key j + 1 := by
            have := mul_le_mul_of_nonneg_left g1.2.le (show 0 ≤ 1 - f by linarith)
            have := mul_le_mul_of_nonneg_left g2.2.le hf0
            linarith
          have a3 : (1 - f) * (key i : ℝ) + f * key j = n := by linarith
          rw [e, abs_le]
          constructor <;> linarith
        have k1 := hfar hunn hxnn (by rw [hx']; exact hku)
        rw [hb] at k1
        -- the kept corner and the next one
        have k2 : ‖(road[j]).at_ - l[i + 1]'(by omega)‖ ≤ 1 / 1000 * L := by
          have g1 := hk (i + 1)
          have g2 := hk j
          rw [hnext] at g1
          rw [← hcorner j hj, ← along_corner l (i + 1) (by omega)]
          exact hfar (hc0 j) (hc0 (i + 1)) (by rw [abs_le]; constructor <;> linarith)
        have e : ((road[j]).at_ - (road[i]).at_) * ((f : ℝ) : ℂ) + (road[i]).at_ - along l (x / 1000 * L) =
            ((f : ℝ) : ℂ) * ((road[j]).at_ - l[i + 1]'(by omega)) +
            (l[i]'(by omega) + ((f : ℝ) : ℂ) * (l[i + 1]'(by omega) - l[i]'(by omega)) - along l (x / 1000 * L)) := by
          rw [hat i hi]; ring
        rw [e]
        have k3 : ‖((f : ℝ) : ℂ) * ((road[j]).at_ - l[i + 1]'(by omega))‖ ≤ 1 / 1000 * L := by
          rw [norm_mul, Complex.norm_real, Real.norm_eq_abs, abs_of_nonneg hf0]
          have := norm_nonneg ((road[j]).at_ - l[i + 1]'(by omega))
          nlinarith
        have := norm_add_le (((f : ℝ) : ℂ) * ((road[j]).at_ - l[i + 1]'(by omega)))
          (l[i]'(by omega) + ((f : ℝ) : ℂ) * (l[i + 1]'(by omega) - l[i]'(by omega)) - along l (x / 1000 * L))
        linarith

end Verif.Stare
