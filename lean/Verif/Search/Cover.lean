import Verif.Search.Request

/-!
# What a search sees (C140)
-/

namespace Verif.Search

/-! ### A convex area, turned -/

theorem inside_turn {σ : ℝ} {vs : List Pos} {c : Pos} {ax : ℝ} {z : Pos} (h : Inside σ vs z) :
    Inside σ (vs.map (turnIn c ax)) (turnIn c ax z) := by
  intro i hi
  have hi' : i < vs.length := by simpa using hi
  have := h i hi'
  have hs := Real.sin_sq_add_cos_sq ax
  simp only [List.getElem_map, List.length_map]
  simp only at this
  generalize vs[i] = u at *
  generalize vs[(i + 1) % vs.length]'(Nat.mod_lt _ (by omega)) = v at *
  have e : (turnIn c ax v).n - (turnIn c ax u).n = (v.n - u.n) * Real.cos ax + (v.e - u.e) * Real.sin ax := by
    simp only [turnIn]; ring
  have e2 : (turnIn c ax v).e - (turnIn c ax u).e = (v.e - u.e) * Real.cos ax - (v.n - u.n) * Real.sin ax := by
    simp only [turnIn]; ring
  have e3 : (turnIn c ax z).n - (turnIn c ax u).n = (z.n - u.n) * Real.cos ax + (z.e - u.e) * Real.sin ax := by
    simp only [turnIn]; ring
  have e4 : (turnIn c ax z).e - (turnIn c ax u).e = (z.e - u.e) * Real.cos ax - (z.n - u.n) * Real.sin ax := by
    simp only [turnIn]; ring
  rw [e, e2, e3, e4]
  have : ((v.n - u.n) * Real.cos ax + (v.e - u.e) * Real.sin ax) *
        ((z.e - u.e) * Real.cos ax - (z.n - u.n) * Real.sin ax) -
      ((v.e - u.e) * Real.cos ax - (v.n - u.n) * Real.sin ax) *
        ((z.n - u.n) * Real.cos ax + (z.e - u.e) * Real.sin ax) =
      (v.n - u.n) * (z.e - u.e) - (v.e - u.e) * (z.n - u.n) := by
    linear_combination ((v.n - u.n) * (z.e - u.e) - (v.e - u.e) * (z.n - u.n)) * hs
  rw [this]; assumption

/-- Nothing further from the lane than the sensor reaches is seen from it. -/
theorem not_swept {lead trail half ax x : ℝ} {c a b z : Pos} {up : Bool}
    (ha : |across ax c a - x| ≤ 1 / 2) (hb : |across ax c b - x| ≤ 1 / 2)
    (hz : half + 1 / 2 < |across ax c z - x|) :
    ¬ Swept lead trail half (if up then ax else ax + Real.pi) a b z := by
  rintro ⟨t, t0, t1, -, -, h⟩
  have e : |across (if up then ax else ax + Real.pi) (between a b t) z| =
      |across ax (between a b t) z| := by
    cases up with
    | true => rfl
    | false => simp only [Bool.false_eq_true, if_false, across_back, abs_neg]
  rw [e] at h
  have l : across ax (between a b t) z =
      (across ax c z - x) - ((1 - t) * (across ax c a - x) + t * (across ax c b - x)) := by
    simp only [across, between]; ring
  have m : |(1 - t) * (across ax c a - x) + t * (across ax c b - x)| ≤ 1 / 2 := by
    obtain ⟨a1, a2⟩ := abs_le.1 ha
    obtain ⟨b1, b2⟩ := abs_le.1 hb
    have k1 := mul_le_mul_of_nonneg_left a1 (sub_nonneg.2 t1)
    have k2 := mul_le_mul_of_nonneg_left a2 (sub_nonneg.2 t1)
    have k3 := mul_le_mul_of_nonneg_left b1 t0
    have k4 := mul_le_mul_of_nonneg_left b2 t0
    apply abs_le.2; constructor <;> linarith
  rw [l] at h
  have := abs_sub_abs_le_abs_sub (across ax c z - x)
    ((1 - t) * (across ax c a - x) + t * (across ax c b - x))
  linarith

/-! ### Which lanes there are -/

/-- The width across the lanes is such that lanes from one side on are within half a
step of everything: at most one step, or more than half a step over a whole number of
steps.  The first service has a single lane up to two steps. -/
def Fits (k : Kind) (w s : ℝ) : Prop :=
  w ≤ s ∨ ((k = .cmasi → 2 * s ≤ w) ∧ ∃ n : ℕ, ((n : ℝ) - 1 / 2) * s < w ∧ w ≤ n * s)

theorem lanes_near {k : Kind} {lo hi s e : ℝ} {m : ℕ} (hs : 0 < s) (hw : lo < hi)
    (hm : ¬ Going lo hi (laneOver k s) (firstLane k lo hi s + m * laneOver k s))
    (h1 : lo ≤ e) (h2 : e ≤ hi) :
    (∃ i < m, |e - (firstLane k lo hi s + i * laneOver k s)| ≤ s) ∧
    (Fits k (hi - lo) s → ∃ i < m, |e - (firstLane k lo hi s + i * laneOver k s)| ≤ s / 2) := by
  -- lanes upwards
  have upm : ∀ x, ¬ Going lo hi s (x + m * s) → hi ≤ x + m * s := by
    intro x h
    by_contra hc
    exact h (.inl ⟨hs, not_le.1 hc⟩)
  have downm : ∀ x, ¬ Going lo hi (-s) (x + m * -s) → x + m * -s ≤ lo := by
    intro x h
    by_contra hc
    exact h (.inr ⟨by linarith, not_le.1 hc⟩)
  have pos_of : ∀ {x y : ℝ}, y ≤ x + m * s → x < y → 0 < m := by
    intro x y h h'
    rcases Nat.eq_zero_or_pos m with rfl | h0
    · simp at h; linarith
    · exact h0
  -- the cases of a single lane in the middle
  have mid : ∀ d w, (hi - lo) / 2 ≤ w → 0 < m →
      ∃ i < m, |e - (lo + (hi - lo) / 2 + ((i : ℕ) : ℝ) * d)| ≤ w := by
    intro d w hww h0
    refine ⟨0, h0, ?_⟩
    simp only [Nat.cast_zero, zero_mul, add_zero]
    apply abs_le.2; constructor <;> linarith
  have side_up : hi ≤ lo + s / 2 + m * s → s / 2 < hi - lo →
      (∃ i < m, |e - (lo + s / 2 + ((i : ℕ) : ℝ) * s)| ≤ s) ∧
      ((hi - lo ≤ s ∨ ∃ n : ℕ, ((n : ℝ) - 1 / 2) * s < hi - lo ∧ hi - lo ≤ n * s) →
        ∃ i < m, |e - (lo + s / 2 + ((i : ℕ) : ℝ) * s)| ≤ s / 2) := by
    intro hm' hhalf
    refine ⟨near_up hs hm' (pos_of hm' (by linarith)) h1 h2, ?_⟩
    rintro (hf | ⟨n, hn1, hn2⟩)
    · exact cover_up (n := 1) hs hm' (by push_cast; linarith) (by push_cast; linarith) hw h1 h2
    · exact cover_up hs hm' hn1 hn2 hw h1 h2
  have flip : ∀ i : ℕ, |(-e) - (-hi + s / 2 + (i : ℝ) * s)| = |e - (hi - s / 2 + (i : ℝ) * -s)| := by
    intro i; rw [← abs_neg]; congr 1; ring
  have side_down : hi - s / 2 + m * -s ≤ lo → s / 2 < hi - lo →
      (∃ i < m, |e - (hi - s / 2 + ((i : ℕ) : ℝ) * -s)| ≤ s) ∧
      ((hi - lo ≤ s ∨ ∃ n : ℕ, ((n : ℝ) - 1 / 2) * s < hi - lo ∧ hi - lo ≤ n * s) →
        ∃ i < m, |e - (hi - s / 2 + ((i : ℕ) : ℝ) * -s)| ≤ s / 2) := by
    intro hm' hhalf
    have hm2 : -lo ≤ -hi + s / 2 + m * s := by linarith
    have e1 : -hi ≤ -e := by linarith
    have e2 : -e ≤ -lo := by linarith
    refine ⟨?_, ?_⟩
    · obtain ⟨i, him, hi'⟩ := near_up hs hm2 (pos_of hm2 (by linarith)) e1 e2
      exact ⟨i, him, by rw [← flip]; exact hi'⟩
    · rintro (hf | ⟨n, hn1, hn2⟩)
      · obtain ⟨i, him, hi'⟩ := cover_up (n := 1) hs hm2 (by push_cast; linarith)
          (by push_cast; linarith) (by linarith) e1 e2
        exact ⟨i, him, by rw [← flip]; exact hi'⟩
      · obtain ⟨i, him, hi'⟩ := cover_up (n := n) hs hm2 (by linarith) (by linarith) (by linarith) e1 e2
        exact ⟨i, him, by rw [← flip]; exact hi'⟩
  cases k with
  | cmasi =>
      simp only [firstLane, laneOver] at hm ⊢
      by_cases hc : (hi - lo) / 2 < s
      · rw [if_pos hc] at hm ⊢
        have h0 := pos_of (upm _ hm) (by linarith)
        refine ⟨mid _ _ hc.le h0, ?_⟩
        rintro (hf | ⟨hf, -⟩)
        · exact mid _ _ (by linarith) h0
        · have := hf rfl; linarith
      · rw [if_neg hc] at hm ⊢
        obtain ⟨r1, r2⟩ := side_up (upm _ hm) (by linarith)
        refine ⟨r1, ?_⟩
        rintro (hf | ⟨-, hf⟩)
        · exact r2 (.inl hf)
        · exact r2 (.inr hf)
  | angled o =>
      simp only [firstLane, laneOver] at hm ⊢
      by_cases hc : (hi - lo) * 1.1 < s
      · rw [if_pos hc] at hm ⊢
        have hlt : hi - lo < s := by linarith
        have h0 : 0 < m := by
          by_cases ho : o % 4 = 1 ∨ o % 4 = 3
          · rw [if_pos ho] at hm; exact pos_of (upm _ hm) (by linarith)
          · rw [if_neg ho] at hm
            have := downm _ hm
            exact pos_of (x := -(lo + (hi - lo) / 2)) (y := -lo) (by linarith) (by linarith)
        exact ⟨mid _ _ (by linarith) h0, fun _ => mid _ _ (by linarith) h0⟩
      · rw [if_neg hc] at hm ⊢
        have hhalf : s / 2 < hi - lo := by linarith
        by_cases ho : o % 4 = 1 ∨ o % 4 = 3
        · rw [if_pos ho] at hm ⊢
          rw [if_pos ho] at hm ⊢
          obtain ⟨r1, r2⟩ := side_up (upm _ hm) hhalf
          refine ⟨r1, ?_⟩
          rintro (hf | ⟨-, hf⟩)
          · exact r2 (.inl hf)
          · exact r2 (.inr hf)
        · rw [if_neg ho] at hm ⊢
          rw [if_neg ho] at hm ⊢
          obtain ⟨r1, r2⟩ := side_down (downm _ hm) hhalf
          refine ⟨r1, ?_⟩
          rintro (hf | ⟨-, hf⟩)
          · exact r2 (.inl hf)
          · exact r2 (.inr hf)

/-- **C140**, what holds for every area: when the computation succeeds, whatever lies
between the outermost points of the boundary, across the lanes, is within one lane
spacing of a leg, and within half a lane spacing when the width fits the spacing
(up to the half metre).  Missing from the full claim: half a lane spacing for every width. -/
theorem C140_across_partial {k : Kind} {a : Area} {h s lead trail : ℝ} {legs : List Leg}
    (hs : 0 < s) (hlt : trail ≤ lead) (hp : plan k a h s lead trail = .ok (legs, true))
    {b b' z : Pos} (hb : b ∈ boundary k a) (hb' : b' ∈ boundary k a)
    (hbb : across (axis k a h) (centre a) b < across (axis k a h) (centre a) b')
    (hex : ∀ v ∈ boundary k a, across (axis k a h) (centre a) b ≤ across (axis k a h) (centre a) v ∧
      across (axis k a h) (centre a) v ≤ across (axis k a h) (centre a) b')
    (hz : across (axis k a h) (centre a) b ≤ across (axis k a h) (centre a) z)
    (hz' : across (axis k a h) (centre a) z ≤ across (axis k a h) (centre a) b') :
    (∃ l ∈ legs, |across (axis k a h) l.start z| ≤ s + 1 / 2 ∧
      |across (axis k a h) l.stop z| ≤ s + 1 / 2) ∧
    (Fits k (across (axis k a h) (centre a) b' - across (axis k a h) (centre a) b) s →
      ∃ l ∈ legs, |across (axis k a h) l.start z| ≤ s / 2 + 1 / 2 ∧
        |across (axis k a h) l.stop z| ≤ s / 2 + 1 / 2) := by
  rcases plan_inv hp with ⟨-, -, h0⟩ | ⟨hbn, ls, hsc, rfl⟩
  · cases h0
  have hcne : cornersOf k a h ≠ [] := by simpa using hbn
  have elo : loOf k a h = across (axis k a h) (centre a) b := by
    apply le_antisymm
    · exact lowest_le (f := (·.e)) (vs := cornersOf k a h) (List.mem_map_of_mem hb)
    · obtain ⟨v, hv, hve⟩ := lowest_mem (f := (·.e)) hcne
      obtain ⟨u, hu, rfl⟩ := List.mem_map.1 hv
      exact (hex u hu).1.trans (le_of_eq hve.symm)
  have ehi : hiOf k a h = across (axis k a h) (centre a) b' := by
    apply le_antisymm
    · obtain ⟨v, hv, hve⟩ := highest_mem (f := (·.e)) hcne
      obtain ⟨u, hu, rfl⟩ := List.mem_map.1 hv
      exact (le_of_eq hve).trans (hex u hu).2
    · exact le_highest (f := (·.e)) (vs := cornersOf k a h) (List.mem_map_of_mem hb')
  obtain ⟨hspec, hgood, -⟩ := scan_spec hsc
  have hnear := lanes_near (k := k) (lo := loOf k a h) (hi := hiOf k a h) (s := s)
    (e := across (axis k a h) (centre a) z) hs (by rw [elo, ehi]; exact hbb) (hgood rfl)
    (by rw [elo]; exact hz) (by rw [ehi]; exact hz')
  have fin : ∀ w, (∃ i < ls.length, |across (axis k a h) (centre a) z - laneAt k a h s i| ≤ w) →
      ∃ l ∈ ls.map (place k a h), |across (axis k a h) l.start z| ≤ w + 1 / 2 ∧
        |across (axis k a h) l.stop z| ≤ w + 1 / 2 := by
    rintro w ⟨i, hi, hw⟩
    obtain ⟨-, p, q, ps, hh, he⟩ := hspec i hi
    have hpm := hits_lane (p := p) (by rw [hh]; simp)
    have hqm := hits_lane (p := (q :: ps).getLast (by simp))
      (by rw [hh]; exact List.mem_cons_of_mem _ (List.getLast_mem _))
    have hf := leg_facts (up := upAt (firstUp k) i) (lead := lead) (trail := trail) hlt hpm hqm
    rw [← he] at hf
    refine ⟨place k a h ls[i], List.mem_map_of_mem (List.getElem_mem hi), ?_, ?_⟩
    · rw [across_turn]
      have h1 := abs_le.1 hf.1
      have h2 := abs_le.1 hw
      change |across (axis k a h) (centre a) z - _| ≤ _
      apply abs_le.2; constructor <;> linarith [h1.1, h1.2, h2.1, h2.2]
    · rw [across_turn]
      have h1 := abs_le.1 hf.2.1
      have h2 := abs_le.1 hw
      change |across (axis k a h) (centre a) z - _| ≤ _
      apply abs_le.2; constructor <;> linarith [h1.1, h1.2, h2.1, h2.2]
  refine ⟨fin s hnear.1, fun hf => fin (s / 2) (hnear.2 ?_)⟩
  rw [elo, ehi]; exact hf

theorem beneath {k : Kind} {a : Area} {h s lead trail σ : ℝ} {legs : List Leg} {good : Bool}
    (hσ : σ = 1 ∨ σ = -1) (hlt : trail ≤ lead)
    (hp : plan k a h s lead trail = .ok (legs, good)) {i : ℕ} (hi : i < legs.length)
    (hv : ∀ b ∈ boundary k a, across (axis k a h) (centre a) b ≠ laneAt k a h s i)
    {z : Pos} (hz : Inside σ (boundary k a) z)
    (hzl : across (axis k a h) (centre a) z = laneAt k a h s i) :
    Swept (lead + 1 / 2) (trail - 1 / 2) (1 / 2)
      (if legs[i].up then axis k a h else axis k a h + Real.pi) legs[i].start legs[i].stop z := by
  rcases plan_inv hp with ⟨-, rfl, -⟩ | ⟨hbn, ls, hsc, rfl⟩
  · simp at hi
  have hi1 : i < ls.length := by simpa using hi
  obtain ⟨-, p, q, ps, hh, he⟩ := (scan_spec hsc).1 i hi1
  have hpm := hits_lane (p := p) (by rw [hh]; simp)
  have hqm := hits_lane (p := (q :: ps).getLast (by simp))
    (by rw [hh]; exact List.mem_cons_of_mem _ (List.getLast_mem _))
  have hbt := hits_between hσ (vs := cornersOf k a h) (z := turnIn (centre a) (axis k a h) z)
    (fun v hm => by
      obtain ⟨b, hb, rfl⟩ := List.mem_map.1 hm
      exact hv b hb) bounds_n hh (inside_turn hz) hzl
  simp only [List.getElem_map, he, leg_up]
  have := leg_sweeps (p := p) (q := (q :: ps).getLast (by simp)) (up := upAt (firstUp k) i)
    (lead := lead) (trail := trail) (w := 0) (δ := 1 / 2) (x := laneAt k a h s i) (z := z)
    (c := centre a) (ax := axis k a h) hlt hpm hqm (by norm_num) hbt.1 hbt.2
    (by
      have : (turnIn (centre a) (axis k a h) z).e = laneAt k a h s i := hzl
      rw [this]; simp)
  simpa using this

/-- **C140.**  What lies in a convex area right beneath a lane, on a lane that passes
through no corner, is seen from the leg flown there (up to half a metre). -/
theorem C140_beneath {k : Kind} {a : Area} {h s lead trail σ : ℝ} {legs : List Leg} {good : Bool}
    (hσ : σ = 1 ∨ σ = -1) (hs : 0 < s) (hlt : trail ≤ lead)
    (hp : plan k a h s lead trail = .ok (legs, good)) :
    ∃ x, OnLanes (axis k a h) (centre a) s legs x ∧ ∀ i (hi : i < legs.length),
      (∀ b ∈ boundary k a, across (axis k a h) (centre a) b ≠ x i) →
      ∀ z : Pos, Inside σ (boundary k a) z → across (axis k a h) (centre a) z = x i →
        Swept (lead + 1 / 2) (trail - 1 / 2) (1 / 2)
          (if legs[i].up then axis k a h else axis k a h + Real.pi) legs[i].start legs[i].stop z :=
  ⟨_, onLanes hs hlt hp, fun _ hi hv _ hz hzl => beneath hσ hlt hp hi hv hz hzl⟩

end Verif.Search
