import Verif.Pattern.Sector

/-!
# What a sector search sees, and what it asks for (C141)
-/

namespace Verif.Pattern

open Verif.Search

theorem along_ahead (h : ℝ) (c z : Pos) (d : ℝ) : along h (ahead h c d) z = along h c z - d := by
  have := Real.sin_sq_add_cos_sq h
  simp only [along, ahead]; linear_combination (-d) * this

theorem across_ahead (h : ℝ) (c z : Pos) (d : ℝ) : across h (ahead h c d) z = across h c z := by
  simp only [across, ahead]; ring

theorem between_ahead (h : ℝ) (c : Pos) (a b t : ℝ) :
    between (ahead h c a) (ahead h c b) t = ahead h c (a + t * (b - a)) := by
  ext <;> simp only [between, ahead] <;> ring

theorem along_le {h E : ℝ} {c z : Pos} (hE : 0 ≤ E) (hz : (z.n - c.n) ^ 2 + (z.e - c.e) ^ 2 ≤ E ^ 2) : |along h c z| ≤ E := by
  apply abs_le_of_sq_le_sq _ hE
  have := Real.sin_sq_add_cos_sq h
  have e : along h c z ^ 2 + across h c z ^ 2 = (z.n - c.n) ^ 2 + (z.e - c.e) ^ 2 := by
    simp only [along, across]; linear_combination ((z.n - c.n) ^ 2 + (z.e - c.e) ^ 2) * this
  have := sq_nonneg (across h c z)
  linarith

/-- A leg through the centre sees what is near its line. -/
theorem leg_sees {h E lead trail half : ℝ} {c z : Pos} (hE : 0 < E) (hlt : trail ≤ lead)
    (hz : (z.n - c.n) ^ 2 + (z.e - c.e) ^ 2 ≤ E ^ 2) (ha : |across h c z| ≤ half) :
    Swept lead trail half h (ahead h c (-(E + lead))) (ahead h c (E - trail)) z := by
  obtain ⟨a1, a2⟩ := abs_le.1 (along_le (h := h) hE.le hz)
  have hR : 0 < 2 * E + lead - trail := by linarith
  refine ⟨(along h c z + E) / (2 * E + lead - trail), div_nonneg (by linarith) hR.le,
    (div_le_one hR).2 (by linarith), ?_⟩
  have e : -(E + lead) + (along h c z + E) / (2 * E + lead - trail) * (E - trail - -(E + lead)) = along h c z - lead := by
    rw [show E - trail - -(E + lead) = 2 * E + lead - trail by ring, div_mul_cancel₀ _ hR.ne']; ring
  rw [between_ahead, e]
  refine ⟨?_, ?_, ?_⟩
  · rw [along_ahead]; linarith
  · rw [along_ahead]; linarith
  · rw [across_ahead]; exact ha

/-- A point seen from the centre. -/
theorem exists_polar (c z : Pos) : ∃ ρ φ : ℝ, 0 ≤ ρ ∧ z.e - c.e = ρ * Real.cos φ ∧ z.n - c.n = ρ * Real.sin φ ∧
    ρ ^ 2 = (z.n - c.n) ^ 2 + (z.e - c.e) ^ 2 := by
  refine ⟨‖(⟨z.e - c.e, z.n - c.n⟩ : ℂ)‖, Complex.arg ⟨z.e - c.e, z.n - c.n⟩, norm_nonneg _,
    (Complex.norm_mul_cos_arg ⟨z.e - c.e, z.n - c.n⟩).symm, (Complex.norm_mul_sin_arg ⟨z.e - c.e, z.n - c.n⟩).symm, ?_⟩
  rw [← Complex.normSq_eq_norm_sq, Complex.normSq_mk]; ring

/-- Directions a step apart come near every line through the centre. -/
theorem near_line {δ φ : ℝ} {m : ℕ} (hδ : 0 < δ) (hm : 0 < m) (h1 : Real.pi - δ / 2 ≤ m * δ) :
    (∃ i < m, |Real.sin (i * δ - φ)| ≤ 3 / 4 * δ) ∧ (Real.pi ≤ m * δ → ∃ i < m, |Real.sin (i * δ - φ)| ≤ δ / 2) := by
  have hpi := Real.pi_pos
  obtain ⟨n, hn⟩ : ∃ n : ℤ, n = ⌊φ / Real.pi⌋ := ⟨_, rfl⟩
  set ψ := φ - n * Real.pi with hψ
  have p0 : 0 ≤ ψ := by
    have := Int.floor_le (φ / Real.pi)
    rw [← hn, le_div_iff₀ hpi] at this; linarith
  have p1 : ψ < Real.pi := by
    have := Int.lt_floor_add_one (φ / Real.pi)
    rw [← hn, div_lt_iff₀ hpi] at this; linarith
  have hsin : ∀ x : ℝ, |Real.sin (x - φ)| = |Real.sin (x - ψ)| := by
    intro x
    rw [show x - φ = x - ψ - n * Real.pi by rw [hψ]; ring, Real.sin_sub_int_mul_pi]
    rcases Int.even_or_odd n with h | h
    · rw [h.neg_one_zpow, one_mul]
    · rw [h.neg_one_zpow]; simp
  simp only [hsin]
  have hm1 : (1 : ℝ) ≤ m := by exact_mod_cast hm
  have last : ∀ b : ℝ, Real.pi - ψ ≤ b → |Real.sin (((0 : ℕ) : ℝ) * δ - ψ)| ≤ b := by
    intro b hb
    have : |Real.sin (((0 : ℕ) : ℝ) * δ - ψ)| = |Real.sin (Real.pi - ψ)| := by
      rw [Real.sin_pi_sub]; push_cast; rw [zero_mul, zero_sub, Real.sin_neg, abs_neg]
    rw [this]
    exact (Real.abs_sin_le_abs).trans (by rw [abs_of_nonneg (by linarith)]; exact hb)
  have q0 : 0 ≤ ψ / δ + 1 / 2 := by positivity
  have f1 := Nat.floor_le q0
  have f2 := Nat.lt_floor_add_one (ψ / δ + 1 / 2)
  set i := ⌊ψ / δ + 1 / 2⌋₊ with hi
  have g1 : i * δ - ψ ≤ δ / 2 := by
    have := mul_le_mul_of_nonneg_right f1 hδ.le
    rw [add_mul, div_mul_cancel₀ _ hδ.ne'] at this; linarith
  have g2 : -(δ / 2) ≤ i * δ - ψ := by
    have := mul_le_mul_of_nonneg_right f2.le hδ.le
    rw [add_mul, add_mul, div_mul_cancel₀ _ hδ.ne'] at this; linarith
  by_cases him : i < m
  · have hb : |Real.sin (i * δ - ψ)| ≤ δ / 2 := Real.abs_sin_le_abs.trans (abs_le.2 ⟨g2, g1⟩)
    exact ⟨⟨i, him, hb.trans (by linarith)⟩, fun _ => ⟨i, him, hb⟩⟩
  have hmi : (m : ℝ) ≤ i := by exact_mod_cast not_lt.1 him
  have hmi' := mul_le_mul_of_nonneg_right hmi hδ.le
  constructor
  · by_cases hc : Real.pi - ψ ≤ 3 / 4 * δ
    · exact ⟨0, hm, last _ hc⟩
    · refine ⟨m - 1, by omega, Real.abs_sin_le_abs.trans ?_⟩
      rw [Nat.cast_sub hm]
      push_cast
      apply abs_le.2; constructor <;> linarith
  · intro hf
    exact ⟨0, hm, last _ (by linarith)⟩

/-- The number of lanes fits half a turn: at the rim, the last leg is at most one lane spacing from the first. -/
def FitsTurn (E s : ℝ) : Prop := ∃ n : ℕ, ((n : ℝ) - 1 / 2) * s < Real.pi * E ∧ Real.pi * E ≤ n * s

theorem sector_nonempty {rounds : ℕ} {c : Pos} {E s lead trail : ℝ} {legs : List Line} (hE : 0 < E)
    (hsE : s < 2 * Real.pi * E) (h : sector rounds c E s lead trail = some legs) : 0 < legs.length := by
  obtain ⟨h1, h2⟩ := sector_inv hE.ne' h
  rcases Nat.eq_zero_or_pos legs.length with h0 | h0
  · rw [h0] at h2
    have : s / E < 2 * Real.pi := (div_lt_iff₀ hE).2 hsE
    push_cast at h2; linarith
  · exact h0

theorem sector_sees {rounds : ℕ} {c z : Pos} {E s lead trail : ℝ} {legs : List Line} (hE : 0 < E) (hs : 0 < s)
    (hsE : s < 2 * Real.pi * E) (hlt : trail ≤ lead)
    (h : sector rounds c E s lead trail = some legs) (hz : (z.n - c.n) ^ 2 + (z.e - c.e) ^ 2 ≤ E ^ 2) :
    (∃ l ∈ legs, Swept lead trail (3 / 4 * s) (course l.heading) l.start l.stop z) ∧
    (FitsTurn E s → ∃ l ∈ legs, Swept lead trail (s / 2) (course l.heading) l.start l.stop z) := by
  obtain ⟨h1, h2⟩ := sector_inv hE.ne' h
  have hR : 0 < 2 * E + lead - trail := by linarith
  have hδ : 0 < s / E := by positivity
  have hm := sector_nonempty hE hsE h
  obtain ⟨ρ, φ, r0, re, rn, rr⟩ := exists_polar c z
  have hρ : ρ ≤ E := by
    apply le_of_sq_le_sq _ hE.le
    rw [rr]; exact hz
  have key : ∀ b : ℝ, ∀ i (hi : i < legs.length), |Real.sin (i * (s / E) - φ)| ≤ b * (s / E) →
      Swept lead trail (b * s) (course legs[i].heading) legs[i].start legs[i].stop z := by
    intro b i hi hb
    obtain ⟨-, -, r3, r4, r5, r6⟩ := sectorLeg_spec (c := c) (θ := i * (s / E)) (up := upAt true i) hR
    rw [← (h1 i hi).1, sign_upAt] at r3 r4
    rw [← (h1 i hi).1] at r5 r6
    rw [r5, r6]
    apply leg_sees hE hlt hz
    have e : across (course legs[i].heading) c z = (-1) ^ i * (ρ * Real.sin (i * (s / E) - φ)) := by
      simp only [across]; rw [r3, r4, re, rn, Real.sin_sub]; ring
    rw [e, abs_mul, abs_pow, abs_neg, abs_one, one_pow, one_mul, abs_mul, abs_of_nonneg r0]
    have e2 : b * s = E * (b * (s / E)) := by field_simp
    rw [e2]
    exact mul_le_mul hρ hb (abs_nonneg _) hE.le
  obtain ⟨n1, n2⟩ := near_line (φ := φ) hδ hm h2
  constructor
  · obtain ⟨i, hi, hb⟩ := n1
    exact ⟨legs[i], List.getElem_mem hi, key _ i hi hb⟩
  · rintro ⟨n, f1, f2⟩
    obtain ⟨i, hi, hb⟩ := n2 (by
      have hl : (n : ℝ) < legs.length + 1 := by
        have a1 : ((n : ℝ) - 1 / 2) * (s / E) < Real.pi := by
          rw [← mul_div_assoc]; exact (div_lt_iff₀ hE).2 f1
        have : ((n : ℝ) - 1 / 2) * (s / E) < (legs.length + 1 / 2) * (s / E) := by linarith
        have := lt_of_mul_lt_mul_right this hδ.le
        linarith
      have hl' : (n : ℝ) ≤ legs.length := by
        have : n < legs.length + 1 := by exact_mod_cast hl
        exact_mod_cast Nat.lt_succ_iff.1 this
      have a2 : Real.pi ≤ n * (s / E) := by rw [← mul_div_assoc]; exact (le_div_iff₀ hE).2 f2
      exact a2.trans (mul_le_mul_of_nonneg_right hl' hδ.le))
    refine ⟨legs[i], List.getElem_mem hi, ?_⟩
    have := key (1 / 2) i hi (by linarith)
    rwa [show 1 / 2 * s = s / 2 by ring] at this

/-! ### The request -/

theorem lineRoutesFrom_ids {alt : ℝ} : ∀ {ls : List Line} {prev : Line} {id : ℤ} {j : ℕ}
    (hj : j < (lineRoutesFrom alt prev id ls).length),
    ((lineRoutesFrom alt prev id ls)[j]).id = id + j ∧ ((lineRoutesFrom alt prev id ls)[j]).alt = alt
  | [], _, _, j, hj => by simp [lineRoutesFrom] at hj
  | l :: ls, prev, id, 0, hj => by simp [lineRoutesFrom]
  | l :: ls, prev, id, 1, hj => by simp [lineRoutesFrom]
  | l :: ls, prev, id, j + 2, hj => by
      have := lineRoutesFrom_ids (alt := alt) (ls := ls) (prev := l) (id := id + 2)
        (j := j) (by simpa [lineRoutesFrom] using hj)
      simp only [lineRoutesFrom, List.getElem_cons_succ]
      refine ⟨?_, this.2⟩
      rw [this.1]; push_cast; ring

theorem lineRoutesFrom_joined {alt : ℝ} : ∀ {ls : List Line} {prev : Line} {id : ℤ}
    {r : Route}, r.stop = prev.stop → r.stopHeading = prev.heading →
    (r :: lineRoutesFrom alt prev id ls).IsChain Joined
  | [], prev, id, r, h1, h2 => by simp [lineRoutesFrom]
  | l :: ls, prev, id, r, h1, h2 => by
      simp only [lineRoutesFrom, List.isChain_cons_cons]
      exact ⟨⟨h1, h2⟩, ⟨rfl, rfl⟩, lineRoutesFrom_joined rfl rfl⟩

theorem lineRoutesFrom_legs {alt : ℝ} : ∀ {ls : List Line} {prev : Line} {id : ℤ},
    (lineRoutesFrom alt prev id ls).length = 2 * ls.length ∧
    ∀ i (hi : i < ls.length), ∃ r, (lineRoutesFrom alt prev id ls)[2 * i + 1]? = some r ∧
      r.start = ls[i].start ∧ r.stop = ls[i].stop ∧ r.startHeading = ls[i].heading ∧ r.stopHeading = ls[i].heading
  | [], _, _ => by simp [lineRoutesFrom]
  | l :: ls, prev, id => by
      obtain ⟨h1, h2⟩ := lineRoutesFrom_legs (alt := alt) (ls := ls) (prev := l) (id := id + 2)
      refine ⟨by simp [lineRoutesFrom, h1]; omega, ?_⟩
      intro i hi
      cases i with
      | zero => exact ⟨_, rfl, rfl, rfl, rfl, rfl⟩
      | succ j =>
          obtain ⟨r, hr, hrest⟩ := h2 j (by simpa using hi)
          refine ⟨r, ?_, by simpa using hrest⟩
          rw [show 2 * (j + 1) + 1 = 2 * j + 1 + 1 + 1 by omega]
          simpa [lineRoutesFrom] using hr

theorem lineRoutes_legs {alt : ℝ} {legs : List Line} :
    (lineRoutes alt legs).length = 2 * legs.length - 1 ∧
    ∀ i (hi : i < legs.length), ∃ r, (lineRoutes alt legs)[2 * i]? = some r ∧
      r.start = legs[i].start ∧ r.stop = legs[i].stop ∧ r.startHeading = legs[i].heading ∧
      r.stopHeading = legs[i].heading := by
  cases legs with
  | nil => simp [lineRoutes]
  | cons l ls =>
      obtain ⟨h1, h2⟩ := lineRoutesFrom_legs (alt := alt) (ls := ls) (prev := l) (id := firstRouteId + 1)
      refine ⟨by simp [lineRoutes, h1]; omega, ?_⟩
      intro i hi
      cases i with
      | zero => exact ⟨_, rfl, rfl, rfl, rfl, rfl⟩
      | succ j =>
          obtain ⟨r, hr, hrest⟩ := h2 j (by simpa using hi)
          refine ⟨r, ?_, by simpa using hrest⟩
          rw [show 2 * (j + 1) = 2 * j + 1 + 1 by omega]
          simpa [lineRoutes] using hr

theorem onSector_inv {rounds : ℕ} {c : Pos} {E alt width lead trail : ℝ} {r : Reply} {rs : List Route}
    (h : onSector rounds c E alt width lead trail = some r) (hq : r.request = some rs) :
    0.01 < 0.9 * width ∧ rs ≠ [] ∧ ∃ legs, sector rounds c E (0.9 * width) lead trail = some legs ∧
      rs = lineRoutes alt legs ∧ r.start = rs.head?.map (fun r => (r.start, r.startHeading)) ∧
      r.stop = rs.getLast?.map (fun r => (r.stop, r.stopHeading)) ∧ r.pending = rs.map (·.id) := by
  unfold onSector at h
  by_cases hs : 0.01 < width * 0.9
  · rw [if_pos hs, Option.map_eq_some_iff] at h
    obtain ⟨legs, hl, rfl⟩ := h
    simp only at hq
    by_cases hn : lineRoutes alt legs = []
    · rw [if_pos hn] at hq; cases hq
    · rw [if_neg hn] at hq
      obtain rfl := (Option.some.inj hq).symm
      rw [mul_comm] at hs hl
      exact ⟨hs, hn, legs, hl, rfl, rfl, rfl, rfl⟩
  · rw [if_neg hs] at h
    obtain rfl := (Option.some.inj h).symm
    cases hq

/-- **C141.**  What is asked for: the legs of the search and, between them, the ways from the end of one to the start of
the next, joined in position and heading, numbered from 2 on, at the altitude of the option, from the start of the option
to its end. -/
theorem C141_request {rounds : ℕ} {c : Pos} {E alt width lead trail : ℝ} {r : Reply} {rs : List Route}
    (h : onSector rounds c E alt width lead trail = some r) (hq : r.request = some rs) :
    (∀ j (hj : j < rs.length), rs[j].id = 2 + j ∧ rs[j].alt = alt) ∧ r.pending = rs.map (·.id) ∧
    (∀ j (hj : j + 1 < rs.length), rs[j].stop = rs[j + 1].start ∧ rs[j].stopHeading = rs[j + 1].startHeading) ∧
    (∃ hne : rs ≠ [], r.start = some ((rs.head hne).start, (rs.head hne).startHeading) ∧
      r.stop = some ((rs.getLast hne).stop, (rs.getLast hne).stopHeading)) ∧
    ∃ legs, sector rounds c E (0.9 * width) lead trail = some legs ∧ rs.length = 2 * legs.length - 1 ∧
      ∀ i (hi : i < legs.length), ∃ q, rs[2 * i]? = some q ∧ q.start = legs[i].start ∧ q.stop = legs[i].stop ∧
        q.startHeading = legs[i].heading ∧ q.stopHeading = legs[i].heading := by
  obtain ⟨-, hne, legs, hl, rfl, h1, h2, h3⟩ := onSector_inv h hq
  refine ⟨?_, h3, ?_, ⟨hne, ?_, ?_⟩, legs, hl, lineRoutes_legs.1, lineRoutes_legs.2⟩
  · intro j hj
    cases legs with
    | nil => simp [lineRoutes] at hj
    | cons l ls =>
        cases j with
        | zero => simp [lineRoutes, firstRouteId]
        | succ j =>
            have := lineRoutesFrom_ids (alt := alt) (ls := ls) (prev := l)
              (id := firstRouteId + 1) (j := j) (by simpa [lineRoutes] using hj)
            simp only [lineRoutes, List.getElem_cons_succ]
            refine ⟨?_, this.2⟩
            rw [this.1]; simp only [firstRouteId]; push_cast; ring
  · have hc : (lineRoutes alt legs).IsChain Joined := by
      cases legs with
      | nil => simp [lineRoutes]
      | cons l ls => exact lineRoutesFrom_joined rfl rfl
    intro j hj
    exact List.isChain_iff_getElem.1 hc j hj
  · rw [h1, List.head?_eq_some_head hne]; rfl
  · rw [h2, List.getLast?_eq_some_getLast hne]; rfl

/-- **C141.**  A request is sent just when the lanes are more than a centimetre apart and not so far apart that half a
step fills half a turn. -/
theorem C141_sent {rounds : ℕ} {c : Pos} {E alt width lead trail : ℝ} {r : Reply} (hE : 0 < E)
    (h : onSector rounds c E alt width lead trail = some r) :
    r.request ≠ none ↔ 0.01 < 0.9 * width ∧ 0.9 * width < 2 * Real.pi * E := by
  constructor
  · intro hn
    obtain ⟨rs, hq⟩ := Option.ne_none_iff_exists'.1 hn
    obtain ⟨h1, h2, legs, hl, rfl, -⟩ := onSector_inv h hq
    refine ⟨h1, ?_⟩
    obtain ⟨g1, -⟩ := sector_inv hE.ne' hl
    have h0 : 0 < legs.length := by
      rcases legs with _ | ⟨l, ls⟩
      · simp [lineRoutes] at h2
      · simp
    have := (g1 0 h0).2
    push_cast at this
    have h3 : 0.9 * width / E < 2 * Real.pi := by linarith
    exact (div_lt_iff₀ hE).1 h3
  · rintro ⟨h1, h2⟩ hn
    unfold onSector at h
    rw [if_pos (by linarith), Option.map_eq_some_iff] at h
    obtain ⟨legs, hl, rfl⟩ := h
    rw [mul_comm] at h2
    have h0 := sector_nonempty hE (by linarith) hl
    simp only at hn
    have : lineRoutes alt legs ≠ [] := by
      rcases legs with _ | ⟨l, ls⟩
      · simp at h0
      · simp [lineRoutes]
    rw [if_neg this] at hn
    cases hn

/-- **C141**, what holds for every extent and footprint: every point of the disc is seen by the requested routes, with a
sensor that reaches three quarters of a lane spacing to either side; half a lane spacing suffices, and so the footprint,
when the lanes fit half a turn.  Missing from the full claim: the footprint for every extent. -/
theorem C141_seen_partial {rounds : ℕ} {c : Pos} {E alt width lead trail : ℝ} {r : Reply} {rs : List Route} (hE : 0 < E)
    (hlt : trail ≤ lead) (h : onSector rounds c E alt width lead trail = some r) (hq : r.request = some rs) {z : Pos}
    (hz : (z.n - c.n) ^ 2 + (z.e - c.e) ^ 2 ≤ E ^ 2) :
    (∃ q ∈ rs, RouteSees lead trail (3 / 4 * (0.9 * width)) q z) ∧
    ((∃ n : ℕ, ((n : ℝ) - 1 / 2) * (0.9 * width) < Real.pi * E ∧ Real.pi * E ≤ n * (0.9 * width)) →
      ∃ q ∈ rs, RouteSees lead trail (width / 2) q z) := by
  have hs := (C141_sent hE h).1 (by rw [hq]; simp)
  obtain ⟨-, -, legs, hl, rfl, -⟩ := onSector_inv h hq
  obtain ⟨s1, s2⟩ := sector_sees hE (by linarith [hs.1]) hs.2 hlt hl hz
  have key : ∀ b b' : ℝ, b ≤ b' → (∃ l ∈ legs, Swept lead trail b (course l.heading) l.start l.stop z) →
      ∃ q ∈ lineRoutes alt legs, RouteSees lead trail b' q z := by
    rintro b b' hb ⟨l, hlm, t, t0, t1, a1, a2, a3⟩
    obtain ⟨i, hi, rfl⟩ := List.getElem_of_mem hlm
    obtain ⟨q, h1, h2, h3, h4, h5⟩ := (lineRoutes_legs (alt := alt)).2 i hi
    refine ⟨q, List.mem_of_getElem? h1, ?_⟩
    unfold RouteSees
    rw [h2, h3, h4]
    exact ⟨t, t0, t1, a1, a2, a3.trans hb⟩
  exact ⟨key _ _ (le_refl _) s1, fun hf => key _ _ (by linarith [hs.1]) (s2 hf)⟩

end Verif.Pattern
