import Mathlib.Algebra.Order.Floor.Ring
import Mathlib.Algebra.Order.Floor.Semiring
import Verif.Search.Chord

/-!
# The loop over the lanes
-/

namespace Verif.Search

/-- Whether leg number `i` goes up, the first going as `up` says. -/
def upAt (up : Bool) (i : ℕ) : Bool := if i % 2 = 0 then up else !up

theorem upAt_succ (up : Bool) (i : ℕ) : upAt (!up) i = upAt up (i + 1) := by
  unfold upAt
  rcases Nat.mod_two_eq_zero_or_one i with h | h
  · rw [if_pos h, if_neg (by omega)]
  · rw [if_neg (by omega), if_pos (by omega)]; simp

/-- The lane at `x` is still to be flown. -/
def Going (lo hi over x : ℝ) : Prop := (0 < over ∧ x < hi) ∨ (¬ 0 < over ∧ lo < x)

/-- What the loop gives. -/
theorem scan_spec {corners : List Pos} {lo hi south north over lead trail : ℝ} :
    ∀ {k : ℕ} {x : ℝ} {up : Bool} {legs : List Leg} {good : Bool},
    scan corners lo hi south north over lead trail k x up = some (legs, good) →
    (∀ i (hi' : i < legs.length), Going lo hi over (x + i * over) ∧
      ∃ p q ps, hits corners ⟨south, x + i * over⟩ ⟨north, x + i * over⟩ = p :: q :: ps ∧
        legs[i] = leg p ((q :: ps).getLast (by simp)) (upAt up i) lead trail) ∧
    (good = true → ¬ Going lo hi over (x + legs.length * over)) ∧
    (good = false → Going lo hi over (x + legs.length * over) ∧
      (hits corners ⟨south, x + legs.length * over⟩ ⟨north, x + legs.length * over⟩).length ≤ 1)
  | 0, x, up, legs, good, h => by simp [scan] at h
  | k + 1, x, up, legs, good, h => by
      unfold scan at h
      split at h
      case isTrue hg =>
        split at h
        case h_1 p q ps hh =>
          split at h
          case h_1 legs' good' hs =>
            simp only [Option.some.injEq, Prod.mk.injEq] at h
            obtain ⟨rfl, rfl⟩ := h
            obtain ⟨h1, h2, h3⟩ := scan_spec hs
            have e : ∀ j : ℕ, x + over + (j : ℝ) * over = x + ((j + 1 : ℕ) : ℝ) * over := by
              intro j; push_cast; ring
            refine ⟨?_, ?_, ?_⟩
            · intro i hi'
              cases i with
              | zero =>
                  simp only [Nat.cast_zero, zero_mul, add_zero, List.getElem_cons_zero]
                  exact ⟨hg, p, q, ps, hh, by simp [upAt]⟩
              | succ j =>
                  have := h1 j (by simpa using hi')
                  rw [e, upAt_succ] at this
                  simpa using this
            · intro hgood
              have := h2 hgood
              rw [e] at this
              simpa using this
            · intro hgood
              have := h3 hgood
              rw [e] at this
              simpa using this
          case h_2 => exact absurd h (by simp)
        case h_2 ps hh =>
          simp only [Option.some.injEq, Prod.mk.injEq] at h
          obtain ⟨rfl, rfl⟩ := h
          refine ⟨by simp, by simp, fun _ => ?_⟩
          simp only [List.length_nil, Nat.cast_zero, zero_mul, add_zero]
          refine ⟨hg, ?_⟩
          match hm : hits corners ⟨south, x⟩ ⟨north, x⟩ with
          | [] => simp
          | [_] => simp
          | p :: q :: ps => exact absurd hm (hh p q ps)
      case isFalse hg =>
        simp only [Option.some.injEq, Prod.mk.injEq] at h
        obtain ⟨rfl, rfl⟩ := h
        refine ⟨by simp, fun _ => ?_, by simp⟩
        simp only [List.length_nil, Nat.cast_zero, zero_mul, add_zero]
        exact hg

/-- Enough rounds make the loop end. -/
theorem scan_some {corners : List Pos} {lo hi south north over lead trail : ℝ} :
    ∀ {k : ℕ} {x : ℝ} {up : Bool},
    ¬ Going lo hi over (x + k * over) →
    ∃ r, scan corners lo hi south north over lead trail (k + 1) x up = some r
  | 0, x, up, h => by
      have hg : ¬ Going lo hi over x := by simpa using h
      exact ⟨([], true), by unfold scan; exact if_neg hg⟩
  | k + 1, x, up, h => by
      by_cases hg : Going lo hi over x
      · have e : x + ((k + 1 : ℕ) : ℝ) * over = x + over + k * over := by push_cast; ring
        rw [e] at h
        obtain ⟨r, hr⟩ := scan_some (corners := corners) (south := south) (north := north)
          (lead := lead) (trail := trail) (up := !up) h
        unfold scan
        rw [if_pos (show (0 < over ∧ x < hi) ∨ (¬ 0 < over ∧ lo < x) from hg)]
        match hits corners ⟨south, x⟩ ⟨north, x⟩ with
        | [] => exact ⟨_, rfl⟩
        | [_] => exact ⟨_, rfl⟩
        | p :: q :: ps => simp only [hr]; exact ⟨_, rfl⟩
      · exact ⟨([], true), by unfold scan; exact if_neg hg⟩

/-- More rounds do not change the outcome. -/
theorem scan_mono {corners : List Pos} {lo hi south north over lead trail : ℝ} :
    ∀ {k : ℕ} {x : ℝ} {up : Bool} {r},
    scan corners lo hi south north over lead trail k x up = some r → ∀ m,
    scan corners lo hi south north over lead trail (k + m) x up = some r
  | 0, x, up, r, h, m => by simp [scan] at h
  | k + 1, x, up, r, h, m => by
      have e : k + 1 + m = (k + m) + 1 := by omega
      rw [e]
      unfold scan at h ⊢
      split at h
      case isTrue hg =>
        rw [if_pos hg]
        split at h
        case h_1 p q ps hh =>
          split at h
          case h_1 legs good hs =>
            simp only [scan_mono hs m]
            exact h
          case h_2 => exact absurd h (by simp)
        case h_2 ps hh =>
          exact h
      case isFalse hg => rw [if_neg hg]; exact h

/-! ### The first lane and the step -/

/-- With the step and the first lane as the services choose them, the loop is given
enough rounds. -/
theorem rounds_enough {k : Kind} {lo hi s : ℝ} (hs : 0 < s) (hlo : lo ≤ hi) :
    ¬ Going lo hi (laneOver k s) (firstLane k lo hi s + (⌈(hi - lo) / s⌉₊ : ℝ) * laneOver k s) := by
  have hc : hi - lo ≤ (⌈(hi - lo) / s⌉₊ : ℝ) * s := by
    have := Nat.le_ceil ((hi - lo) / s)
    rwa [div_le_iff₀ hs] at this
  have up : ∀ x, lo ≤ x → ¬ Going lo hi s (x + (⌈(hi - lo) / s⌉₊ : ℝ) * s) := by
    rintro x hx (⟨-, h⟩ | ⟨h, -⟩)
    · linarith
    · exact h hs
  have down : ∀ x, x ≤ hi → ¬ Going lo hi (-s) (x + (⌈(hi - lo) / s⌉₊ : ℝ) * -s) := by
    rintro x hx (⟨h, -⟩ | ⟨-, h⟩)
    · linarith
    · linarith
  cases k with
  | cmasi =>
      simp only [laneOver, firstLane]
      split
      · exact up _ (by linarith)
      · exact up _ (by linarith)
  | angled o =>
      simp only [laneOver, firstLane]
      by_cases ho : o % 4 = 1 ∨ o % 4 = 3
      · rw [if_pos ho, if_pos ho]
        split
        · exact up _ (by linarith)
        · exact up _ (by linarith)
      · rw [if_neg ho, if_neg ho]
        split
        · exact down _ (by linarith)
        · exact down _ (by linarith)

/-- A lane that is flown lies strictly within the extremes. -/
theorem lane_within {k : Kind} {lo hi s : ℝ} (hs : 0 < s) {i : ℕ}
    (h : Going lo hi (laneOver k s) (firstLane k lo hi s + i * laneOver k s)) :
    lo < firstLane k lo hi s + i * laneOver k s ∧ firstLane k lo hi s + i * laneOver k s < hi := by
  have hi0 : (0 : ℝ) ≤ i * s := mul_nonneg (Nat.cast_nonneg i) hs.le
  have up : ∀ x, Going lo hi s (x + i * s) → lo + s / 2 = x ∨ lo + (hi - lo) / 2 = x →
      lo < x + i * s ∧ x + i * s < hi := by
    rintro x (⟨-, h⟩ | ⟨h, -⟩) hx
    · rcases hx with rfl | rfl <;> constructor <;> linarith
    · exact absurd hs h
  have down : ∀ x, Going lo hi (-s) (x + i * -s) → hi - s / 2 = x ∨ lo + (hi - lo) / 2 = x →
      lo < x + i * -s ∧ x + i * -s < hi := by
    rintro x (⟨h, -⟩ | ⟨-, h⟩) hx
    · linarith
    · rcases hx with rfl | rfl <;> constructor <;> linarith
  cases k with
  | cmasi =>
      simp only [laneOver, firstLane] at h ⊢
      split at h
      case isTrue hc => rw [if_pos hc]; exact up _ h (.inr rfl)
      case isFalse hc => rw [if_neg hc]; exact up _ h (.inl rfl)
  | angled o =>
      simp only [laneOver, firstLane] at h ⊢
      by_cases ho : o % 4 = 1 ∨ o % 4 = 3
      · rw [if_pos ho, if_pos ho] at h ⊢
        split at h
        case isTrue hc => rw [if_pos hc]; exact up _ h (.inr rfl)
        case isFalse hc => rw [if_neg hc]; exact up _ h (.inl rfl)
      · rw [if_neg ho, if_neg ho] at h ⊢
        split at h
        case isTrue hc => rw [if_pos hc]; exact down _ h (.inr rfl)
        case isFalse hc => rw [if_neg hc]; exact down _ h (.inl rfl)

/-- Lanes from half a step inside one side, until the other is reached, are within half
a step of everything, when the width is more than half a step over a whole number. -/
theorem cover_up {lo hi s e : ℝ} {m n : ℕ} (hs : 0 < s) (hm : hi ≤ lo + s / 2 + m * s)
    (hn1 : ((n : ℝ) - 1 / 2) * s < hi - lo) (hn2 : hi - lo ≤ n * s) (hw : lo < hi)
    (h1 : lo ≤ e) (h2 : e ≤ hi) : ∃ i < m, |e - (lo + s / 2 + i * s)| ≤ s / 2 := by
  have hmn : n ≤ m := by
    by_contra hc
    have : (m : ℝ) + 1 ≤ n := by exact_mod_cast Nat.lt_of_not_le hc
    have := mul_le_mul_of_nonneg_right this hs.le
    nlinarith
  have hn0 : 0 < n := by
    rcases Nat.eq_zero_or_pos n with rfl | h
    · simp at hn2; linarith
    · exact h
  have h0 : 0 ≤ (e - lo) / s := div_nonneg (by linarith) hs.le
  have f1 := Nat.floor_le h0
  have f2 := Nat.lt_floor_add_one ((e - lo) / s)
  rw [le_div_iff₀ hs] at f1
  rw [div_lt_iff₀ hs] at f2
  by_cases hf : ⌊(e - lo) / s⌋₊ < n
  · refine ⟨_, lt_of_lt_of_le hf hmn, abs_le.2 ⟨?_, ?_⟩⟩ <;> nlinarith
  · have hle : (n : ℝ) ≤ ⌊(e - lo) / s⌋₊ := by exact_mod_cast Nat.le_of_not_lt hf
    have := mul_le_mul_of_nonneg_right hle hs.le
    have he : e - lo = n * s := by linarith
    refine ⟨n - 1, by omega, ?_⟩
    have hc : ((n - 1 : ℕ) : ℝ) = n - 1 := by rw [Nat.cast_sub hn0]; simp
    rw [hc, show e - (lo + s / 2 + (n - 1) * s) = s / 2 by linear_combination he]
    exact le_of_eq (abs_of_pos (by linarith))

/-- In any case everything is within a step of a lane. -/
theorem near_up {lo hi s e : ℝ} {m : ℕ} (hs : 0 < s) (hm : hi ≤ lo + s / 2 + m * s) (hm0 : 0 < m)
    (h1 : lo ≤ e) (h2 : e ≤ hi) : ∃ i < m, |e - (lo + s / 2 + i * s)| ≤ s := by
  have h0 : 0 ≤ (e - lo) / s := div_nonneg (by linarith) hs.le
  have f1 := Nat.floor_le h0
  have f2 := Nat.lt_floor_add_one ((e - lo) / s)
  rw [le_div_iff₀ hs] at f1
  rw [div_lt_iff₀ hs] at f2
  by_cases hf : ⌊(e - lo) / s⌋₊ < m
  · refine ⟨_, hf, abs_le.2 ⟨?_, ?_⟩⟩ <;> nlinarith
  · have hle : (m : ℝ) ≤ ⌊(e - lo) / s⌋₊ := by exact_mod_cast Nat.le_of_not_lt hf
    have := mul_le_mul_of_nonneg_right hle hs.le
    refine ⟨m - 1, by omega, ?_⟩
    have hc : ((m - 1 : ℕ) : ℝ) = m - 1 := by rw [Nat.cast_sub hm0]; simp
    rw [hc]
    apply abs_le.2; constructor <;> nlinarith

/-! ### What a leg sweeps -/

/-- In the turned frame: the flight from `a` to `b`, northward. -/
theorem sweep_up {a b : Pos} {lead trail w δ x : ℝ} {z : Pos} (hlt : trail ≤ lead)
    (ha : |a.e - x| ≤ 1 / 2) (hb : |b.e - x| ≤ 1 / 2) (hab : a.n + lead ≤ b.n + trail)
    (hδ : 0 ≤ δ) (h1 : a.n + lead - δ ≤ z.n) (h2 : z.n ≤ b.n + trail + δ) (hw : |z.e - x| ≤ w) :
    ∃ t, 0 ≤ t ∧ t ≤ 1 ∧ trail - δ ≤ z.n - (between a b t).n ∧
      z.n - (between a b t).n ≤ lead + δ ∧ |z.e - (between a b t).e| ≤ w + 1 / 2 := by
  obtain ⟨y, hy1, hy2, hy3⟩ : ∃ y, a.n + lead ≤ y ∧ y ≤ b.n + trail ∧ |z.n - y| ≤ δ := by
    by_cases c1 : z.n < a.n + lead
    · exact ⟨a.n + lead, le_refl _, hab, abs_le.2 ⟨by linarith, by linarith⟩⟩
    · by_cases c2 : b.n + trail < z.n
      · exact ⟨b.n + trail, hab, le_refl _, abs_le.2 ⟨by linarith, by linarith⟩⟩
      · exact ⟨z.n, by linarith, by linarith, by simpa using hδ⟩
  obtain ⟨y1, y2⟩ := abs_le.1 hy3
  obtain ⟨t, ht0, ht1, htn⟩ : ∃ t, 0 ≤ t ∧ t ≤ 1 ∧ a.n + t * (b.n - a.n) = y - lead := by
    by_cases hd : b.n - a.n = 0
    · exact ⟨0, le_refl _, zero_le_one, by rw [hd]; linarith⟩
    · have hp : 0 < b.n - a.n := lt_of_le_of_ne (by linarith) (Ne.symm hd)
      refine ⟨(y - lead - a.n) / (b.n - a.n), div_nonneg (by linarith) hp.le,
        (div_le_one hp).2 (by linarith), ?_⟩
      rw [div_mul_cancel₀ _ hd]; ring
  refine ⟨t, ht0, ht1, ?_, ?_, ?_⟩
  · simp only [between, htn]; linarith
  · simp only [between, htn]; linarith
  · obtain ⟨a1, a2⟩ := abs_le.1 ha
    obtain ⟨b1, b2⟩ := abs_le.1 hb
    obtain ⟨w1, w2⟩ := abs_le.1 hw
    simp only [between]
    have k1 := mul_le_mul_of_nonneg_left a1 (sub_nonneg.2 ht1)
    have k2 := mul_le_mul_of_nonneg_left a2 (sub_nonneg.2 ht1)
    have k3 := mul_le_mul_of_nonneg_left b1 ht0
    have k4 := mul_le_mul_of_nonneg_left b2 ht0
    apply abs_le.2; constructor <;> nlinarith

/-- The same southward. -/
theorem sweep_down {a b : Pos} {lead trail w δ x : ℝ} {z : Pos} (hlt : trail ≤ lead)
    (ha : |a.e - x| ≤ 1 / 2) (hb : |b.e - x| ≤ 1 / 2) (hab : b.n - trail ≤ a.n - lead)
    (hδ : 0 ≤ δ) (h1 : b.n - trail - δ ≤ z.n) (h2 : z.n ≤ a.n - lead + δ) (hw : |z.e - x| ≤ w) :
    ∃ t, 0 ≤ t ∧ t ≤ 1 ∧ trail - δ ≤ -(z.n - (between a b t).n) ∧
      -(z.n - (between a b t).n) ≤ lead + δ ∧ |z.e - (between a b t).e| ≤ w + 1 / 2 := by
  obtain ⟨t, t0, t1, c1, c2, c3⟩ := sweep_up (a := ⟨-a.n, a.e⟩) (b := ⟨-b.n, b.e⟩) (z := ⟨-z.n, z.e⟩)
    (δ := δ) hlt ha hb (by simp only; linarith) hδ (by simp only; linarith) (by simp only; linarith) hw
  refine ⟨t, t0, t1, ?_, ?_, ?_⟩
  · simp only [between] at c1 ⊢; linarith
  · simp only [between] at c2 ⊢; linarith
  · simpa only [between] using c3

/-- The leg through two points of the boundary sweeps what lies between them. -/
theorem leg_sweeps {p q : Pos} {up : Bool} {lead trail w δ x : ℝ} {z c : Pos} {ax : ℝ}
    (hlt : trail ≤ lead) (hp : |p.e - x| ≤ 1 / 2) (hq : |q.e - x| ≤ 1 / 2) (hδ : 0 ≤ δ)
    (h1 : min p.n q.n - δ ≤ (turnIn c ax z).n) (h2 : (turnIn c ax z).n ≤ max p.n q.n + δ)
    (hw : |(turnIn c ax z).e - x| ≤ w) :
    Swept (lead + δ) (trail - δ) (w + 1 / 2) (if up then ax else ax + Real.pi)
      (turnOut c ax (leg p q up lead trail).start) (turnOut c ax (leg p q up lead trail).stop) z := by
  have hmin : min p.n q.n = (if p.n < q.n then p else q).n := by
    by_cases h : p.n < q.n
    · rw [if_pos h, min_eq_left h.le]
    · rw [if_neg h, min_eq_right (not_lt.1 h)]
  have hmax : max p.n q.n = (if p.n < q.n then q else p).n := by
    by_cases h : p.n < q.n
    · rw [if_pos h, max_eq_right h.le]
    · rw [if_neg h, max_eq_left (not_lt.1 h)]
  have hle : (if p.n < q.n then p else q).n ≤ (if p.n < q.n then q else p).n := by
    rw [← hmin, ← hmax]; exact min_le_max
  have hs : |(if p.n < q.n then p else q).e - x| ≤ 1 / 2 := by split <;> assumption
  have hn : |(if p.n < q.n then q else p).e - x| ≤ 1 / 2 := by split <;> assumption
  rw [hmin] at h1
  rw [hmax] at h2
  cases up with
  | true =>
      obtain ⟨t, t0, t1, c1, c2, c3⟩ := sweep_up
        (a := ⟨(if p.n < q.n then p else q).n - lead, (if p.n < q.n then p else q).e⟩)
        (b := ⟨(if p.n < q.n then q else p).n - trail, (if p.n < q.n then q else p).e⟩)
        (z := turnIn c ax z) (δ := δ) hlt hs hn (by simp only; linarith) hδ (by simp only; linarith)
        (by simp only; linarith) hw
      refine ⟨t, t0, t1, ?_⟩
      rw [between_turn]
      simp only [Sees, leg, if_true, along_turn, across_turn]
      exact ⟨c1, c2, c3⟩
  | false =>
      obtain ⟨t, t0, t1, c1, c2, c3⟩ := sweep_down
        (a := ⟨(if p.n < q.n then q else p).n + lead, (if p.n < q.n then q else p).e⟩)
        (b := ⟨(if p.n < q.n then p else q).n + trail, (if p.n < q.n then p else q).e⟩)
        (z := turnIn c ax z) (δ := δ) hlt hn hs (by simp only; linarith) hδ (by simp only; linarith)
        (by simp only; linarith) hw
      refine ⟨t, t0, t1, ?_⟩
      rw [between_turn]
      simp only [Sees, leg, Bool.false_eq_true, if_false, along_back, across_back, along_turn,
        across_turn, abs_neg]
      exact ⟨c1, c2, c3⟩

end Verif.Search
