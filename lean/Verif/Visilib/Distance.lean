/-
C117: the distance of two segments, and whether they meet.
-/
import Verif.Visilib.Parity

namespace Verif.Visilib

open Verif.Visibility (Pt along lineAt)

/-- How far a value between 0 and 1 can move towards one that is not between. -/
theorem exit_one {t t₀ : Rat} (h₀ : 0 ≤ t) (h₁ : t ≤ 1) (out : ¬ (0 < t₀ ∧ t₀ < 1)) :
    ∃ l, 0 ≤ l ∧ l ≤ 1 ∧ (t + l * (t₀ - t) = 0 ∨ t + l * (t₀ - t) = 1) ∧
      ∀ m, 0 ≤ m → m ≤ l → 0 ≤ t + m * (t₀ - t) ∧ t + m * (t₀ - t) ≤ 1 := by
  by_cases h : t₀ ≤ 0
  · by_cases k : t = 0
    · refine ⟨0, by decide, by decide, .inl (by grind), ?_⟩
      intro m m₀ m₁
      have : m = 0 := by grind
      subst this
      grind
    · have hc : t / (t - t₀) * (t - t₀) = t := Rat.div_mul_cancel (by grind)
      generalize t / (t - t₀) = l at hc
      refine ⟨l, Rat.le_of_mul_le_mul_right (c := t - t₀) (by grind) (by grind),
        Rat.le_of_mul_le_mul_right (c := t - t₀) (by grind) (by grind), .inl (by grind), ?_⟩
      intro m m₀ m₁
      have k₁ := Rat.mul_nonneg m₀ (show 0 ≤ t - t₀ by grind)
      have k₂ := Rat.mul_nonneg (show 0 ≤ l - m by grind) (show 0 ≤ t - t₀ by grind)
      grind
  · by_cases k : t = 1
    · refine ⟨0, by decide, by decide, .inr (by grind), ?_⟩
      intro m m₀ m₁
      have : m = 0 := by grind
      subst this
      grind
    · have hc : (1 - t) / (t₀ - t) * (t₀ - t) = 1 - t := Rat.div_mul_cancel (by grind)
      generalize (1 - t) / (t₀ - t) = l at hc
      refine ⟨l, Rat.le_of_mul_le_mul_right (c := t₀ - t) (by grind) (by grind),
        Rat.le_of_mul_le_mul_right (c := t₀ - t) (by grind) (by grind), .inr (by grind), ?_⟩
      intro m m₀ m₁
      have k₁ := Rat.mul_nonneg m₀ (show 0 ≤ t₀ - t by grind)
      have k₂ := Rat.mul_nonneg (show 0 ≤ l - m by grind) (show 0 ≤ t₀ - t by grind)
      grind

theorem stay_one {t t₀ m : Rat} (h₀ : 0 ≤ t) (h₁ : t ≤ 1) (h₂ : 0 < t₀) (h₃ : t₀ < 1) (m₀ : 0 ≤ m)
    (m₁ : m ≤ 1) : 0 ≤ t + m * (t₀ - t) ∧ t + m * (t₀ - t) ≤ 1 := by
  have k₁ := Rat.mul_nonneg m₀ (Rat.le_of_lt h₂)
  have k₂ := Rat.mul_nonneg (show 0 ≤ 1 - m by grind) h₀
  have k₃ := Rat.mul_nonneg m₀ (show 0 ≤ 1 - t₀ by grind)
  have k₄ := Rat.mul_nonneg (show 0 ≤ 1 - m by grind) (show 0 ≤ 1 - t by grind)
  grind

/-- A pair of values between 0 and 1, moved towards a pair of which one is not strictly
between, comes to where one of them is 0 or 1. -/
theorem exit_two {t s t₀ s₀ : Rat} (a₀ : 0 ≤ t) (a₁ : t ≤ 1) (b₀ : 0 ≤ s) (b₁ : s ≤ 1)
    (out : ¬ ((0 < t₀ ∧ t₀ < 1) ∧ (0 < s₀ ∧ s₀ < 1))) :
    ∃ l t' s', 0 ≤ l ∧ l ≤ 1 ∧ t' = t + l * (t₀ - t) ∧ s' = s + l * (s₀ - s) ∧
      0 ≤ t' ∧ t' ≤ 1 ∧ 0 ≤ s' ∧ s' ≤ 1 ∧ (t' = 0 ∨ t' = 1 ∨ s' = 0 ∨ s' = 1) := by
  by_cases h : 0 < t₀ ∧ t₀ < 1
  · obtain ⟨l, l₀, l₁, e, st⟩ := exit_one b₀ b₁ (fun k => out ⟨h, k⟩)
    have st₁ := st l l₀ Rat.le_refl
    have st₂ := stay_one a₀ a₁ h.1 h.2 l₀ l₁
    exact ⟨l, _, _, l₀, l₁, rfl, rfl, st₂.1, st₂.2, st₁.1, st₁.2, by grind⟩
  · obtain ⟨l, l₀, l₁, e, st⟩ := exit_one a₀ a₁ h
    by_cases k : 0 < s₀ ∧ s₀ < 1
    · have st₁ := st l l₀ Rat.le_refl
      have st₂ := stay_one b₀ b₁ k.1 k.2 l₀ l₁
      exact ⟨l, _, _, l₀, l₁, rfl, rfl, st₁.1, st₁.2, st₂.1, st₂.2, by grind⟩
    · obtain ⟨m, m₀, m₁, e', st'⟩ := exit_one b₀ b₁ k
      rcases Rat.le_total (a := l) (b := m) with hl | hl
      · have q₁ := st l l₀ Rat.le_refl
        have q₂ := st' l l₀ hl
        exact ⟨l, _, _, l₀, l₁, rfl, rfl, q₁.1, q₁.2, q₂.1, q₂.2, by grind⟩
      · have q₁ := st m m₀ hl
        have q₂ := st' m m₀ Rat.le_refl
        exact ⟨m, _, _, m₀, m₁, rfl, rfl, q₁.1, q₁.2, q₂.1, q₂.2, by grind⟩

/-! ### The least of the four -/

theorem endsD2_le (a b c d : Pt) : endsD2 a b c d ≤ segD2 a c d ∧ endsD2 a b c d ≤ segD2 b c d ∧
    endsD2 a b c d ≤ segD2 c a b ∧ endsD2 a b c d ≤ segD2 d a b := by
  unfold endsD2
  generalize segD2 a c d = p
  generalize segD2 b c d = q
  generalize segD2 c a b = r
  generalize segD2 d a b = s
  dsimp only
  grind

theorem endsD2_mem (a b c d : Pt) : endsD2 a b c d = segD2 a c d ∨ endsD2 a b c d = segD2 b c d ∨
    endsD2 a b c d = segD2 c a b ∨ endsD2 a b c d = segD2 d a b := by
  unfold endsD2
  generalize segD2 a c d = p
  generalize segD2 b c d = q
  generalize segD2 c a b = r
  generalize segD2 d a b = s
  dsimp only
  grind

theorem ends_attained (a b c d : Pt) : ∃ p q, On a b p ∧ On c d q ∧ d2 p q = endsD2 a b c d := by
  rcases endsD2_mem a b c d with h | h | h | h
  · exact ⟨a, _, On.left a b, (C115_nearest a c d).1, h.symm⟩
  · exact ⟨b, _, On.right a b, (C115_nearest b c d).1, h.symm⟩
  · exact ⟨_, c, (C115_nearest c a b).1, On.left c d, by rw [d2_comm]; exact h.symm⟩
  · exact ⟨_, d, (C115_nearest d a b).1, On.right c d, by rw [d2_comm]; exact h.symm⟩

theorem endsD2_nonneg (a b c d : Pt) : 0 ≤ endsD2 a b c d := by
  obtain ⟨p, q, -, -, e⟩ := ends_attained a b c d
  rw [← e]
  exact d2_nonneg p q

/-- At a pair of points one of which is an end, the distance is not less. -/
theorem ends_least {a b c d : Pt} {t s : Rat} (t₀ : 0 ≤ t) (t₁ : t ≤ 1) (s₀ : 0 ≤ s) (s₁ : s ≤ 1)
    (e : t = 0 ∨ t = 1 ∨ s = 0 ∨ s = 1) : endsD2 a b c d ≤ d2 (along a b t) (along c d s) := by
  obtain ⟨h₁, h₂, h₃, h₄⟩ := endsD2_le a b c d
  rcases e with rfl | rfl | rfl | rfl
  · rw [along_zero]
    exact Rat.le_trans h₁ ((C115_nearest a c d).2 _ ⟨s, s₀, s₁, rfl⟩)
  · rw [along_one]
    exact Rat.le_trans h₂ ((C115_nearest b c d).2 _ ⟨s, s₀, s₁, rfl⟩)
  · rw [along_zero, d2_comm]
    exact Rat.le_trans h₃ ((C115_nearest c a b).2 _ ⟨t, t₀, t₁, rfl⟩)
  · rw [along_one, d2_comm]
    exact Rat.le_trans h₄ ((C115_nearest d a b).2 _ ⟨t, t₀, t₁, rfl⟩)

/-- The cross product of the directions. -/
def turn (a b c d : Pt) : Rat := cross (sub b a) (sub d c)

theorem sq_le_one {x : Rat} (h₀ : 0 ≤ x) (h₁ : x ≤ 1) : x * x ≤ 1 := by
  have := Rat.mul_nonneg h₀ (show 0 ≤ 1 - x by grind)
  grind

/-- Towards some pair of values the distance does not grow; where the directions
differ it is the crossing of the lines. -/
theorem target (a b c d : Pt) (t s : Rat) :
    ∃ t₀ s₀, (turn a b c d ≠ 0 → along a b t₀ = along c d s₀) ∧
      (turn a b c d = 0 → ¬ ((0 < t₀ ∧ t₀ < 1) ∧ (0 < s₀ ∧ s₀ < 1))) ∧
      ∀ l, 0 ≤ l → l ≤ 1 →
        d2 (along a b (t + l * (t₀ - t))) (along c d (s + l * (s₀ - s))) ≤
          d2 (along a b t) (along c d s) := by
  by_cases hD : turn a b c d = 0
  · simp only [turn, cross, sub] at hD
    by_cases hu : b.e = a.e ∧ b.n = a.n
    · refine ⟨0, s, fun k => absurd (by simp only [turn, cross, sub]; grind) k, fun _ => by grind, ?_⟩
      intro l _ _
      simp only [d2, along, hu.1, hu.2]
      grind
    · obtain ⟨k, h₁, h₂⟩ : ∃ k : Rat, d.e - c.e = k * (b.e - a.e) ∧ d.n - c.n = k * (b.n - a.n) := by
        by_cases he : b.e - a.e = 0
        · have hn : b.n - a.n ≠ 0 := by grind
          have hc : (d.n - c.n) / (b.n - a.n) * (b.n - a.n) = d.n - c.n := Rat.div_mul_cancel hn
          refine ⟨(d.n - c.n) / (b.n - a.n), ?_, hc.symm⟩
          have : (d.e - c.e) * (b.n - a.n) = 0 := by rw [he] at hD; grind
          rcases Rat.mul_eq_zero.mp this with z | z <;> grind
        · have hc : (d.e - c.e) / (b.e - a.e) * (b.e - a.e) = d.e - c.e := Rat.div_mul_cancel he
          refine ⟨(d.e - c.e) / (b.e - a.e), hc.symm, ?_⟩
          generalize (d.e - c.e) / (b.e - a.e) = k at hc
          have : (b.e - a.e) * (d.n - c.n - k * (b.n - a.n)) = 0 := by grind
          rcases Rat.mul_eq_zero.mp this with z | z <;> grind
      refine ⟨t - s * k, 0, fun k => absurd (by simp only [turn, cross, sub]; exact hD) k,
        fun _ => by grind, ?_⟩
      intro l _ _
      have e₁ : (along a b (t + l * (t - s * k - t))).e - (along c d (s + l * (0 - s))).e =
          (along a b t).e - (along c d s).e := by simp only [along, h₁]; grind
      have e₂ : (along a b (t + l * (t - s * k - t))).n - (along c d (s + l * (0 - s))).n =
          (along a b t).n - (along c d s).n := by simp only [along, h₂]; grind
      simp only [d2, e₁, e₂]
      exact Rat.le_refl
  · have c₁ : cross (sub c a) (sub d c) / turn a b c d * turn a b c d = cross (sub c a) (sub d c) :=
      Rat.div_mul_cancel hD
    have c₂ : cross (sub c a) (sub b a) / turn a b c d * turn a b c d = cross (sub c a) (sub b a) :=
      Rat.div_mul_cancel hD
    generalize cross (sub c a) (sub d c) / turn a b c d = t₀ at c₁
    generalize cross (sub c a) (sub b a) / turn a b c d = s₀ at c₂
    have hn : a.n + t₀ * (b.n - a.n) = c.n + s₀ * (d.n - c.n) := by
      have : (a.n + t₀ * (b.n - a.n) - (c.n + s₀ * (d.n - c.n))) * turn a b c d = 0 := by
        simp only [turn, cross, sub] at *; grind
      rcases Rat.mul_eq_zero.mp this with z | z <;> grind
    have he : a.e + t₀ * (b.e - a.e) = c.e + s₀ * (d.e - c.e) := by
      have : (a.e + t₀ * (b.e - a.e) - (c.e + s₀ * (d.e - c.e))) * turn a b c d = 0 := by
        simp only [turn, cross, sub] at *; grind
      rcases Rat.mul_eq_zero.mp this with z | z <;> grind
    refine ⟨t₀, s₀, fun _ => by simp only [along, Pt.mk.injEq]; exact ⟨hn, he⟩,
      fun k => absurd k hD, ?_⟩
    intro l l₀ l₁
    have e₁ : (along a b (t + l * (t₀ - t))).e - (along c d (s + l * (s₀ - s))).e =
        (1 - l) * ((along a b t).e - (along c d s).e) := by simp only [along]; grind
    have e₂ : (along a b (t + l * (t₀ - t))).n - (along c d (s + l * (s₀ - s))).n =
        (1 - l) * ((along a b t).n - (along c d s).n) := by simp only [along]; grind
    simp only [d2, e₁, e₂]
    have sq := sq_le_one (x := 1 - l) (by grind) (by grind)
    have k := Rat.mul_nonneg (show 0 ≤ 1 - (1 - l) * (1 - l) by grind)
      (d2_nonneg (along a b t) (along c d s))
    simp only [d2] at k
    grind

/-! ### Proper crossings -/

theorem neg_of_between {s D : Rat} (h₀ : 0 < s) (h₁ : s < 1) (hD : D ≠ 0) :
    -s * D * ((1 - s) * D) < 0 := by
  have k : 0 < D * D := by
    have := sq_nonneg D
    by_cases z : D * D = 0
    · rcases Rat.mul_eq_zero.mp z with z | z <;> exact absurd z hD
    · grind
  have := Rat.mul_pos (Rat.mul_pos h₀ (show 0 < 1 - s by grind)) k
  grind

theorem between_of_neg {s D : Rat} (h : -s * D * ((1 - s) * D) < 0) : 0 < s ∧ s < 1 := by
  have e : -s * D * ((1 - s) * D) = -(s * (1 - s)) * (D * D) := by grind
  rw [e] at h
  have k := sq_nonneg D
  have : 0 < s * (1 - s) := by
    false_or_by_contra
    rename_i m
    have := Rat.mul_nonneg (show 0 ≤ -(s * (1 - s)) by grind) k
    grind
  constructor
  · false_or_by_contra
    have := Rat.mul_nonneg (show 0 ≤ -s by grind) (show 0 ≤ 1 - s by grind)
    grind
  · false_or_by_contra
    have := Rat.mul_nonneg (show 0 ≤ s by grind) (show 0 ≤ s - 1 by grind)
    grind

/-- The signs that the code compares, in terms of where the lines cross. -/
theorem signs {a b c d : Pt} {t s : Rat} (e : along a b t = along c d s) :
    cross (sub b a) (sub c b) * cross (sub b a) (sub d b) =
      -s * turn a b c d * ((1 - s) * turn a b c d) ∧
    cross (sub d c) (sub b d) * cross (sub d c) (sub a d) =
      -t * turn a b c d * ((1 - t) * turn a b c d) := by
  simp only [along, Pt.mk.injEq] at e
  obtain ⟨e₁, e₂⟩ := e
  have h₁ : cross (sub b a) (sub c b) = -s * turn a b c d := by
    simp only [turn, cross, sub]; grind
  have h₂ : cross (sub b a) (sub d b) = (1 - s) * turn a b c d := by
    simp only [turn, cross, sub]; grind
  have h₃ : cross (sub d c) (sub b d) = -(1 - t) * turn a b c d := by
    simp only [turn, cross, sub]; grind
  have h₄ : cross (sub d c) (sub a d) = t * turn a b c d := by
    simp only [turn, cross, sub]; grind
  rw [h₁, h₂, h₃, h₄]
  constructor
  · rfl
  · grind

theorem lineAt_turn {a b c d : Pt} {t s : Rat} (e : along a b t = along c d s) :
    lineAt a b c = s * turn a b c d := by
  simp only [along, Pt.mk.injEq] at e
  simp only [lineAt, turn, cross, sub]
  grind

/-- **C117.**  The segments cross each other, each end further than epsilon from the other
segment, exactly if `intersect_proper` says so. -/
theorem C117_proper (eps : Rat) (a b c d : Pt) : proper eps a b c d = true ↔
    Cross a b c d ∧ (∀ p, On c d p → eps * eps < d2 a p ∧ eps * eps < d2 b p) ∧
      ∀ p, On a b p → eps * eps < d2 c p ∧ eps * eps < d2 d p := by
  have ends : (¬ endsD2 a b c d ≤ eps * eps) ↔
      (∀ p, On c d p → eps * eps < d2 a p ∧ eps * eps < d2 b p) ∧
        ∀ p, On a b p → eps * eps < d2 c p ∧ eps * eps < d2 d p := by
    obtain ⟨h₁, h₂, h₃, h₄⟩ := endsD2_le a b c d
    constructor
    · intro h
      constructor
      · intro p hp
        have k₁ : segD2 a c d ≤ d2 a p := (C115_nearest a c d).2 p hp
        have k₂ : segD2 b c d ≤ d2 b p := (C115_nearest b c d).2 p hp
        grind
      · intro p hp
        have k₁ : segD2 c a b ≤ d2 c p := (C115_nearest c a b).2 p hp
        have k₂ : segD2 d a b ≤ d2 d p := (C115_nearest d a b).2 p hp
        grind
    · rintro ⟨h, h'⟩ k
      have k₁ : eps * eps < segD2 a c d := (h _ (C115_nearest a c d).1).1
      have k₂ : eps * eps < segD2 b c d := (h _ (C115_nearest b c d).1).2
      have k₃ : eps * eps < segD2 c a b := (h' _ (C115_nearest c a b).1).1
      have k₄ : eps * eps < segD2 d a b := (h' _ (C115_nearest d a b).1).2
      rcases endsD2_mem a b c d with e | e | e | e <;> grind
  rw [← ends]
  unfold proper
  by_cases h : endsD2 a b c d ≤ eps * eps
  · rw [if_pos h]
    simp [h]
  · rw [if_neg h, Bool.and_eq_true, decide_eq_true_iff, decide_eq_true_iff]
    constructor
    · rintro ⟨s₁, s₂⟩
      refine ⟨?_, h⟩
      have hD : turn a b c d ≠ 0 := by
        intro z
        have : cross (sub b a) (sub c b) = cross (sub b a) (sub d b) := by
          simp only [turn, cross, sub] at z ⊢; grind
        rw [this] at s₁
        have := sq_nonneg (cross (sub b a) (sub d b))
        grind
      obtain ⟨t, s, hl, -, -⟩ := target a b c d 0 0
      have e := hl hD
      obtain ⟨e₁, e₂⟩ := signs e
      rw [e₁] at s₁
      rw [e₂] at s₂
      have b₁ := between_of_neg s₁
      have b₂ := between_of_neg s₂
      refine ⟨?_, t, s, b₂.1, b₂.2, b₁.1, b₁.2, e⟩
      rw [lineAt_turn e]
      intro z
      rcases Rat.mul_eq_zero.mp z with z | z <;> grind
    · rintro ⟨⟨h₀, t, s, t₀, t₁, s₀, s₁, e⟩, -⟩
      obtain ⟨e₁, e₂⟩ := signs e
      have hD : turn a b c d ≠ 0 := by
        intro z
        rw [lineAt_turn e, z] at h₀
        grind
      rw [e₁, e₂]
      exact ⟨neg_of_between s₀ s₁ hD, neg_of_between t₀ t₁ hD⟩

theorem dist_attained (a b c d : Pt) : ∃ p q, On a b p ∧ On c d q ∧ d2 p q = distD2 a b c d := by
  unfold distD2
  by_cases h : proper 0 a b c d = true
  · rw [if_pos h]
    obtain ⟨⟨-, t, s, t₀, t₁, s₀, s₁, e⟩, -⟩ := (C117_proper 0 a b c d).mp h
    exact ⟨_, _, ⟨t, Rat.le_of_lt t₀, Rat.le_of_lt t₁, rfl⟩, ⟨s, Rat.le_of_lt s₀, Rat.le_of_lt s₁, rfl⟩,
      by rw [e, d2_self]⟩
  · rw [if_neg h]
    exact ends_attained a b c d

/-- **C117.**  The distance of two segments is that of the two nearest points of them. -/
theorem C117_distance (a b c d : Pt) :
    (∃ p q, On a b p ∧ On c d q ∧ d2 p q = distD2 a b c d) ∧
      ∀ p q, On a b p → On c d q → distD2 a b c d ≤ d2 p q := by
  refine ⟨dist_attained a b c d, ?_⟩
  rintro p q ⟨t, t₀, t₁, rfl⟩ ⟨s, s₀, s₁, rfl⟩
  unfold distD2
  by_cases h : proper 0 a b c d = true
  · rw [if_pos h]
    exact d2_nonneg _ _
  · rw [if_neg h]
    by_cases hz : endsD2 a b c d ≤ 0 * 0
    · have := d2_nonneg (along a b t) (along c d s)
      grind
    · obtain ⟨x, y, hl, hp, hd⟩ := target a b c d t s
      have out : ¬ ((0 < x ∧ x < 1) ∧ (0 < y ∧ y < 1)) := by
        by_cases hD : turn a b c d = 0
        · exact hp hD
        · rintro ⟨⟨x₀, x₁⟩, y₀, y₁⟩
          apply h
          obtain ⟨e₁, e₂⟩ := signs (hl hD)
          unfold proper
          rw [if_neg hz, Bool.and_eq_true, decide_eq_true_iff, decide_eq_true_iff, e₁, e₂]
          exact ⟨neg_of_between y₀ y₁ hD, neg_of_between x₀ x₁ hD⟩
      obtain ⟨l, t', s', l₀, l₁, e₁, e₂, q₀, q₁, r₀, r₁, en⟩ := exit_two t₀ t₁ s₀ s₁ out
      refine Rat.le_trans (ends_least q₀ q₁ r₀ r₁ en) ?_
      rw [e₁, e₂]
      exact hd l l₀ l₁

/-- **C117.**  Two segments are said to meet exactly if a point of the one and a point of
the other are within epsilon of each other. -/
theorem C117_intersect (eps : Rat) (a b c d : Pt) :
    intersect eps a b c d = true ↔ ∃ p q, On a b p ∧ On c d q ∧ d2 p q ≤ eps * eps := by
  obtain ⟨⟨p, q, hp, hq, e⟩, least⟩ := C117_distance a b c d
  unfold intersect
  rw [decide_eq_true_iff]
  constructor
  · intro h
    exact ⟨p, q, hp, hq, by rw [e]; exact h⟩
  · rintro ⟨p', q', hp', hq', h⟩
    exact Rat.le_trans (least p' q' hp' hq') h

/-- **C117.**  With an epsilon of 0, exactly if they have a point in common. -/
theorem C117_meet (a b c d : Pt) :
    intersect 0 a b c d = true ↔ ∃ p, On a b p ∧ On c d p := by
  rw [C117_intersect]
  constructor
  · rintro ⟨p, q, hp, hq, h⟩
    have : p = q := d2_zero (by have := d2_nonneg p q; grind)
    subst this
    exact ⟨p, hp, hq⟩
  · rintro ⟨p, hp, hq⟩
    exact ⟨p, p, hp, hq, by rw [d2_self]; grind⟩

/-- Two that cross, two that touch at an end, two that are one beside the other, two
that overlap. -/
example : proper 1 ⟨0, 0⟩ ⟨10, 10⟩ ⟨0, 10⟩ ⟨10, 0⟩ = true ∧ distD2 ⟨0, 0⟩ ⟨10, 10⟩ ⟨0, 10⟩ ⟨10, 0⟩ = 0 ∧
    proper 0 ⟨0, 0⟩ ⟨10, 10⟩ ⟨5, 5⟩ ⟨10, 0⟩ = false ∧ intersect 0 ⟨0, 0⟩ ⟨10, 10⟩ ⟨5, 5⟩ ⟨10, 0⟩ = true ∧
    distD2 ⟨0, 0⟩ ⟨10, 0⟩ ⟨2, 3⟩ ⟨8, 3⟩ = 9 ∧ distD2 ⟨0, 0⟩ ⟨10, 0⟩ ⟨8, 0⟩ ⟨12, 0⟩ = 0 := by
  decide +kernel

end Verif.Visilib
