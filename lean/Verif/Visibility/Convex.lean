/-
A straight leg that begins outside a convex zone and passes through it crosses
an edge of the zone.
-/
import Verif.Visibility.Segment

namespace Verif.Visibility

/-- The sides of a zone: each corner with the next, the last with the first. -/
def sides (vs : List Pt) : List (Pt × Pt) := vs.zip (vs.drop 1 ++ vs.take 1)

/-- `p` is strictly on the inner side of every side; `σ` (1 or -1) says which
way round the corners go. -/
def Inside (σ : Rat) (vs : List Pt) (p : Pt) : Prop :=
  ∀ s ∈ sides vs, 0 < σ * lineAt s.1 s.2 p

/-- At least three corners, all different, and every corner that is not on a
side is strictly on the inner side of it. -/
def Convex (σ : Rat) (vs : List Pt) : Prop :=
  3 ≤ vs.length ∧ vs.Nodup ∧
    ∀ s ∈ sides vs, ∀ w ∈ vs, w ≠ s.1 → w ≠ s.2 → 0 < σ * lineAt s.1 s.2 w

theorem sides_length (vs : List Pt) : (sides vs).length = vs.length := by
  unfold sides
  cases vs <;> simp

theorem sides_get (vs : List Pt) (i : Nat) (h : i < vs.length) :
    (sides vs)[i]'(by rw [sides_length]; exact h) =
      (vs[i], vs[(i + 1) % vs.length]'(Nat.mod_lt _ (by omega))) := by
  unfold sides
  rw [List.getElem_zip]
  congr 1
  by_cases k : i + 1 < vs.length
  · rw [List.getElem_append_left (by rw [List.length_drop]; omega), List.getElem_drop]
    congr 1
    rw [Nat.mod_eq_of_lt k]; omega
  · have e : i + 1 = vs.length := by omega
    rw [List.getElem_append_right (by rw [List.length_drop]; omega), List.getElem_take]
    congr 1
    rw [e, Nat.mod_self, List.length_drop]; omega

theorem mem_sides {vs : List Pt} {s : Pt × Pt} (h : s ∈ sides vs) :
    ∃ (i : Nat) (hi : i < vs.length), s.1 = vs[i] ∧
      s.2 = vs[(i + 1) % vs.length]'(Nat.mod_lt _ (by omega)) := by
  obtain ⟨i, hi, e⟩ := List.mem_iff_getElem.mp h
  rw [sides_length] at hi
  rw [sides_get vs i hi] at e
  exact ⟨i, hi, by rw [← e], by rw [← e]⟩

theorem side_mem (vs : List Pt) (i : Nat) (h : i < vs.length) :
    (vs[i], vs[(i + 1) % vs.length]'(Nat.mod_lt _ (by omega))) ∈ sides vs := by
  rw [← sides_get vs i h]
  exact List.getElem_mem _

theorem nodup_ne {vs : List Pt} (h : vs.Nodup) {i j : Nat} (hi : i < vs.length)
    (hj : j < vs.length) (k : i ≠ j) : vs[i] ≠ vs[j] := by
  intro e
  exact k ((List.getElem_inj h).mp e)

/-- Before and after each side there is a side, and the zone turns inwards. -/
theorem Convex.turns {σ : Rat} {vs : List Pt} (h : Convex σ vs) {s : Pt × Pt}
    (hs : s ∈ sides vs) :
    (∃ w, (w, s.1) ∈ sides vs ∧ 0 < σ * lineAt w s.1 s.2) ∧
      (∃ x, (s.2, x) ∈ sides vs ∧ 0 < σ * lineAt s.2 x s.1) := by
  obtain ⟨h₃, hd, hc⟩ := h
  obtain ⟨i, hi, e₁, e₂⟩ := mem_sides hs
  have hn : 0 < vs.length := by omega
  have hm := Nat.mod_lt (i + 1) hn
  constructor
  · -- the side before: number (i + n - 1) % n
    have hj := Nat.mod_lt (i + vs.length - 1) hn
    have en : ((i + vs.length - 1) % vs.length + 1) % vs.length = i := by
      rw [Nat.mod_add_mod, show i + vs.length - 1 + 1 = i + vs.length by omega,
        Nat.add_mod_right, Nat.mod_eq_of_lt hi]
    have hside := side_mem vs _ hj
    have q : vs[((i + vs.length - 1) % vs.length + 1) % vs.length]'(by rw [en]; exact hi) = vs[i] := by
      congr 1
    rw [q] at hside
    refine ⟨_, by rw [e₁]; exact hside, ?_⟩
    rw [e₁, e₂]
    refine hc _ hside _ (List.getElem_mem _) ?_ ?_
    · apply nodup_ne hd hm hj
      rcases Nat.lt_or_ge (i + 1) vs.length with k | k
      · rw [Nat.mod_eq_of_lt k]
        rcases Nat.eq_zero_or_pos i with z | z
        · subst z
          rw [Nat.mod_eq_of_lt (by omega)]; omega
        · rw [show i + vs.length - 1 = (i - 1) + vs.length by omega, Nat.add_mod_right,
            Nat.mod_eq_of_lt (by omega)]
          omega
      · have : i + 1 = vs.length := by omega
        rw [this, Nat.mod_self, show i + vs.length - 1 = (i - 1) + vs.length by omega,
          Nat.add_mod_right, Nat.mod_eq_of_lt (by omega)]
        omega
    · apply nodup_ne hd hm hi
      rcases Nat.lt_or_ge (i + 1) vs.length with k | k
      · rw [Nat.mod_eq_of_lt k]; omega
      · have : i + 1 = vs.length := by omega
        rw [this, Nat.mod_self]; omega
  · have hside := side_mem vs _ hm
    refine ⟨_, by rw [e₂]; exact hside, ?_⟩
    rw [e₁, e₂]
    refine hc _ hside _ (List.getElem_mem _) ?_ ?_
    · apply nodup_ne hd hi hm
      rcases Nat.lt_or_ge (i + 1) vs.length with k | k
      · rw [Nat.mod_eq_of_lt k]; omega
      · have : i + 1 = vs.length := by omega
        rw [this, Nat.mod_self]; omega
    · apply nodup_ne hd hi (Nat.mod_lt _ hn)
      rw [Nat.mod_add_mod]
      rcases Nat.lt_or_ge (i + 1 + 1) vs.length with k | k
      · rw [Nat.mod_eq_of_lt k]; omega
      · rw [show i + 1 + 1 = (i + 1 + 1 - vs.length) + vs.length by omega, Nat.add_mod_right,
          Nat.mod_eq_of_lt (by omega)]
        omega

theorem exists_greatest {α : Type} (f : α → Rat) (l : List α) (h : l ≠ []) :
    ∃ x ∈ l, ∀ y ∈ l, f y ≤ f x := by
  induction l with
  | nil => exact absurd rfl h
  | cons a l ih =>
    by_cases hl : l = []
    · subst hl
      exact ⟨a, by simp, by simp⟩
    · obtain ⟨x, hx, hm⟩ := ih hl
      by_cases k : f a ≤ f x
      · refine ⟨x, List.mem_cons_of_mem _ hx, fun y hy => ?_⟩
        rcases List.mem_cons.mp hy with rfl | hy
        · exact k
        · exact hm y hy
      · refine ⟨a, by simp, fun y hy => ?_⟩
        rcases List.mem_cons.mp hy with rfl | hy
        · grind
        · have := hm y hy
          grind

/-- A point on the line through `u v`, and between the neighbouring sides, is on
the side. -/
theorem on_side {σ : Rat} {w u v x p : Pt} (h₀ : lineAt u v p = 0)
    (h₁ : 0 < σ * lineAt w u v) (h₂ : 0 ≤ σ * lineAt w u p)
    (h₃ : 0 < σ * lineAt v x u) (h₄ : 0 ≤ σ * lineAt v x p) :
    ∃ r, 0 ≤ r ∧ r ≤ 1 ∧ along u v r = p := by
  have hD : lineAt w u v ≠ 0 := by
    intro e; rw [e] at h₁; grind
  have eq : along u v (lineAt w u p / lineAt w u v) = p := by
    have k₁ : (p.n - u.n) * lineAt w u v = lineAt w u p * (v.n - u.n) := by
      unfold lineAt at *; grind
    have k₂ : (p.e - u.e) * lineAt w u v = lineAt w u p * (v.e - u.e) := by
      unfold lineAt at *; grind
    have a₁ : u.n + lineAt w u p / lineAt w u v * (v.n - u.n) = p.n := by grind
    have a₂ : u.e + lineAt w u p / lineAt w u v * (v.e - u.e) = p.e := by grind
    unfold along
    rw [a₁, a₂]
  have hq : σ * lineAt w u p = (lineAt w u p / lineAt w u v) * (σ * lineAt w u v) := by grind
  refine ⟨_, ?_, ?_, eq⟩
  · false_or_by_contra
    rename_i hn
    have := Rat.mul_pos (show 0 < -(lineAt w u p / lineAt w u v) by grind) h₁
    grind
  · rw [← eq, lineAt_along, lineAt_left] at h₄
    generalize lineAt w u p / lineAt w u v = r at *
    false_or_by_contra
    rename_i hn
    have := Rat.mul_pos (show 0 < r - 1 by grind) h₃
    grind

/-- What the value at a point between is when the ends are known. -/
theorem between_pos {f g t τ : Rat} (h₀ : 0 < f) (h : 0 < (1 - t) * f + t * g)
    (a : 0 ≤ τ) (b : τ ≤ t) (ht : 0 < t) : 0 < (1 - τ) * f + τ * g := by
  -- t * value(τ) = τ * value(t) + (t - τ) * f
  have e : t * ((1 - τ) * f + τ * g) = τ * ((1 - t) * f + t * g) + (t - τ) * f := by grind
  false_or_by_contra
  rename_i hn
  have k₁ := Rat.mul_nonneg (show 0 ≤ t by grind) (show 0 ≤ -((1 - τ) * f + τ * g) by grind)
  by_cases c : τ = t
  · subst c; grind
  · have k₂ := Rat.mul_nonneg a (show 0 ≤ (1 - t) * f + t * g by grind)
    have k₃ := Rat.mul_pos (show 0 < t - τ by grind) h₀
    grind

theorem value_pos {f g t : Rat} (t₀ : 0 ≤ t) (t₁ : t ≤ 1) (v : 0 < (1 - t) * f + t * g)
    (hf : f ≤ 0) : 0 < g := by
  false_or_by_contra
  rename_i k
  have k₁ := Rat.mul_nonneg t₀ (show 0 ≤ -g by grind)
  have k₂ := Rat.mul_nonneg (show 0 ≤ 1 - t by grind) (show 0 ≤ -f by grind)
  grind

theorem root_spec {f g t : Rat} (v : 0 < (1 - t) * f + t * g)
    (hf : f ≤ 0) (hg : 0 < g) :
    (1 - -f / (g - f)) * f + -f / (g - f) * g = 0 ∧ 0 ≤ -f / (g - f) ∧ -f / (g - f) ≤ t := by
  have hd : g - f ≠ 0 := by grind
  have e : (1 - -f / (g - f)) * f + -f / (g - f) * g = 0 := by grind
  generalize -f / (g - f) = x at *
  refine ⟨e, ?_, ?_⟩
  · false_or_by_contra
    rename_i k
    have := Rat.mul_pos (show 0 < -x by grind) (show 0 < g - f by grind)
    grind
  · false_or_by_contra
    rename_i k
    have := Rat.mul_pos (show 0 < x - t by grind) (show 0 < g - f by grind)
    grind

theorem later_nonneg {f g x y : Rat} (z : (1 - y) * f + y * g = 0) (m : y ≤ x)
    (hf : f ≤ 0) (hg : 0 < g) : 0 ≤ (1 - x) * f + x * g := by
  have := Rat.mul_nonneg (show 0 ≤ x - y by grind) (show 0 ≤ g - f by grind)
  grind

/-- Several linear values, all positive a part `t` of the way, some of them not
at the start: where the last of them becomes zero none is negative. -/
theorem last_root {α : Type} (S : List α) (f g : α → Rat) {t : Rat} (t₀ : 0 ≤ t) (t₁ : t ≤ 1)
    (val : ∀ s ∈ S, 0 < (1 - t) * f s + t * g s) (s₀ : α) (h₀ : s₀ ∈ S) (hf₀ : f s₀ ≤ 0) :
    ∃ s ∈ S, ∃ τ, f s ≤ 0 ∧ 0 < g s ∧ 0 ≤ τ ∧ τ ≤ t ∧ (1 - τ) * f s + τ * g s = 0 ∧
      ∀ s' ∈ S, 0 ≤ (1 - τ) * f s' + τ * g s' := by
  have ht : 0 < t := by
    false_or_by_contra
    rename_i k
    have e : t = 0 := by grind
    have v := val s₀ h₀
    rw [e] at v
    grind
  obtain ⟨s, hs, hmax⟩ := exists_greatest (fun s => -f s / (g s - f s))
    (S.filter fun s => decide (f s ≤ 0))
    (by
      intro e
      have : s₀ ∈ S.filter fun s => decide (f s ≤ 0) :=
        List.mem_filter.mpr ⟨h₀, decide_eq_true hf₀⟩
      rw [e] at this
      cases this)
  obtain ⟨hs, hf⟩ := List.mem_filter.mp hs
  have hf : f s ≤ 0 := of_decide_eq_true hf
  have hg := value_pos t₀ t₁ (val s hs) hf
  obtain ⟨z, n₀, n₁⟩ := root_spec (val s hs) hf hg
  refine ⟨s, hs, _, hf, hg, n₀, n₁, z, fun s' hs' => ?_⟩
  by_cases k : f s' ≤ 0
  · have hg' := value_pos t₀ t₁ (val s' hs') k
    obtain ⟨z', -, -⟩ := root_spec (val s' hs') k hg'
    exact later_nonneg z' (hmax s' (List.mem_filter.mpr ⟨hs', decide_eq_true k⟩)) k hg'
  · exact Rat.le_of_lt (between_pos (by grind) (val s' hs') n₀ n₁ ht)

theorem zero_of_mul {σ x y : Rat} (h : σ * x = 0) (hy : 0 < σ * y) : x = 0 := by
  have : σ ≠ 0 := by
    intro e
    rw [e] at hy
    grind
  grind

theorem ne_of_sides {σ x y : Rat} (h : σ * x ≤ 0) (hy : 0 < σ * y) : x - y ≠ 0 := by
  intro e
  have : x = y := by grind
  rw [this] at h
  grind

/-- **Entering a convex zone.**  A straight leg from a point that is not
strictly inside to or through a point that is crosses a side, on the inner side
of which it ends. -/
theorem enters {σ : Rat} {vs : List Pt} (hc : Convex σ vs) {a b : Pt} {t : Rat}
    (ha : ¬ Inside σ vs a) (t₀ : 0 ≤ t) (t₁ : t ≤ 1) (hi : Inside σ vs (along a b t)) :
    ∃ s ∈ sides vs, 0 < σ * lineAt s.1 s.2 b ∧ crosses s.1 s.2 a b = true := by
  have comb : ∀ (s : Pt × Pt) (x : Rat), σ * lineAt s.1 s.2 (along a b x) =
      (1 - x) * (σ * lineAt s.1 s.2 a) + x * (σ * lineAt s.1 s.2 b) := by
    intro s x
    rw [lineAt_along]
    grind
  obtain ⟨s₀, hs₀, hf₀⟩ : ∃ s ∈ sides vs, σ * lineAt s.1 s.2 a ≤ 0 := by
    false_or_by_contra
    rename_i hn
    exact ha fun s hs => by
      false_or_by_contra
      rename_i k
      exact hn ⟨s, hs, Rat.not_lt.mp k⟩
  have val : ∀ s ∈ sides vs, 0 < (1 - t) * (σ * lineAt s.1 s.2 a) + t * (σ * lineAt s.1 s.2 b) := by
    intro s hs
    have := hi s hs
    rw [comb] at this
    exact this
  clear hi ha
  obtain ⟨s, hs, τ, hf, hg, n₀, n₁, z, closed⟩ := last_root (sides vs)
    (fun s => σ * lineAt s.1 s.2 a) (fun s => σ * lineAt s.1 s.2 b) t₀ t₁ val s₀ hs₀ hf₀
  rw [← comb] at z
  have closed : ∀ u v, (u, v) ∈ sides vs → 0 ≤ σ * lineAt u v (along a b τ) := by
    intro u v hs'
    have := closed (u, v) hs'
    rw [← comb (u, v)] at this
    exact this
  have onLine := zero_of_mul z hg
  obtain ⟨⟨w, hw, hw'⟩, ⟨x, hx, hx'⟩⟩ := hc.turns hs
  obtain ⟨r, r₀, r₁, er⟩ := on_side onLine hw' (closed w s.1 hw) hx' (closed s.2 x hx)
  refine ⟨s, hs, hg, ?_⟩
  rw [crosses_iff, parallel_iff_denom, ← lineAt_diff]
  exact ⟨ne_of_sides hf hg, r, τ, r₀, r₁, n₀, Rat.le_trans n₁ t₁, er⟩

end Verif.Visibility
