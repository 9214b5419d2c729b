/-
C114 with the geometry of VisiLibity: a case, with a simple merging of zones and a simple
test of sight.
-/
import Verif.RoutePlanner.Library

namespace Verif.RoutePlanner

open Verif.Visibility (Pt along)
open Verif.Visilib
open Verif.Visilib.Graph (streets streets_metric)

/-! ### Sight -/

/-- Where to begin on the way from `a` to `b`: at `a`, but within a tenth of a millimetre of
it if it is a corner. -/
def begin (e : List Poly) (a b : Pt) : Rat := if a ∈ e.flatten then mm / streets a b else 0

/-- Places see each other if they are the ends of a side, or if no side is met between
them. -/
def clearSight (e : List Poly) (a b : Pt) : Bool :=
  e.any (fun p => (sides p).any fun s => s == (a, b) || s == (b, a)) ||
  match e with
  | [] => false
  | o :: hs =>
    let a' := along a b (begin e a b)
    let b' := along a b (1 - begin e b a)
    decide (begin e a b + begin e b a < 1) &&
    e.all (fun p => (sides p).all fun s => !intersect 0 a' b' s.1 s.2) &&
    odd a' o && hs.all fun h => !odd a' h

theorem d2_streets (a b : Pt) : d2 a b ≤ streets a b * streets a b := by
  unfold d2 streets
  have key : ∀ x y : Rat, 0 ≤ x → 0 ≤ y → x * x + y * y ≤ (y + x) * (y + x) := by
    intro x y hx hy
    have := Rat.mul_nonneg hx hy
    grind
  split <;> split
  · have := key (b.e - a.e) (b.n - a.n) (by grind) (by grind); grind
  · have := key (a.e - b.e) (b.n - a.n) (by grind) (by grind); grind
  · have := key (b.e - a.e) (a.n - b.n) (by grind) (by grind); grind
  · have := key (a.e - b.e) (a.n - b.n) (by grind) (by grind); grind

theorem div_nonneg {a b : Rat} (ha : 0 ≤ a) (hb : 0 ≤ b) : 0 ≤ a / b := by
  by_cases h : b = 0
  · subst h
    have : a / 0 = 0 := by rw [Rat.div_def, Rat.inv_zero, Rat.mul_zero]
    grind
  · false_or_by_contra
    have := Rat.div_mul_cancel (a := a) h
    have := Rat.mul_pos (show 0 < -(a / b) by grind) (show 0 < b by grind)
    grind

theorem begin_nonneg (e : List Poly) (a b : Pt) : 0 ≤ begin e a b := by
  unfold begin
  split
  · exact div_nonneg (by decide +kernel) (streets_metric.nonneg a b)
  · exact Rat.le_refl

/-- Up to where it begins, all is close to the corner. -/
theorem begin_close {e : List Poly} {a b : Pt} {k : Rat} (h₀ : 0 ≤ k) (h₁ : k < begin e a b) :
    a ∈ e.flatten ∧ d2 (along a b k) a ≤ mm * mm := by
  unfold begin at h₁
  split at h₁
  · rename_i ha
    refine ⟨ha, ?_⟩
    have hs := streets_metric.nonneg a b
    have hne : streets a b ≠ 0 := by
      intro k
      rw [k] at h₁
      have : mm / 0 = 0 := by decide +kernel
      grind
    have hk : k * streets a b ≤ mm := by
      have e₁ : mm / streets a b * streets a b = mm := Rat.div_mul_cancel hne
      have := Rat.mul_nonneg (show 0 ≤ mm / streets a b - k by grind) hs
      grind
    rw [d2_along, d2_comm]
    have h₂ := Rat.mul_nonneg (Rat.mul_nonneg h₀ h₀) (show 0 ≤ streets a b * streets a b - d2 a b by
      have := d2_streets a b; grind)
    have h₃ : 0 ≤ k * streets a b := Rat.mul_nonneg h₀ hs
    have h₄ := Rat.mul_nonneg (show 0 ≤ mm - k * streets a b by grind) h₃
    have h₅ := Rat.mul_nonneg (show 0 ≤ mm - k * streets a b by grind) (show 0 ≤ mm by decide +kernel)
    grind
  · grind

theorem near_in {o : Poly} {hs : List Poly} {x z : Pt} {p : Poly} (hne : ∀ p ∈ o :: hs, p ≠ [])
    (hp : p ∈ o :: hs) (hz : OnBoundary p z) (hd : d2 x z ≤ mm * mm) : inEnv mm x o hs = .ok true := by
  obtain ⟨b, hb⟩ := (C120_defined mm x o hs).mpr hne
  rw [hb, (C120_in hb).mpr (.inl ⟨p, hp, z, hz, hd⟩)]

/-- What is in sight is reached within the environment. -/
theorem clearSight_sees {o : Poly} {hs : List Poly} {a b : Pt} (hne : ∀ p ∈ o :: hs, p ≠ [])
    (h : clearSight (o :: hs) a b = true) {x : Pt} (hx : Between a b x) :
    inEnv mm x o hs = .ok true := by
  obtain ⟨k, k₀, k₁, kn, ke⟩ := hx
  have hx : x = along a b k := by cases x; simp only [along, Pt.mk.injEq]; exact ⟨kn, ke⟩
  unfold clearSight at h
  rw [Bool.or_eq_true] at h
  rcases h with h | h
  · rw [List.any_eq_true] at h
    obtain ⟨p, hp, h⟩ := h
    rw [List.any_eq_true] at h
    obtain ⟨s, hs', h⟩ := h
    refine near_in hne hp (z := x) (onBoundary_iff_sides.mpr ⟨s, hs', ?_⟩)
      (by rw [d2_self]; decide +kernel)
    rw [Bool.or_eq_true, beq_iff_eq, beq_iff_eq] at h
    rcases h with rfl | rfl
    · exact ⟨k, k₀, k₁, hx⟩
    · exact ⟨1 - k, by grind, by grind, by rw [hx]; simp only [along, Pt.mk.injEq]; grind⟩
  · dsimp only at h
    simp only [Bool.and_eq_true, decide_eq_true_eq, List.all_eq_true, Bool.not_eq_true'] at h
    obtain ⟨⟨⟨hlt, hno⟩, ho⟩, hh⟩ := h
    by_cases c₁ : k < begin (o :: hs) a b
    · obtain ⟨h₁, h₂⟩ := begin_close k₀ c₁
      obtain ⟨p, hp, ha⟩ := List.mem_flatten.mp h₁
      exact near_in hne hp (corner_on ha) (by rw [hx]; exact h₂)
    · by_cases c₂ : 1 - k < begin (o :: hs) b a
      · obtain ⟨h₁, h₂⟩ := begin_close (show 0 ≤ 1 - k by grind) c₂
        obtain ⟨p, hp, ha⟩ := List.mem_flatten.mp h₁
        refine near_in hne hp (corner_on ha) ?_
        have : x = along b a (1 - k) := by rw [hx]; simp only [along, Pt.mk.injEq]; grind
        rw [this]; exact h₂
      · generalize begin (o :: hs) a b = s at *
        generalize begin (o :: hs) b a = t at *
        have hon : On (along a b s) (along a b (1 - t)) x := by
          have hpos : 0 < 1 - t - s := by grind
          refine ⟨(k - s) / (1 - t - s), div_nonneg (by grind) (by grind), ?_, ?_⟩
          · have := Rat.div_mul_cancel (a := k - s) (b := 1 - t - s) (by grind)
            false_or_by_contra
            rename_i hc
            have := Rat.mul_pos (show 0 < (k - s) / (1 - t - s) - 1 by grind) hpos
            grind
          · have := Rat.div_mul_cancel (a := k - s) (b := 1 - t - s) (by grind)
            rw [hx]
            generalize (k - s) / (1 - t - s) = u at this
            simp only [along, Pt.mk.injEq]
            grind
        have off : ∀ p ∈ o :: hs, ∀ z, On (along a b s) (along a b (1 - t)) z → ¬ OnBoundary p z := by
          intro p hp z hz hb
          obtain ⟨sd, hsd, hz'⟩ := onBoundary_iff_sides.mp hb
          have := hno p hp sd hsd
          rw [(C117_meet _ _ _ _).mpr ⟨z, hz, hz'⟩] at this
          cases this
        have par : ∀ p ∈ o :: hs, odd (along a b s) p = odd x p := by
          intro p hp
          apply odd_apart
          intro sd hsd z hz hz'
          exact off p hp z (hon.sub hz) (onBoundary_iff_sides.mpr ⟨sd, hsd, hz'⟩)
        obtain ⟨c, hc⟩ := (C120_defined mm x o hs).mpr hne
        rw [hc, (C120_in hc).mpr (.inr ⟨?_, ?_⟩)]
        · obtain ⟨d, hd⟩ := (C116_defined mm x o).mpr (hne o List.mem_cons_self)
          rw [hd, (inPoly_iff hd).mpr (.inr (by rw [← par o List.mem_cons_self]; exact ho))]
        · intro q hq
          have hq' := List.mem_cons_of_mem o hq
          rw [inPoly_off (hne q hq'), ← par q hq', hh q hq]
          intro z hz
          false_or_by_contra
          rename_i hc
          have := d2_nonneg x z
          have : x = z := d2_zero (by grind)
          subst this
          exact off q hq' x hon hz

/-! ### Merging -/

/-- Whether every corner stands out by more than a metre. -/
def standsOut (p : Poly) : Bool := (List.range p.length).all fun i =>
  decide (1 < d2 (corner p i) (corner p (i + 2))) &&
    decide (1 < segD2 (corner p (i + 1)) (corner p i) (corner p (i + 2)))

theorem standsOut_pronounced {p : Poly} (h : standsOut p = true) : Pronounced 1 p := by
  intro i hi
  have hc : ∀ j, corner p j = p[j % p.length]'(Nat.mod_lt _ (by omega)) := by
    intro j
    unfold corner
    rw [List.getElem?_eq_getElem (Nat.mod_lt _ (by omega))]; rfl
  unfold standsOut at h
  rw [List.all_eq_true] at h
  have := h i (List.mem_range.mpr hi)
  simp only [Bool.and_eq_true, decide_eq_true_eq, hc] at this
  simp only [Nat.mod_eq_of_lt hi] at this
  refine ⟨by have := this.1; grind, fun x hx => ?_⟩
  have h₁ := this.2
  have h₂ := (C115_nearest (p[(i + 1) % p.length]'(Nat.mod_lt _ (by omega))) _ _).2 x hx
  unfold segD2 at h₁
  grind

/-- The zones as they are, if that can be done. -/
def asTheyAre (ps : List (Poly × Rat)) : Option (List Poly) :=
  if ps.all fun q => standsOut q.1 then some (ps.map (·.1)) else none

/-- C114_library_partial can be applied. -/
theorem clear_open : Open asTheyAre clearSight streets where
  grow := by
    intro ps gs q x h _ hq hx
    unfold asTheyAre at h
    split at h
    · rename_i hall
      cases h
      rw [List.all_eq_true] at hall
      have hp := standsOut_pronounced (hall q hq)
      exact ⟨q.1, List.mem_map_of_mem hq,
        (deep_congr (fun e => C119_same_partial hp e x) (boundary_reduce hp)).mpr hx⟩
    · cases h
  shrink := by
    intro ps gs g x h _ hg hx
    unfold asTheyAre at h
    split at h
    · rename_i hall
      cases h
      rw [List.all_eq_true] at hall
      obtain ⟨q, hq, rfl⟩ := List.mem_map.mp hg
      have hp := standsOut_pronounced (hall q hq)
      unfold NearIn at hx
      rw [C119_same_partial hp] at hx
      exact ⟨q, hq, hx⟩
    · cases h
  sees := by
    intro o hs a b hv _ _ h x hx
    exact clearSight_sees (fun p hp => simple_ne (((C121_valid mm o hs).mp hv).simple p hp)) h hx
  metric := streets_metric
  straight := d2_streets

/-! ### A history -/

/-- The library. -/
def plain : Lib := visilib asTheyAre clearSight streets

/-- The answers to a request after a history. -/
def runPlain (h : List Msg) (q : PlanReq) : Outcome (List (Nat × PlanResp)) :=
  (St.after plain h).bind fun s => s.reply plain (.request 4 q)

/-- The history. -/
def walled : List Msg := [.keepOut wall, .region { id := 3, outs := [2] }, seven]

/-- The way leads around the zone. -/
theorem run_around : runPlain walled cross =
    .ok [(4, { through with plans := [⟨1, 8000, [⟨⟨0, 0⟩, 50, 10, 1, 2⟩, ⟨⟨20, -10⟩, 50, 10, 2, 3⟩,
      ⟨⟨40, -10⟩, 50, 10, 3, 4⟩, ⟨⟨60, 0⟩, 50, 10, 4, 4⟩]⟩] })] := by decide +kernel

theorem walled_calm : Calm walled where
  ins := by simp [walled, seven]
  outs := by simp [walled, seven]
  regions := by simp [walled, seven]
  insFirst := by
    intro h₁ r h₂ z e hz
    have : .keepIn z ∈ walled := by rw [e]; simp [hz]
    simp [walled, seven] at this
  outsFirst := by
    intro h₁ r h₂ z e hz hi
    obtain ⟨i, hi, rfl, rfl⟩ := split_mem e
    match i with
    | 0 | 2 => simp [walled, seven] at hi
    | 1 => simp [walled, seven] at hz
    | n + 3 => simp [walled] at hi

/-- C114_library_partial is about this history. -/
example : ∃ s, St.after plain walled = .ok s ∧
    ∀ out, s.reply plain (.request 4 cross) = .ok out → ∀ o ∈ out, ∀ p ∈ o.2.plans, ∀ x, p.along x →
      ∃ x', d2 x x' ≤ mm * mm ∧ (inPoly 0 x' (square 30 0 10) = .ok true →
        ∃ y, OnBoundary (square 30 0 10) y ∧ d2 x' y ≤ mm * mm) := by
  obtain ⟨s, hs, -⟩ := Outcome.bind_eq_ok.mp run_around
  have henv : (St.after plain walled).bind (fun s => .ok (s.env 3 7).isSome) = .ok true := by
    decide +kernel
  refine ⟨s, hs, fun out ho o hom p hp x hx => ?_⟩
  rw [show St.after plain walled = .ok s from hs, Outcome.bind_ok, Outcome.ok.injEq] at henv
  have henv' : s.env 3 7 ≠ none := by intro k; rw [k] at henv; cases henv
  obtain ⟨x', h₁, h₂, -⟩ := C114_library_partial clear_open hs walled_calm (q := cross) (r :=
    { id := 3, outs := [2] }) ⟨seven, by simp [walled], rfl⟩
    (by simp [walled, seven, Msg.onWater]) (by simp [walled, seven]) (by simp [walled]) rfl henv' ho hom hp hx
  exact ⟨x', h₁, h₂ 2 (by simp) wall (square 30 0 10) rfl (.inl rfl) rfl (by decide +kernel)
    (standsOut_pronounced (by decide +kernel))⟩

/-- A square of two metres with corners half a metre apart. -/
def dense : Poly := halve (halve [⟨29, -1⟩, ⟨29, 1⟩, ⟨31, 1⟩, ⟨31, -1⟩])

/-- C114_dense_violated: the way leads through it. -/
example : runPlain [.keepOut { id := 2, boundary := some dense }, .region { id := 3, outs := [2] },
    seven] cross = .ok [(4, through)] ∧ inPoly 0 ⟨30, 0⟩ dense = .ok true := by decide +kernel

end Verif.RoutePlanner
