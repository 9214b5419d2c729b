import Verif.Dynamic.Quiet
import Verif.Dynamic.Follow
import Verif.Dynamic.Memory

/-!
# Cases for C147–C153
-/

namespace Verif.Dynamic

open Complex Verif.Blockade

/-! ### Zones that are sets -/

/-- What the service computes, ideally, of a zone. -/
noncomputable def zoneOf (Z : Set ℂ) : Zone where
  inside p := p ∈ Z
  project p := by
    classical exact if h : (frontier Z).Nonempty then (isClosed_frontier.exists_infDist_eq_dist h p).choose else p
  touches p r := ∃ a ∈ Ring p r, ∃ b ∈ frontier Z, ‖a - b‖ < 0.1

theorem zoneOf_is {Z : Set ℂ} (h : (frontier Z).Nonempty) : (zoneOf Z).Is Z where
  inside _ := Iff.rfl
  project p := by
    have := (isClosed_frontier.exists_infDist_eq_dist h p).choose_spec
    simp only [zoneOf, dif_pos h]
    refine ⟨this.1, fun q hq => ?_⟩
    rw [← Complex.dist_eq, ← Complex.dist_eq, ← this.2]
    exact Metric.infDist_le_dist_of_mem hq
  touches _ _ := Iff.rfl

/-- A rectangle. -/
def rect (a b c d : ℝ) : Set ℂ := {z | a ≤ z.re ∧ z.re ≤ b ∧ c ≤ z.im ∧ z.im ≤ d}

theorem rect_closed (a b c d : ℝ) : IsClosed (rect a b c d) := by
  have : rect a b c d = {z | a ≤ z.re} ∩ ({z | z.re ≤ b} ∩ ({z | c ≤ z.im} ∩ {z | z.im ≤ d})) := rfl
  rw [this]
  exact (isClosed_le continuous_const Complex.continuous_re).inter ((isClosed_le Complex.continuous_re continuous_const).inter
    ((isClosed_le continuous_const Complex.continuous_im).inter (isClosed_le Complex.continuous_im continuous_const)))

theorem rect_convex (a b c d : ℝ) : Convex ℝ (rect a b c d) := by
  intro x hx y hy s t hs ht hst
  obtain ⟨x1, x2, x3, x4⟩ := hx
  obtain ⟨y1, y2, y3, y4⟩ := hy
  simp only [rect, Set.mem_ofPred_eq, Complex.add_re, Complex.add_im, Complex.real_smul, Complex.re_ofReal_mul, Complex.im_ofReal_mul]
  have e : t = 1 - s := by linarith
  subst e
  refine ⟨?_, ?_, ?_, ?_⟩ <;> nlinarith

theorem rect_interior {a b c d : ℝ} {z : ℂ} (h1 : a < z.re) (h2 : z.re < b) (h3 : c < z.im) (h4 : z.im < d) :
    z ∈ interior (rect a b c d) := by
  refine mem_interior.2 ⟨{z | a < z.re} ∩ ({z | z.re < b} ∩ ({z | c < z.im} ∩ {z | z.im < d})), ?_, ?_, ⟨h1, h2, h3, h4⟩⟩
  · rintro x ⟨x1, x2, x3, x4⟩
    exact ⟨le_of_lt x1, le_of_lt x2, le_of_lt x3, le_of_lt x4⟩
  · exact (isOpen_lt continuous_const Complex.continuous_re).inter ((isOpen_lt Complex.continuous_re continuous_const).inter
      ((isOpen_lt continuous_const Complex.continuous_im).inter (isOpen_lt Complex.continuous_im continuous_const)))

theorem rect_frontier {a b c d : ℝ} (h1 : a ≤ b) (h2 : c ≤ d) : (frontier (rect a b c d)).Nonempty := by
  rw [nonempty_frontier_iff]
  refine ⟨⟨⟨a, c⟩, le_refl _, h1, le_refl _, h2⟩, fun h => ?_⟩
  have : (⟨b + 1, c⟩ : ℂ) ∈ rect a b c d := h ▸ Set.mem_univ _
  have := this.2.1
  simp only at this
  linarith

/-- Two keep-out zones, 100 m apart. -/
noncomputable def twoZones : St where
  zones i := if i = 1 then some (zoneOf (rect 0 1000 0 1000)) else if i = 2 then some (zoneOf (rect 1100 2000 0 1000)) else none
  regions i := if i = 0 then some [1, 2] else none

/-- The hypotheses of `C150_inside` and the place found: it is off the first zone by 150 m. -/
theorem moved : (attemptMove twoZones ⟨⟨900, 500⟩, 300⟩ 150).place = ⟨1150, 500⟩ := by
  have hz := zoneOf_is (rect_frontier (a := 0) (b := 1000) (c := 0) (d := 1000) (by norm_num) (by norm_num))
  obtain ⟨hb, hn⟩ := hz.project ⟨900, 500⟩
  set b := (zoneOf (rect 0 1000 0 1000)).project ⟨900, 500⟩ with hbd
  -- the nearest point of the boundary
  have hf : (⟨1000, 500⟩ : ℂ) ∈ frontier (rect 0 1000 0 1000) := by
    refine ⟨subset_closure ⟨by norm_num, by norm_num, by norm_num, by norm_num⟩, fun hi => ?_⟩
    obtain ⟨ε, hε, hs⟩ := Metric.isOpen_iff.1 isOpen_interior _ hi
    have : (⟨1000 + ε / 2, 500⟩ : ℂ) ∈ Metric.ball (⟨1000, 500⟩ : ℂ) ε := by
      rw [Metric.mem_ball, Complex.dist_eq]
      have : (⟨1000 + ε / 2, 500⟩ : ℂ) - ⟨1000, 500⟩ = ((ε / 2 : ℝ) : ℂ) := by apply Complex.ext <;> simp
      rw [this, Complex.norm_real, Real.norm_of_nonneg (by linarith)]; linarith
    have := (interior_subset (hs this)).2.1
    simp only at this
    linarith
  have h1 : ‖(⟨900, 500⟩ : ℂ) - b‖ ≤ 100 := by
    refine (hn _ hf).trans ?_
    have : (⟨900, 500⟩ : ℂ) - ⟨1000, 500⟩ = ((-100 : ℝ) : ℂ) := by apply Complex.ext <;> simp; norm_num
    rw [this, Complex.norm_real]; norm_num
  have h2 : ‖(⟨900, 500⟩ : ℂ) - b‖ ^ 2 ≤ 10000 := by
    have := norm_nonneg ((⟨900, 500⟩ : ℂ) - b); nlinarith
  rw [norm_sq] at h2
  simp only [Complex.sub_re, Complex.sub_im] at h2
  have hZ := (rect_closed 0 1000 0 1000).frontier_subset hb
  obtain ⟨z1, z2, z3, z4⟩ := hZ
  have hre : 800 ≤ b.re := by nlinarith [sq_nonneg (500 - b.im)]
  have him1 : 400 ≤ b.im := by nlinarith [sq_nonneg (900 - b.re)]
  have him2 : b.im ≤ 600 := by nlinarith [sq_nonneg (900 - b.re)]
  have hb1 : b.re = 1000 := by
    by_contra hne
    have hlt : b.re < 1000 := lt_of_le_of_ne z2 hne
    exact hb.2 (rect_interior (by linarith) hlt (by linarith) (by linarith))
  have hb2 : b.im = 500 := by rw [hb1] at h2; nlinarith [sq_nonneg (500 - b.im)]
  have hbe : b = ⟨1000, 500⟩ := Complex.ext hb1 hb2
  have hin : (⟨900, 500⟩ : ℂ) ∈ rect 0 1000 0 1000 := ⟨by norm_num, by norm_num, by norm_num, by norm_num⟩
  simp only [attemptMove, twoZones, if_true, moveOff]
  rw [if_pos ((hz.inside _).2 hin), ← hbd, hbe]
  have e : (⟨1000, 500⟩ : ℂ) - ⟨900, 500⟩ = ((100 : ℝ) : ℂ) := by apply Complex.ext <;> simp; norm_num
  rw [normalize_eq, e, Complex.norm_real]
  apply Complex.ext
  · norm_num
  · norm_num

example (q : ℂ) (hq : q ∈ rect 0 1000 0 1000) : 150 ≤ ‖(attemptMove twoZones ⟨⟨900, 500⟩, 300⟩ 150).place - q‖ :=
  C150_inside (zoneOf_is (rect_frontier (by norm_num) (by norm_num))) (rect_convex _ _ _ _)
    (rect_interior (by norm_num) (by norm_num) (by norm_num) (by norm_num)) _ rfl [2] 150 hq

/-- **C150, violated**: the place is moved off one zone only, and may then be in another one. -/
theorem C150_second_violated :
    (⟨900, 500⟩ : ℂ) ∉ rect 1100 2000 0 1000 ∧
    (attemptMove twoZones ⟨⟨900, 500⟩, 300⟩ 150).place ∈ interior (rect 1100 2000 0 1000) := by
  rw [moved]
  refine ⟨fun h => ?_, rect_interior (by norm_num) (by norm_num) (by norm_num) (by norm_num)⟩
  have := h.1
  norm_num at this

/-- **C150, violated**: a place on the boundary of a zone stays there. -/
theorem C150_edge_violated {z : Zone} {Z : Set ℂ} (hz : z.Is Z) (hcl : IsClosed Z) {p : ℂ} (hp : p ∈ frontier Z)
    (zones : ℤ → Option Zone) {i : ℤ} (hi : zones i = some z) (is : List ℤ) (off : ℝ) : moveOff zones p off (i :: is) = p := by
  have h1 := (hz.project p).2 p hp
  rw [sub_self, norm_zero] at h1
  have h2 : p - z.project p = 0 := norm_eq_zero.1 (le_antisymm h1 (norm_nonneg _))
  have h3 : z.project p = p := (sub_eq_zero.1 h2).symm
  unfold moveOff
  simp only [hi]
  rw [if_pos ((hz.inside p).2 (hcl.frontier_subset hp)), h3, sub_self, normalize_eq]
  simp

/-- **C150, violated**: only the operating region with id 0 counts; without it, no place is moved. -/
theorem C150_region_violated (s : St) (h : s.regions 0 = none) (l : Loc) (off : ℝ) : attemptMove s l off = l := by
  unfold attemptMove
  rw [h]

/-- The ring is not nearer than the middles of its edges. -/
theorem ring_far {p a : ℂ} {r : ℝ} (ha : a ∈ Ring p r) : r * Real.cos (Real.pi / 20) ≤ ‖a - p‖ := by
  obtain ⟨k, -, s, t, hs, ht, hst, rfl⟩ := ha
  have h1 := real_inner_le_norm (s • corner p r k + t • corner p r (k + 1) - p) (⟨Real.cos (ang k), Real.sin (ang k)⟩ : ℂ)
  have h2 : ‖(⟨Real.cos (ang k), Real.sin (ang k)⟩ : ℂ)‖ = 1 := by
    have := norm_sq (⟨Real.cos (ang k), Real.sin (ang k)⟩ : ℂ)
    simp only [Real.cos_sq_add_sin_sq] at this
    have h0 := norm_nonneg (⟨Real.cos (ang k), Real.sin (ang k)⟩ : ℂ)
    nlinarith
  rw [h2, mul_one, inner_re] at h1
  refine le_trans (le_of_eq ?_) h1
  have e1 : Real.cos (Real.pi / 20) = Real.cos (k * (Real.pi / 10)) * Real.cos (ang k) + Real.sin (k * (Real.pi / 10)) * Real.sin (ang k) := by
    rw [← Real.cos_sub, ← Real.cos_neg]; congr 1; unfold ang; ring
  have e2 : Real.cos (Real.pi / 20) =
      Real.cos ((k + 1 : ℕ) * (Real.pi / 10)) * Real.cos (ang k) + Real.sin ((k + 1 : ℕ) * (Real.pi / 10)) * Real.sin (ang k) := by
    rw [← Real.cos_sub]; congr 1; unfold ang; push_cast; ring
  have c1 : ∀ j, (corner p r j).re = p.re + r * Real.cos (j * (Real.pi / 10)) := fun j => by
    unfold corner
    generalize Real.cos (j * (Real.pi / 10)) = c
    generalize Real.sin (j * (Real.pi / 10)) = s
    simp
  have c2 : ∀ j, (corner p r j).im = p.im + r * Real.sin (j * (Real.pi / 10)) := fun j => by
    unfold corner
    generalize Real.cos (j * (Real.pi / 10)) = c
    generalize Real.sin (j * (Real.pi / 10)) = s
    simp
  simp only [Complex.sub_re, Complex.sub_im, Complex.add_re, Complex.add_im, Complex.real_smul, Complex.re_ofReal_mul,
    Complex.im_ofReal_mul, c1, c2]
  have e3 : t = 1 - s := by linarith
  subst e3
  linear_combination (r * s) * e1 + (r * (1 - s)) * e2

/-- **C150, violated**: a zone of 10 m by 10 m on the circle that is flown is not noticed, as it does not touch the polygon, which
is half as large again. -/
theorem C150_within_violated :
    (100 : ℂ) ∈ interior (rect 95 105 (-5) 5) ∧
    moveOff (fun i => if i = 1 then some (zoneOf (rect 95 105 (-5) 5)) else none) 0 150 [1] = 0 := by
  refine ⟨rect_interior (by norm_num) (by norm_num) (by norm_num) (by norm_num), ?_⟩
  have hz := zoneOf_is (rect_frontier (a := 95) (b := 105) (c := -5) (d := 5) (by norm_num) (by norm_num))
  have hp : (0 : ℂ) ∉ rect 95 105 (-5) 5 := by
    intro h
    have := h.1
    norm_num at this
  have hc : (0.98 : ℝ) ≤ Real.cos (Real.pi / 20) := by
    have h1 := Real.one_sub_sq_div_two_le_cos (x := Real.pi / 20)
    have h2 := Real.pi_le_four
    have h3 := Real.pi_pos
    nlinarith
  refine (C150_free hz (rect_convex _ _ _ _) hp _ (by simp) [] (by norm_num) ?_).1
  rintro ⟨a, ha, b, hb, hab⟩
  have h1 := ring_far ha
  rw [sub_zero] at h1
  obtain ⟨b1, b2, b3, b4⟩ := (rect_closed 95 105 (-5) 5).frontier_subset hb
  have h2 : ‖b‖ ≤ 110 := by
    have h := norm_sq b
    have h0 := norm_nonneg b
    have : ‖b‖ ^ 2 ≤ 110 ^ 2 := by rw [h]; nlinarith
    exact (pow_le_pow_iff_left₀ h0 (by norm_num) two_ne_zero).1 this
  have h3 : ‖a‖ ≤ ‖a - b‖ + ‖b‖ := by
    have : a = (a - b) + b := by ring
    conv_lhs => rw [this]
    exact norm_add_le _ _
  have h4 : (0.1 : ℝ) < 1 := by norm_num
  nlinarith

/-! ### A relay, an overwatch and a history -/

/-- A surface vehicle. -/
def boat (x : ℂ) : VState := ⟨7, .other, ⟨x, 0⟩, 1⟩

/-- Not in the code: a known place, for the examples. -/
noncomputable def here (x : ℂ) : Option Loc := some ⟨x, 0⟩

/-- A vehicle far from its target: a route is asked for at the second state, and again when the target has moved. -/
example : ∃ s' r₁ r₂, run ⟨5, 6, 3000, 400, 50⟩ (fun _ => none) {}
    [.state 0 (boat 0) (here 1000), .state 3000 (boat 0) (here 1000), .state 4000 (boat 0) (here 3000),
      .state 6000 (boat 0) (here 3000)] =
    .ok (s', [(.state 0 (boat 0) (here 1000), none), (.state 3000 (boat 0) (here 1000), some (.request r₁)),
      (.state 4000 (boat 0) (here 3000), none), (.state 6000 (boat 0) (here 3000), some (.request r₂))]) := by
  simp [run, step, activeEntityState, boat, here, Outcome.bind]
  norm_num

/-- A vehicle near its target at first: the hypotheses of `C148_stuck_violated`. -/
example : ∃ s₁, step ⟨5, 6, 3000, 400, 50⟩ (fun _ => none) { clock := fun _ => some 0 } (.state 3000 (boat 0) (here 100)) = .ok (s₁, none) ∧
    ∀ (es : List Event) {s' : St} {l : List (Event × Option Out)}, run ⟨5, 6, 3000, 400, 50⟩ (fun _ => none) s₁ es = .ok (s', l) →
      (∀ now v loc, Event.state now v loc ∈ es → v.id = 7 → ∃ x, loc = some x ∧ ‖x.place - 100‖ < (400 : ℤ)) →
      ∀ x ∈ l, ∀ now, ¬ Asks x now 7 :=
  C148_stuck_violated (q := ⟨100, 0⟩) (v := boat 0) (c := 0) rfl (by simp [boat]) rfl rfl (by norm_num) rfl (by simp [boat]; norm_num)

/-- A mission for two waypoints. -/
example : ∃ m, (response ⟨5, 6, 3000, 400, 50⟩ (fun _ => some ⟨.air, 20, 500, [(1, true), (2, false)]⟩)
    { target := fun _ => here 1000 } ⟨6, 7, [(1, [⟨1, 2, ⟨50, 0⟩, 20, [], []⟩, ⟨2, 3, ⟨1000, 0⟩, 20, [], []⟩])]⟩).2 = some m ∧ m.vehicle = 7 := by
  obtain ⟨m, h1, h2, -⟩ := C149_mission (p := ⟨5, 6, 3000, 400, 50⟩) (config := fun _ => some ⟨.air, 20, 500, [(1, true), (2, false)]⟩)
    (s := { target := fun _ => here 1000 })
    (r := ⟨6, 7, [(1, [⟨1, 2, ⟨50, 0⟩, 20, [], []⟩, ⟨2, 3, ⟨1000, 0⟩, 20, [], []⟩])]⟩) rfl rfl (by simp)
  exact ⟨m, h1, h2⟩

/-- Options for two of three vehicles. -/
example : ∃ os, options ⟨5, 6, 3000, 400, 50⟩ (fun _ => some ⟨.ground, 20, 500, []⟩) (fun e => e ≠ 2) (fun _ => here 1000) {} 1 [1, 2, 3] = .ok os ∧
    os.map Opt.id = [1, 2] ∧ os.map Opt.entity = [1, 3] ∧ composition os = "+(p1 p2 )".toList := by
  refine ⟨_, rfl, rfl, rfl, ?_⟩
  decide

/-- An entity that is watched for two seconds while it goes north-east at 10 m/s in each direction is expected 50 m to the
west of its way after 5 s. -/
example : ∃ r, overwatch ⟨some ⟨2000, ⟨⟨20, 20⟩, 0⟩⟩, [⟨0, ⟨0, 0⟩⟩, ⟨1000, ⟨⟨10, 10⟩, 0⟩⟩, ⟨2000, ⟨⟨20, 20⟩, 0⟩⟩]⟩ 7000 = some r ∧
    r.place - ⟨70, 70⟩ = -50 := by
  obtain ⟨r, h1, h2⟩ := C152_north_violated (x := 0) (v := ⟨10, 10⟩) (now := 7000)
    (w := ⟨some ⟨2000, ⟨⟨20, 20⟩, 0⟩⟩, [⟨0, ⟨0, 0⟩⟩, ⟨1000, ⟨⟨10, 10⟩, 0⟩⟩, ⟨2000, ⟨⟨20, 20⟩, 0⟩⟩]⟩) rfl
    (by
      intro t ht
      simp only [List.mem_cons, List.not_mem_nil, or_false] at ht
      rcases ht with rfl | rfl | rfl <;> apply Complex.ext <;> norm_num)
    (by norm_num) (by norm_num) rfl (by simp) (by norm_num) (by norm_num)
  refine ⟨r, h1, ?_⟩
  have e : (⟨70, 70⟩ : ℂ) = 0 + ⟨10, 10⟩ * (((7000 : ℤ) : ℝ) / 1000 : ℝ) := by apply Complex.ext <;> norm_num
  rw [e, h2]
  norm_num

/-- And one that goes east is expected where it will be. -/
example : overwatch ⟨some ⟨1000, ⟨10, 0⟩⟩, [⟨0, ⟨0, 0⟩⟩, ⟨1000, ⟨10, 0⟩⟩]⟩ 6000 = some ⟨60, 0⟩ := by
  rw [C152_east_partial (x := 0) (v := 10) (f := ⟨0, ⟨0, 0⟩⟩) (g := ⟨1000, ⟨10, 0⟩⟩) (l := []) rfl
    (by
      intro t ht
      simp only [List.mem_cons, List.not_mem_nil, or_false] at ht
      rcases ht with rfl | rfl <;> norm_num)
    (by norm_num) (by norm_num) rfl (by simp) (by norm_num) (by norm_num)]
  norm_num

/-- The service of an overwatch that has not heard of its target for more than 15 s fails at the next state of a vehicle that it
sent somewhere before. -/
example (t : Track) (ht : t.time = 0) (l : Loc) : step ⟨5, 6, 3000, 400, 50⟩ (fun _ => none)
    { clock := fun _ => some 12000, target := fun _ => some l }
    (.state 15001 (boat 0) (overwatch ⟨some t, [t]⟩ 15001)) = .ub := by
  have h := (C152_none ⟨some t, [t]⟩ 15001).2 (by intro t' h; simp only [Option.some.injEq] at h; subst h; omega)
  rw [h, step, C148_null_violated (q := l) (c := 12000) rfl (by norm_num) (by simp [boat]) rfl]
  rfl

/-- A relay between a tower and a boat 2 km to the east of it. -/
example : ‖(relay none (some 0) (some 2000) ⟨⟨0, 900⟩, 100⟩ (some 300)).place - 0‖ = 1000 ∧
    (relay none (some 0) (some 2000) ⟨⟨0, 900⟩, 100⟩ (some 300)).altitude = 300 := by
  obtain ⟨h1, -, h3⟩ := C153_between (towerState := none) (towerConfig := some 0) (t := 0) (x := 2000) (.inr ⟨rfl, rfl⟩)
    ⟨⟨0, 900⟩, 100⟩ (some 300)
  exact ⟨by rw [h1]; norm_num, h3⟩

/-- A place in the zone that is listed second, after one that is not known: `C150_first`, `C150_inside_any`. -/
example {z : Zone} {Z : Set ℂ} (hz : z.Is Z) (hZ : Convex ℝ Z) {x : ℂ} (hp : x ∈ interior Z) {q : ℂ} (hq : q ∈ Z) :
    500 ≤ ‖moveOff (fun i => if i = 2 then some z else none) x 500 [1, 2] - q‖ :=
  C150_inside_any hz hZ hp _ (i := 2) (by simp) [1] [] 500 (by simp) hq

end Verif.Dynamic
