import Verif.Search.Model

/-!
# What the sensor sees and what an area is

Said without the functions of the model: positions are pairs of metres, a course is
an angle from north, the footprint of the sensor is a band ahead of the vehicle.
-/

namespace Verif.Search

/-- How far `p` is ahead of a vehicle at `v` on the course `h`. -/
noncomputable def along (h : ℝ) (v p : Pos) : ℝ :=
  (p.n - v.n) * Real.cos h + (p.e - v.e) * Real.sin h

/-- How far `p` is to the right of a vehicle at `v` on the course `h`. -/
noncomputable def across (h : ℝ) (v p : Pos) : ℝ :=
  (p.e - v.e) * Real.cos h - (p.n - v.n) * Real.sin h

/-- The point `t` of the way from `a` to `b`. -/
noncomputable def between (a b : Pos) (t : ℝ) : Pos :=
  ⟨a.n + t * (b.n - a.n), a.e + t * (b.e - a.e)⟩

/-- A sensor that reaches from `trail` to `lead` ahead of the vehicle and `half` to
either side sees `p` from `v` on the course `h`. -/
def Sees (lead trail half h : ℝ) (v p : Pos) : Prop :=
  trail ≤ along h v p ∧ along h v p ≤ lead ∧ |across h v p| ≤ half

/-- The sensor sees `p` at some moment of the straight flight from `a` to `b` on the
course `h`. -/
def Swept (lead trail half h : ℝ) (a b p : Pos) : Prop :=
  ∃ t, 0 ≤ t ∧ t ≤ 1 ∧ Sees lead trail half h (between a b t) p

/-- `p` is not on the far side of any side of the polygon: the region of a convex
polygon, whose corners go round one way (`σ = 1`) or the other (`σ = -1`). -/
def Inside (σ : ℝ) (vs : List Pos) (p : Pos) : Prop :=
  ∀ i (hi : i < vs.length),
    let u := vs[i]
    let v := vs[(i + 1) % vs.length]'(Nat.mod_lt _ (by omega))
    0 ≤ σ * ((v.n - u.n) * (p.e - u.e) - (v.e - u.e) * (p.n - u.n))

/-- The numbers `x` say where the lanes are, across the direction `ax`, and the legs are
flown on them: each a step from the one before, the step being `s` to one side or the
other, each leg on its lane up to half a metre. -/
structure OnLanes (ax : ℝ) (c : Pos) (s : ℝ) (legs : List Leg) (x : ℕ → ℝ) : Prop where
  step : ∃ δ : ℝ, |δ| = s ∧ ∀ i, x (i + 1) = x i + δ
  near : ∀ i (hi : i < legs.length), |across ax c legs[i].start - x i| ≤ 1 / 2 ∧
    |across ax c legs[i].stop - x i| ≤ 1 / 2

end Verif.Search
