import Verif.Visilib.Padding
import Mathlib.Analysis.Complex.ReImTopology
import Mathlib.Analysis.InnerProductSpace.Basic
import Mathlib.Analysis.Normed.Module.Convex
import Mathlib.Analysis.Complex.Basic
import Mathlib.Topology.MetricSpace.HausdorffDistance

/-!
Where a point search loiters (src/cpp/Tasks/ImpactPointSearchTaskService.cpp 207-280, the first part of `isCalculateOption`): a
loiter in or at a zone to be kept out of is moved.

Places are complex numbers (east, north), in metres; the conversions to degrees and back are left out.  A zone is the set of its
places, with the point of its boundary that the library finds for a point (`projection_onto_boundary_of`, see C115).
-/

namespace Verif.Loiter

open Verif.Visilib.Padding (cis)

/-- A zone (ImpactPointSearchTaskService.h 184): its places, and the projection onto its boundary. -/
structure Zone where
  place : Set ℂ
  project : ℂ → ℂ

/-- ImpactPointSearchTaskService.cpp 246-255: the corners of the polygon for the loiter: twenty points of the circle.  Simplification:
in doubles twenty steps of `dPiO10()` can stay below `dTwoPi()`, which gives the first point twice. -/
noncomputable def ring (p : ℂ) (r : ℝ) (k : ℕ) : ℂ := p + (r : ℂ) * cis (k * (Real.pi / 10))

/-- ImpactPointSearchTaskService.cpp 256-260: `boundary_distance` of the loiter and a zone is less than 0.1 m. -/
def touches (z : Zone) (p : ℂ) (r : ℝ) : Prop :=
  ∃ k < 20, ∃ x ∈ segment ℝ (ring p r k) (ring p r (k + 1)), ∃ y ∈ frontier z.place, ‖x - y‖ < 0.1

open scoped Classical in
/-- ImpactPointSearchTaskService.cpp 220-280: the loop over the zones: the first in which or at which the loiter is decides where it
is moved, by one and a half radii from the boundary.  `p.in` is taken to be exact (see C116); the zones have corners. -/
noncomputable def move (r : ℝ) (p : ℂ) : List Zone → ℂ
  | [] => p
  | z :: zs =>
    if p ∈ z.place then z.project p + Visilib.Padding.normalize (z.project p - p) * (r : ℂ) * (1.5 : ℝ)
    else if touches z p r then z.project p + Visilib.Padding.normalize (p - z.project p) * (r : ℂ) * (1.5 : ℝ)
    else move r p zs

/-- ImpactPointSearchTaskService.cpp 115-182: `isCalculateOption` is called for each heading, and each call moves the loiter of the
task itself (272-280): where it is after `n` calls. -/
noncomputable def after (zs : List Zone) (r : ℝ) (p : ℂ) : ℕ → ℂ
  | 0 => p
  | n + 1 => move r (after zs r p n) zs

/-- The library finds a nearest point of the boundary (C115). -/
def Zone.Nearest (z : Zone) : Prop :=
  ∀ p, z.project p ∈ frontier z.place ∧ ∀ y ∈ frontier z.place, ‖p - z.project p‖ ≤ ‖p - y‖

end Verif.Loiter
