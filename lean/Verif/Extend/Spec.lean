import Verif.Extend.Model

/-!
# What a path with a turn radius is

Independent of the code: a vehicle at a position with a heading flies straight, or an arc of the given radius to the left or
to the right.
-/

namespace Verif.Extend

open Real

/-- Position after flying straight for a length. -/
noncomputable def Pose.ahead (p : Pose) (s : ℝ) : Pose := ⟨p.x + s * cos p.psi, p.y + s * sin p.psi, p.psi⟩

/-- Position after turning left by an angle on a circle with radius `R`: the centre is to the left. -/
noncomputable def Pose.leftBy (R : ℝ) (p : Pose) (a : ℝ) : Pose :=
  ⟨p.x - R * sin p.psi + R * sin (p.psi + a), p.y + R * cos p.psi - R * cos (p.psi + a), p.psi + a⟩

/-- Position after turning right by an angle on a circle with radius `R`: the centre is to the right. -/
noncomputable def Pose.rightBy (R : ℝ) (p : Pose) (a : ℝ) : Pose :=
  ⟨p.x + R * sin p.psi - R * sin (p.psi - a), p.y - R * cos p.psi + R * cos (p.psi - a), p.psi - a⟩

/-- A piece flown from `p`: where the vehicle is after the length `s` of it. -/
noncomputable def Pose.along (R : ℝ) (p : Pose) (w : Dubins) (s : ℝ) : Pose :=
  if w.turn = 0 then p.ahead s else if w.turn = 1 then p.leftBy R (s / R) else p.rightBy R (s / R)

/-- The list describes a path that a vehicle with turn radius `R` can fly from `p` to `q`: every piece has a length that is
not negative, ends where the vehicle is after its length, and has the centre of its circle, if it is an arc, at the side it
turns to, at distance `R`. -/
inductive Flies (R : ℝ) : Pose → List Dubins → Pose → Prop
  | nil (p : Pose) : Flies R p [] p
  | cons {p : Pose} {w : Dubins} {ws : List Dubins} {q : Pose}
      (hlen : 0 ≤ w.len)
      (hturn : w.turn = 0 ∨
        w.turn = 1 ∧ w.tx = p.x - R * sin p.psi ∧ w.ty = p.y + R * cos p.psi ∨
        w.turn = -1 ∧ w.tx = p.x + R * sin p.psi ∧ w.ty = p.y - R * cos p.psi)
      (hend : w.x = (p.along R w w.len).x ∧ w.y = (p.along R w w.len).y)
      (hrest : Flies R (p.along R w w.len) ws q) : Flies R p (w :: ws) q

/-- The positions passed on the way. -/
def Passes (R : ℝ) : Pose → List Dubins → ℝ × ℝ → Prop
  | _, [], _ => False
  | p, w :: ws, z =>
    (∃ s, 0 ≤ s ∧ s ≤ w.len ∧ z = ((p.along R w s).x, (p.along R w s).y)) ∨ Passes R (p.along R w w.len) ws z

/-- The length of the path. -/
noncomputable def total (ws : List Dubins) : ℝ := (ws.map Dubins.len).sum

/-- `z` is no further than `r` from a point of the straight line from `a` to `b`. -/
def Near (a b : Dubins) (r : ℝ) (z : ℝ × ℝ) : Prop :=
  ∃ t, 0 ≤ t ∧ t ≤ 1 ∧
    (z.1 - (a.x + t * (b.x - a.x))) ^ 2 + (z.2 - (a.y + t * (b.y - a.y))) ^ 2 ≤ r ^ 2

end Verif.Extend
