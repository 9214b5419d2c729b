import Verif.Escort.Segment

/-!
# Where an escort goes

`EscortTaskService` keeps a vehicle ahead of or behind another one, at a distance along the path
that the other one follows.  The plane and the simplifications are those of `Segment`.
-/

namespace Verif.Escort

open Complex

/-- The segments of a path: the loops of EscortTaskService.cpp 240-242, 304-306, 425-427 and 456-458. -/
def segments (l : List ℂ) : List (ℂ × ℂ) := l.zip l.tail

/-- EscortTaskService.cpp 310-315 (462-466, 494-498): the heading of a segment, in degrees from the north. -/
noncomputable def segmentHeading (a b : ℂ) : ℝ :=
  let h := (Real.pi / 2 - angle a b) * (180 / Real.pi)
  if h < 0 then h + 360 else h

/-- EscortTaskService.cpp 316-324 (467-475, 499-507): the difference of two headings. -/
noncomputable def headingDelta (h s : ℝ) : ℝ :=
  let d := h - s
  let d := if 180 < d then d - 360 else d
  if d < -180 then d + 360 else d

/-- EscortTaskService.cpp 294-298: the heading within one turn.  Simplified: `fmod` with the following correction as one
step, which is exact. -/
noncomputable def wrap (h : ℝ) : ℝ := h - 360 * ⌊h / 360⌋

/-! ### Which path -/

/-- EscortTaskService.cpp 408-436: `DistanceToLine`; negative for a line without segments. -/
noncomputable def distanceToLine (t : ℂ) (l : List ℂ) : ℝ :=
  (segments l).foldl (fun m s => if m < 0 ∨ distTo s.1 s.2 t < m then distTo s.1 s.2 t else m) (-1)

/-- EscortTaskService.cpp 455-482 and 484-515: the distance of the nearest of the segments that go the given way. -/
noncomputable def congruentDist (t : ℂ) (h : ℝ) (ss : List (ℂ × ℂ)) : ℝ :=
  ss.foldl (fun m s =>
    if |headingDelta h (segmentHeading s.1 s.2)| < 90 ∧ (m < 0 ∨ distTo s.1 s.2 t < m) then distTo s.1 s.2 t else m) (-1)

open Classical in
/-- EscortTaskService.cpp 438-524: `FlipLine`.  The segments are taken in reverse in the second loop. -/
noncomputable def flipLine (t : ℂ) (h : ℝ) (l : List ℂ) : Bool :=
  let forward := congruentDist t h (segments l)
  let reverse := congruentDist t h (segments l.reverse)
  if reverse < 0 then false
  else decide (0 < forward ∧ reverse < forward)

/-- EscortTaskService.cpp 237-253: the state of the loop for a target at rest: least distance, length before, length of the
whole. -/
noncomputable def restLoop (t : ℂ) : List (ℂ × ℂ) → (mindist minlength total : ℝ) → ℝ × ℝ
  | [], _, minlength, total => (minlength, total)
  | s :: ss, mindist, minlength, total =>
      let total := total + ‖s.2 - s.1‖
      let d := distTo s.1 s.2 t
      if mindist < 0 ∨ d < mindist then restLoop t ss d (total + ‖s.1 - t‖) (total + ‖s.2 - s.1‖)
      else restLoop t ss mindist minlength (total + ‖s.2 - s.1‖)

open Classical in
/-- EscortTaskService.cpp 254: whether the line is reversed for a target at rest. -/
noncomputable def restFlip (t : ℂ) (l : List ℂ) : Bool :=
  let r := restLoop t (segments l) (-1) 0 0
  decide (1 < r.2 ∧ 0.5 < r.1 / r.2)

/-- What the service knows: the paths of the missions and path commands heard last, by vehicle
(EscortTaskService.cpp 122-144), and the lines of interest (145-149) in the order of their map. -/
structure Known where
  missions : ℤ → Option (List ℂ)
  lines : List (ℤ × List ℂ)

/-- The parts of an `EscortTask` that are used. -/
structure Task where
  supported : ℤ
  route : ℤ
  prescribed : List ℂ
  standoff : ℝ

/-- EscortTaskService.cpp 205-215: distance and id of the nearest line of interest. -/
noncomputable def nearestLine (t : ℂ) (ls : List (ℤ × List ℂ)) : ℝ × ℤ :=
  ls.foldl (fun m l =>
    if 0 < distanceToLine t l.2 ∧ (m.1 < 0 ∨ distanceToLine t l.2 < m.1) then (distanceToLine t l.2, l.1) else m) (-1, 0)

open Classical in
/-- EscortTaskService.cpp 187-274: the path that the supported vehicle is taken to follow. -/
noncomputable def choosePath (k : Known) (task : Task) (t : ℂ) (heading speed : ℝ) : List ℂ :=
  if task.route = 0 then
    match k.missions task.supported with
    | some p => p
    | none =>
        if task.prescribed ≠ [] then task.prescribed
        else
          let id := (nearestLine t k.lines).2
          if id = 0 then []
          else match k.lines.lookup id with
            | none => []
            | some l =>
                if |speed| < 1 then if restFlip t l then l.reverse else l
                else if flipLine t heading l then l.reverse else l
  else (k.lines.lookup task.route).getD []

/-! ### The place on the path -/

/-- EscortTaskService.cpp 300-303: what the loop over the segments keeps. -/
structure Near where
  mindist : ℝ
  proj : ℂ
  stop : ℕ
  start : ℕ

open Classical in
/-- EscortTaskService.cpp 304-335: the nearest of the segments that go the way of the target, or of all when it is at rest.
The number is that of the segment. -/
noncomputable def project (t : ℂ) (h speed : ℝ) : List (ℂ × ℂ) → ℕ → Near → Near
  | [], _, n => n
  | s :: ss, i, n =>
      project t h speed ss (i + 1)
        (if (n.mindist < 0 ∨ distTo s.1 s.2 t < n.mindist) ∧
            (|headingDelta h (segmentHeading s.1 s.2)| < 90 ∨ |speed| < 1) then
          { mindist := distTo s.1 s.2 t, proj := closestPoint s.1 s.2 t, stop := i + 1, start := i }
         else n)

/-- EscortTaskService.cpp 340-345 (371-376): the loop along the path: the corner before, the corner ahead, the distance so
far and whether the distance was reached.  The corners are those from `linpath[segmentEndIndex]` on, or from
`linpath[segmentStartIndex]` back. -/
noncomputable def walk (d : ℝ) : (p q : ℂ) → (rest : List ℂ) → (acc : ℝ) → ℂ × ℂ × ℝ
  | p, q, [], acc => (p, q, acc)
  | p, q, r :: rest, acc => if acc < d then walk d q r rest (acc + ‖r - q‖) else (p, q, acc)

/-- EscortTaskService.cpp 347-366 (378-397): back from the corner ahead by what is too much, or to the end of the path. -/
noncomputable def settle (d : ℝ) (p q : ℂ) (acc : ℝ) (last : ℂ) : ℂ :=
  if d ≤ acc then
    let backOff := acc - d
    if 1e-2 < ‖p - q‖ ∧ backOff ≤ ‖p - q‖ + 1 then q + ((backOff / ‖p - q‖ : ℝ) : ℂ) * (p - q) else q
  else last

/-- EscortTaskService.cpp 337-366 for the corners ahead and 368-397 for those behind: the place at the distance `d`.  With no
corner, `at` throws. -/
noncomputable def place (d : ℝ) (proj : ℂ) : List ℂ → Option ℂ
  | [] => none
  | q :: rest =>
      let w := walk d proj q rest ‖q - proj‖
      some (settle d w.1 w.2.1 w.2.2 ((q :: rest).getLast (by simp)))

/-- EscortTaskService.cpp 179-405: `CalculateTargetPoint`: where the escort is to be, `none` for an exception.  `abs` in line
182 is taken to be that of real numbers. -/
noncomputable def targetPoint (k : Known) (task : Task) (t : ℂ) (heading speed : ℝ) : Option ℂ :=
  if |task.standoff - 0.001| < 0.1 then some t
  else
    let path := choosePath k task t heading speed
    if path = [] then some t
    else
      let n := project t (wrap heading) speed (segments path) 0 { mindist := -1, proj := t, stop := 0, start := 0 }
      if -0.01 ≤ task.standoff then place task.standoff n.proj (path.drop n.stop)
      else place |task.standoff| n.proj (path.take (n.start + 1)).reverse

end Verif.Escort
