import Verif.Stare.Commands

/-!
# Where a spiral search looks (C163), and what it shares with `Verif.Pattern`
-/

namespace Verif.Stare

open Complex
open Verif.Escort (along)
open Verif.Pattern (Turn spiralFrom spiralRadius vehicleRadius polar waypointSpacing)
open Verif.Search (Pos)

/-- PatternSearchTaskService.cpp 490-560 as in `Verif.Pattern.spiralFrom`, with the radii. -/
noncomputable def spiralRadii (c : Pos) (s bound centre : ℝ) : ℕ → (θ radius : ℝ) → Bool → Option (List (ℝ × Turn))
  | 0, _, _, _ => none
  | k + 1, θ, radius, first =>
      if radius ≤ bound then
        let r := spiralRadius s θ first
        (spiralRadii c s bound centre k (if 0 < r then θ + waypointSpacing / r else θ) r false).map
          ((r, { road := polar c r θ, vehicle := polar c (vehicleRadius centre r) θ }) :: ·)
      else some []

/-- The turns are those of C142. -/
theorem spiralRadii_turns (c : Pos) (s bound centre : ℝ) : ∀ (k : ℕ) (θ radius : ℝ) (first : Bool),
    (spiralRadii c s bound centre k θ radius first).map (·.map (·.2)) = spiralFrom c s bound centre k θ radius first
  | 0, _, _, _ => rfl
  | k + 1, θ, radius, first => by
      rw [spiralRadii, spiralFrom]
      by_cases h : radius ≤ bound
      · rw [if_pos h, if_pos h]
        simp only
        rw [← spiralRadii_turns c s bound centre k]
        rw [Option.map_map, Option.map_map]
        rfl
      · rw [if_neg h, if_neg h]; rfl

theorem wpsFrom_length : ∀ (ts : List (ℝ × Turn)) (n : ℤ), (wpsFrom n ts).length = ts.length
  | [], _ => rfl
  | x :: ts, n => by simp [wpsFrom, wpsFrom_length ts]

theorem wpsFrom_get : ∀ (ts : List (ℝ × Turn)) (n : ℤ) (i : ℕ) (h : i < (wpsFrom n ts).length),
    (wpsFrom n ts)[i] = (n + i, toC (ts[i]'(by rwa [wpsFrom_length] at h)).2.vehicle)
  | [], n, i, h => by simp [wpsFrom] at h
  | x :: ts, n, 0, h => by simp [wpsFrom]
  | x :: ts, n, i + 1, h => by
      simp only [wpsFrom, List.getElem_cons_succ]
      rw [wpsFrom_get ts (n + 1) i]
      congr 1
      push_cast; ring

theorem wpsFrom_sorted (n : ℤ) (ts : List (ℝ × Turn)) : (wpsFrom n ts).Pairwise fun x y => x.1 < y.1 := by
  rw [List.pairwise_iff_getElem]
  intro i j hi hj hij
  rw [wpsFrom_get, wpsFrom_get]
  simp only
  omega

theorem wpsFrom_points (n : ℤ) (ts : List (ℝ × Turn)) : (wpsFrom n ts).map (·.2) = ts.map (fun x => toC x.2.vehicle) := by
  induction ts generalizing n with
  | nil => rfl
  | cons x ts ih => simp [wpsFrom, ih]

/-- **C163.**  A spiral search, `x` the first of its turns whose radius is not below that of the centre: the turns up to `x` and those from
`x` on are the two parts of the way.  When a vehicle at `pos` heads for a waypoint of a part that is not its first, it is
told to look at a point within two thousandths of the length of this part of the spiral of the one that is as far along
it, in proportion, as the vehicle is along the waypoints of the part. -/
theorem C163_look {t : Search} {v w : ℤ} {pos q : ℂ} {centre : ℝ} {pre post : List (ℝ × Turn)} {x : ℝ × Turn}
    (hpre : ∀ y ∈ pre, y.1 < centre) (hx : ¬ x.1 < centre)
    (hst : t.steering = some (segments (spiralSegs centre 1 true [] [] (pre ++ x :: post))))
    {us : List (ℝ × Turn)} {n : ℤ} (hpart : (us = pre ++ [x] ∧ n = 1) ∨ (us = x :: post ∧ n = 1 + pre.length))
    {k : ℕ} (hk : k + 1 < us.length) (hw : t.numbers.get w = some (n + k + 1))
    (hroad : 0 < len (us.map fun y => toC y.2.road)) (hab : toC us[k].2.vehicle ≠ toC us[k + 1].2.vehicle)
    (hq : q ∈ segment ℝ (toC us[k].2.vehicle) (toC us[k + 1].2.vehicle))
    (hmin : ∀ r ∈ segment ℝ (toC us[k].2.vehicle) (toC us[k + 1].2.vehicle), ‖pos - q‖ ≤ ‖pos - r‖) :
    ∃ t' out z alt, t.step (.state v pos w) = .ok (t', out) ∧ .stare v (firstGimbal (t.configs.get v)) [t.task] (some z) alt ∈ out ∧
      ‖z - along (us.map fun y => toC y.2.road)
        ((len ((us.map fun y => toC y.2.vehicle).take (k + 1)) + ‖q - toC us[k].2.vehicle‖) /
          len (us.map fun y => toC y.2.vehicle) * len (us.map fun y => toC y.2.road))‖
        ≤ 2 / 1000 * len (us.map fun y => toC y.2.road) := by
  have hfi : findIn (segments (spiralSegs centre 1 true [] [] (pre ++ x :: post))) (n + k + 1) pos =
      (Steering.init (wpsFrom n us) (roadOf us)).find (n + k + 1) pos := by
    rcases hpart with ⟨rfl, rfl⟩ | ⟨rfl, rfl⟩
    · have : k + 1 < pre.length + 1 := by simpa using hk
      exact C162_spiral_inner centre post hpre hx (by omega) (by omega) pos
    · exact C162_spiral_outer centre post hpre hx (by omega) pos
  have hlen := wpsFrom_length us n
  have hk' : k + 1 < (wpsFrom n us).length := by rw [hlen]; exact hk
  have e1 := wpsFrom_get us n (k + 1) hk'
  have e0 := wpsFrom_get us n k (by omega)
  have hmap : (roadOf us).map (·.at_) = us.map fun y => toC y.2.road := by simp [roadOf]
  have hnear := C161_near (wpsFrom_sorted n us) (road := roadOf us) (by rw [hmap]; exact hroad) hk'
    (by rw [e0, e1]; exact hab) (pos := pos) (q := q) (by rw [e0, e1]; exact hq) (by rw [e0, e1]; exact hmin)
  rw [e1, e0, hmap, wpsFrom_points] at hnear
  simp only [Nat.cast_add, Nat.cast_one] at hnear
  rw [show n + ((k : ℤ) + 1) = n + k + 1 by ring, ← hfi] at hnear
  obtain ⟨z, hz, hd⟩ := hnear
  have ha : ∀ r, findIn (segments (spiralSegs centre 1 true [] [] (pre ++ x :: post))) (n + k + 1) pos = .ok r →
      t.step (.state v pos w) = .ok ({ t with streamed := true },
        streamAction t v ++ [.stare v (firstGimbal (t.configs.get v)) [t.task] r.point.1 r.point.2, .record]) := by
    intro r hr
    change t.active v pos w = _
    unfold Search.active
    rw [hst]
    simp only
    rw [hw]
    simp only
    rw [hr, Outcome.bind_ok]
  rcases hz with hz | ⟨alt, hz⟩
  · exact ⟨_, _, z, 0, ha _ hz, by simp [Stare.point], hd⟩
  · exact ⟨_, _, z, alt, ha _ hz, by simp [Stare.point], hd⟩

/-- **C163.**  The steering that is used is the one laid out when the option was planned for the first time. -/
theorem C163_first_plan {s t : Search} {es : List Event} {out : List Sent} {o : ℤ} {segs : List (ℤ × Steering)} (numbers : Map ℤ)
    (hs : s.planned.get o = some segs) (h : s.run (es ++ [.implemented o numbers]) = .ok (t, out)) :
    t.steering = some segs ∧ t.numbers = numbers := by
  induction es generalizing s out with
  | nil =>
      simp only [List.nil_append, Search.run, Search.step, Outcome.bind_ok, Outcome.ok.injEq, Prod.mk.injEq] at h
      obtain ⟨rfl, -⟩ := h
      simp [hs]
  | cons e es ih =>
      obtain ⟨s', o₁, o₂, h1, h2, -⟩ := run_cons h
      refine ih ?_ h2
      cases e with
      | config u ps =>
          simp only [Search.step, Outcome.ok.injEq, Prod.mk.injEq] at h1
          obtain ⟨rfl, -⟩ := h1
          exact hs
      | planned o' segs' =>
          simp only [Search.step, Outcome.ok.injEq, Prod.mk.injEq] at h1
          obtain ⟨rfl, -⟩ := h1
          simp only
          split
          · exact hs
          · rename_i hn
            rw [Map.get_put]
            by_cases ho : o = o'
            · rw [ho, hn] at hs; cases hs
            · rw [if_neg ho]; exact hs
      | implemented o' numbers' =>
          simp only [Search.step, Outcome.ok.injEq, Prod.mk.injEq] at h1
          obtain ⟨rfl, -⟩ := h1
          exact hs
      | state u pos w =>
          have ha : s.active u pos w = .ok (s', o₁) := h1
          have : s'.planned = s.planned := by
            unfold Search.active at ha
            split at ha
            · split at ha
              · simp only [Outcome.ok.injEq, Prod.mk.injEq] at ha
                rw [← ha.1]
              · rw [Outcome.bind_eq_ok] at ha
                obtain ⟨r, -, h3⟩ := ha
                simp only [Outcome.ok.injEq, Prod.mk.injEq] at h3
                rw [← h3.1]
            · simp only [Outcome.ok.injEq, Prod.mk.injEq] at ha
              rw [← ha.1]
          rw [this]; exact hs

end Verif.Stare
