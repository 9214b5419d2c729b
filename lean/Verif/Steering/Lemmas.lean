import Verif.Steering.Model
import Verif.Earth.Props
import Mathlib.Logic.Relation

/-!
# The acceptance loop of the steering service

What it means that a waypoint is reached, the walk from waypoint to waypoint, and that the loop ends and does such a walk.
-/

namespace Verif.Steering

open Real

/-! ## Specification -/

/-- A waypoint counts as reached.  Without a loiter: the vehicle is beyond the line through the waypoint at right angles to
the leg from `prev`, the leg is not longer than a metre, or, with a waypoint that allows it, the vehicle is within the
configured distance.  With a loiter: its duration has passed. -/
def Reached (e : Env) (start : ℤ) (prev : Pt) (w : Wp) : Prop :=
  match w.loiter with
  | some l => l.duration ≠ -1 ∧ start + l.duration ≤ e.now
  | none =>
    (prev.1 - (e.pt w).1) * (0 - (e.pt w).1) + (prev.2 - (e.pt w).2) * (0 - (e.pt w).2) ≤ 0 ∨
    ((e.pt w).1 - prev.1) ^ 2 + ((e.pt w).2 - prev.2) ^ 2 ≤ 1 ∨
    (0 < e.acceptTime ∧ w.turnShort = true ∧ 0 ≤ e.acceptDist ∧ (e.pt w).1 ^ 2 + (e.pt w).2 ^ 2 ≤ e.acceptDist ^ 2)

/-- From waypoint `w`, under way to it since `start` and from `prev`, the vehicle goes on along the links, reaching the
waypoints `acc`, and is then under way to `v`. -/
inductive Walk (e : Env) : ℤ → Pt → Wp → List Wp → ℤ → Pt → Wp → Prop
  | here (start : ℤ) (prev : Pt) (w : Wp) : Walk e start prev w [] start prev w
  | on {start : ℤ} {prev : Pt} {w w' : Wp} {acc : List Wp} {t : ℤ} {q : Pt} {v : Wp} (h : Reached e start prev w)
      (hn : e.mission.find w.next = some w') (hne : w.next ≠ w.number) (hw : Walk e e.now (e.pt w) w' acc t q v) :
      Walk e start prev w (w :: acc) t q v

/-! ## Lemmas -/

theorem toNE_self (o : Loc) : toNE o o = (0, 0) := by simp [toNE]

@[simp] theorem position_eq (e : Env) : e.position = (0, 0) := toNE_self _

theorem isOrbit_iff (w : Wp) : w.isOrbit = w.loiter.isSome := by
  unfold Wp.isOrbit Wp.loiter
  induction w.actions with
  | nil => rfl
  | cons a as ih => cases a <;> simp_all [List.findSome?_cons]

theorem distance_le {p q : Pt} {r : ℝ} : distance p q ≤ r ↔ 0 ≤ r ∧ (p.1 - q.1) ^ 2 + (p.2 - q.2) ^ 2 ≤ r ^ 2 := by
  unfold distance
  rw [Real.sqrt_le_iff]

theorem accepts_iff (e : Env) (start : ℤ) (prev : Pt) (w : Wp) : accepts e start prev w ↔ Reached e start prev w := by
  unfold accepts Reached
  rw [isOrbit_iff]
  cases h : w.loiter with
  | some l =>
    simp only [Option.isSome_some, Bool.true_eq_false, false_and, true_and, false_or, orbitAcceptance, h]
    constructor <;> rintro ⟨h1, h2⟩ <;> exact ⟨h1, by omega⟩
  | none =>
    simp only [Option.isSome_none, true_and, Bool.false_eq_true, false_and, or_false, lineAcceptance, proximity, dot,
      position_eq, distance_le, Prod.fst_sub, Prod.snd_sub, zero_le_one, one_pow, gt_iff_lt, zero_sub, neg_sq]

theorem find_number {m : Mission} {k : ℤ} {w : Wp} (h : m.find k = some w) : w.number = k := by
  have := List.find?_some h
  simpa using this

theorem find_mem {m : Mission} {k : ℤ} {w : Wp} (h : m.find k = some w) : w ∈ m.wps := List.mem_of_find?_eq_some h

/-- What one round of the loop does. -/
theorem loop_succ (e : Env) (fuel : ℕ) (seen : List ℤ) (n : Nav) (p : Pt) (w : Wp) :
    (¬(n.isLast = false ∧ Reached e n.start p w) → loop e (fuel + 1) seen n p w = some (n, p, w)) ∧
    (n.isLast = false → Reached e n.start p w → n.cur ∈ seen →
      loop e (fuel + 1) seen n p w = some ({ n with isLast := true }, p, w)) ∧
    (n.isLast = false → Reached e n.start p w → n.cur ∉ seen → ∀ w', e.mission.find w.next = some w' → w.next ≠ n.cur →
      loop e (fuel + 1) seen n p w =
        loop e fuel (n.cur :: seen) { cur := w.next, start := e.now, isLast := false, prev := some w.loc } (e.pt w) w') ∧
    (n.isLast = false → Reached e n.start p w → n.cur ∉ seen → (e.mission.find w.next = none ∨ w.next = n.cur) →
      loop e (fuel + 1) seen n p w =
        loop e fuel (n.cur :: seen) { n with isLast := true, prev := some w.loc } (e.pt w) w) := by
  refine ⟨fun h => ?_, fun h1 h2 h3 => ?_, fun h1 h2 h3 w' h4 h5 => ?_, fun h1 h2 h3 h4 => ?_⟩
  · rw [loop, accepts_iff, if_neg h]
  · rw [loop, accepts_iff, if_pos ⟨h1, h2⟩, if_pos h3]
  · rw [loop, accepts_iff, if_pos ⟨h1, h2⟩, if_neg h3, h4]
    simp only [if_pos h5]
  · rw [loop, accepts_iff, if_pos ⟨h1, h2⟩, if_neg h3]
    rcases h4 with h4 | h4
    · rw [h4]
    · cases e.mission.find w.next with
      | none => rfl
      | some w' => simp only [ne_eq, h4, not_true_eq_false, if_false]

/-- How the loop ends. -/
structure Ended (e : Env) (seen : List ℤ) (n : Nav) (acc : List Wp) (t : ℤ) (q0 : Pt) (n' : Nav) (q : Pt) (v : Wp) : Prop where
  cur : n'.cur = v.number
  time : n'.start = t
  found : e.mission.find v.number = some v
  nodup : ((acc.map (·.number)).reverse ++ seen).Nodup
  how : (n'.isLast = false ∧ ¬Reached e t q0 v ∧ q = q0 ∧ n'.prev = (acc.getLast?.map (·.loc)).or n.prev) ∨
    (n'.isLast = true ∧ Reached e t q0 v ∧ (e.mission.find v.next = none ∨ v.next = v.number) ∧ q = e.pt v ∧
      n'.prev = some v.loc) ∨
    (n'.isLast = true ∧ Reached e t q0 v ∧ v.number ∈ (acc.map (·.number)).reverse ++ seen)

theorem loop_spec (e : Env) : ∀ (fuel : ℕ) (seen : List ℤ) (n : Nav) (p : Pt) (w : Wp), n.isLast = false →
    e.mission.find n.cur = some w → seen.Nodup → seen ⊆ e.mission.wps.map (·.number) →
    e.mission.wps.length + 2 ≤ fuel + seen.length →
    ∃ acc t q0 n' q v, loop e fuel seen n p w = some (n', q, v) ∧ Walk e n.start p w acc t q0 v ∧
      Ended e seen n acc t q0 n' q v := by
  intro fuel
  induction fuel with
  | zero =>
    intro seen n p w _ _ hs hsub hf
    exfalso
    have h1 := (List.nodup_iff_count_le_one.mp hs)
    have h2 := hs.subperm hsub
    have := h2.length_le
    simp at this
    omega
  | succ fuel ih =>
    intro seen n p w hl hw hs hsub hf
    obtain ⟨l1, l2, l3, l4⟩ := loop_succ e fuel seen n p w
    have hnum := find_number hw
    by_cases hr : Reached e n.start p w
    swap
    · exact ⟨[], n.start, p, n, p, w, l1 (by simp [hr]), .here _ _ _, hnum.symm, rfl, hnum ▸ hw, by simpa using hs,
        .inl ⟨hl, hr, rfl, by simp⟩⟩
    by_cases hm : n.cur ∈ seen
    · exact ⟨[], n.start, p, _, p, w, l2 hl hr hm, .here _ _ _, hnum.symm, rfl, hnum ▸ hw, by simpa using hs,
        .inr (.inr ⟨rfl, hr, by simpa [hnum] using hm⟩)⟩
    have hs' : (n.cur :: seen).Nodup := List.nodup_cons.mpr ⟨hm, hs⟩
    have hsub' : n.cur :: seen ⊆ e.mission.wps.map (·.number) := by
      intro x hx
      rcases List.mem_cons.mp hx with rfl | hx
      · exact List.mem_map.mpr ⟨w, find_mem hw, hnum⟩
      · exact hsub hx
    have hlen := (hs'.subperm hsub').length_le
    simp only [List.length_cons, List.length_map] at hlen
    by_cases hn : e.mission.find w.next = none ∨ w.next = n.cur
    · rw [l4 hl hr hm hn]
      obtain ⟨fuel, rfl⟩ : ∃ k, fuel = k + 1 := ⟨fuel - 1, by omega⟩
      rw [(loop_succ e fuel _ _ _ _).1 (by simp)]
      exact ⟨[], n.start, p, _, _, w, rfl, .here _ _ _, hnum.symm, rfl, hnum ▸ hw, by simpa using hs,
        .inr (.inl ⟨rfl, hr, by rw [hnum]; exact hn, rfl, rfl⟩)⟩
    · rw [not_or] at hn
      obtain ⟨w', hw'⟩ := Option.ne_none_iff_exists'.mp hn.1
      rw [l3 hl hr hm w' hw' hn.2]
      obtain ⟨acc, t, q0, n', q, v, k1, k2, k3⟩ := ih (n.cur :: seen)
        { cur := w.next, start := e.now, isLast := false, prev := some w.loc } (e.pt w) w' rfl hw' hs' hsub'
        (by simp only [List.length_cons]; omega)
      refine ⟨w :: acc, t, q0, n', q, v, k1, .on hr hw' (by rw [hnum]; exact hn.2) k2, k3.cur, k3.time, k3.found, ?_, ?_⟩
      · have := k3.nodup
        simp only [List.map_cons, List.reverse_cons, hnum, List.append_assoc, List.cons_append, List.nil_append]
        exact this
      · rcases k3.how with ⟨a, b, c, d⟩ | h | ⟨a, b, c⟩
        · refine .inl ⟨a, b, c, ?_⟩
          rw [d]
          cases acc with
          | nil => rfl
          | cons x xs => simp [List.getLast?_cons_cons, List.getLast?_cons]
        · exact .inr (.inl h)
        · exact .inr (.inr ⟨a, b, by
            simp only [List.map_cons, List.reverse_cons, hnum, List.append_assoc, List.cons_append, List.nil_append]
            exact c⟩)

theorem loop_last (e : Env) (fuel : ℕ) (n : Nav) (p : Pt) (w : Wp) (h : n.isLast = true) :
    loop e (fuel + 1) [] n p w = some (n, p, w) := (loop_succ e fuel [] n p w).1 (by simp [h])

/-- Going on is transitive. -/
theorem Walk.split {e : Env} {s t : ℤ} {p q : Pt} {w v : Wp} {acc : List Wp} (h : Walk e s p w acc t q v) {u : Wp}
    (hu : u ∈ acc) : ∃ a b t' q', acc = a ++ u :: b ∧ Walk e t' q' u (u :: b) t q v := by
  induction h with
  | here => simp at hu
  | @on start prev w w' acc t q v hr hn hne hw ih =>
    rcases List.mem_cons.mp hu with rfl | hu
    · exact ⟨[], acc, start, prev, rfl, .on hr hn hne hw⟩
    · obtain ⟨a, b, t', q', h1, h2⟩ := ih hu
      exact ⟨w :: a, b, t', q', by rw [h1]; rfl, h2⟩

end Verif.Steering
