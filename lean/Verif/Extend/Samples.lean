import Verif.Extend.Route
import Verif.Extend.Near2

/-!
The points a path is replaced by.
-/

namespace Verif.Extend

open Real

/-- The points divide every piece of a path evenly: an arc into parts shorter than `2 * d`, and not shorter than `d` if there is
more than one, and a straight piece not at all. -/
inductive Samples (R d : ℝ) : Pose → List Dubins → List (ℝ × ℝ) → Prop
  | nil (p : Pose) : Samples R d p [] []
  | cons {p : Pose} {w : Dubins} {ws : List Dubins} {zs : List (ℝ × ℝ)} (k : ℕ) (hk : 1 ≤ k)
      (hs : w.turn = 0 → k = 1) (ha : w.turn ≠ 0 → w.len / k < 2 * d ∧ (1 < k → d ≤ w.len / k))
      (hr : Samples R d (p.along R w w.len) ws zs) :
      Samples R d p (w :: ws)
        ((List.range k).map (fun j : ℕ =>
          ((p.along R w (w.len * ((j + 1 : ℕ) / k))).x, (p.along R w (w.len * ((j + 1 : ℕ) / k))).y)) ++ zs)

theorem turnBy_add (g h : ℝ) (v : ℝ × ℝ) : turnBy g (turnBy h v) = turnBy (h + g) v := by
  simp only [turnBy, Prod.mk.injEq, sin_add, cos_add]
  constructor <;> ring

theorem arcPoints_eq (tx ty g : ℝ) : ∀ (m : ℕ) (v : ℝ × ℝ),
    arcPoints tx ty g m v =
      (List.range m).map (fun j : ℕ => ((turnBy ((j + 1 : ℕ) * g) v).1 + tx, (turnBy ((j + 1 : ℕ) * g) v).2 + ty))
  | 0, v => rfl
  | m + 1, v => by
    unfold arcPoints
    dsimp only
    rw [arcPoints_eq tx ty g m, List.range_succ_eq_map, List.map_cons, List.map_map]
    congr 1
    · simp
    · apply List.map_congr_left
      intro j _
      simp only [Function.comp, turnBy_add]
      have : g + (j + 1 : ℕ) * g = ((j.succ + 1 : ℕ) : ℝ) * g := by push_cast; ring
      rw [this]

/-- The points of an arc, given that it turns about its centre in the way `hv`, `hq` say. -/
theorem piece_arc {d R : ℝ} {w : Dubins} {p : Pose} {pts : List (ℝ × ℝ)} (hd : 0 < d) (hR : 0 < R)
    (ht : w.turn ≠ 0) (hRR : √((w.x - w.tx) * (w.x - w.tx) + (w.y - w.ty) * (w.y - w.ty)) = R)
    (hend : w.x = (p.along R w w.len).x ∧ w.y = (p.along R w w.len).y)
    (hq : ∀ s, ((turnBy (w.turn * w.len / R + -w.turn * s / R) (w.x - w.tx, w.y - w.ty)).1 + w.tx,
      (turnBy (w.turn * w.len / R + -w.turn * s / R) (w.x - w.tx, w.y - w.ty)).2 + w.ty) =
        ((p.along R w s).x, (p.along R w s).y))
    (h : piecePoints d w = .ok pts) :
    ∃ k : ℕ, 1 ≤ k ∧ (w.len / k < 2 * d ∧ (1 < k → d ≤ w.len / k)) ∧
      pts = (List.range k).map (fun j : ℕ =>
        ((p.along R w (w.len * ((j + 1 : ℕ) / k))).x, (p.along R w (w.len * ((j + 1 : ℕ) / k))).y)) := by
  unfold piecePoints at h
  rw [if_pos ht] at h
  dsimp only at h
  rw [hRR, if_neg hR.ne', Outcome.bind_eq_ok] at h
  obtain ⟨q, hq0, h⟩ := h
  rw [Outcome.bind_eq_ok] at h
  obtain ⟨M, hM, h⟩ := h
  obtain rfl := Outcome.ok.inj h
  have eq0 : q = ⌊w.len / d⌋ := by
    unfold floorDiv toInt32 at hq0
    rw [if_neg hd.ne'] at hq0
    split at hq0
    · exact (Outcome.ok.inj hq0).symm
    · cases hq0
  have eM : M = q - 1 := by
    unfold toInt32 at hM
    split at hM
    · exact (Outcome.ok.inj hM).symm
    · cases hM
  have hfl := Int.lt_floor_add_one (w.len / d)
  have hfl' := Int.floor_le (w.len / d)
  rw [← eq0] at hfl hfl'
  rw [div_lt_iff₀ hd] at hfl
  rw [le_div_iff₀ hd] at hfl'
  by_cases hpos : 0 < M
  · obtain ⟨m, rfl⟩ : ∃ m : ℕ, M = m := ⟨M.toNat, by omega⟩
    have hm : 0 < m := by omega
    have hqm : (q : ℝ) = m + 1 := by
      have : q = m + 1 := by omega
      rw [this]; push_cast; ring
    have hk0 : (0 : ℝ) < (m + 1 : ℕ) := by positivity
    refine ⟨m + 1, by omega, ⟨?_, fun _ => ?_⟩, ?_⟩
    · rw [div_lt_iff₀ hk0]
      rw [hqm] at hfl
      have : (1 : ℝ) ≤ m := by exact_mod_cast hm
      push_cast
      nlinarith
    · rw [le_div_iff₀ hk0]
      rw [hqm] at hfl'
      push_cast
      linarith
    · rw [arcPoints_eq, Int.toNat_natCast, List.range_succ, List.map_append]
      congr 1
      · apply List.map_congr_left
        intro j _
        rw [turnBy_add, ← hq]
        have : (w.turn : ℝ) * w.len / R + (j + 1 : ℕ) * (-w.turn * w.len / R / (((m : ℕ) : ℤ) + 1))
            = w.turn * w.len / R + -w.turn * (w.len * ((j + 1 : ℕ) / (m + 1 : ℕ))) / R := by
          push_cast
          field_simp
        rw [this]
      · simp only [List.map_cons, List.map_nil]
        rw [div_self hk0.ne', mul_one, hend.1, hend.2]
  · refine ⟨1, le_rfl, ⟨?_, fun h => by omega⟩, ?_⟩
    · have : (q : ℝ) ≤ 1 := by exact_mod_cast (by omega : q ≤ 1)
      simp only [Nat.cast_one, div_one]
      nlinarith
    · have : M.toNat = 0 := by omega
      rw [this]
      simp [arcPoints, ← hend.1, ← hend.2]

theorem path_samples {R d : ℝ} (hR : 0 < R) (hd : 0 < d) {p q : Pose} {ws : List Dubins} (hf : Flies R p ws q) :
    ∀ {zs : List (ℝ × ℝ)}, pathPoints d ws = .ok zs → Samples R d p ws zs := by
  induction hf with
  | nil p =>
    intro zs h
    obtain rfl := Outcome.ok.inj h
    exact .nil p
  | @cons p w ws q hlen hturn hend hrest ih =>
    intro zs h
    unfold pathPoints at h
    rw [Outcome.bind_eq_ok] at h
    obtain ⟨a, ha, h⟩ := h
    rw [Outcome.bind_eq_ok] at h
    obtain ⟨b, hb, h⟩ := h
    obtain rfl := Outcome.ok.inj h
    have hb' := ih hb
    rcases hturn with ht | ⟨ht, htx, hty⟩ | ⟨ht, htx, hty⟩
    · have : a = [(w.x, w.y)] := by
        unfold piecePoints at ha
        rw [if_neg (by simp [ht])] at ha
        exact (Outcome.ok.inj ha).symm
      subst this
      have := Samples.cons (R := R) (d := d) (p := p) (w := w) 1 le_rfl (fun _ => rfl) (fun h => absurd ht h) hb'
      simpa [← hend.1, ← hend.2] using this
    · have hx : ∀ s, p.along R w s = p.leftBy R (s / R) := by
        intro s
        simp [Pose.along, ht]
      have hw : (w.x - w.tx, w.y - w.ty) = (R * sin (p.psi + w.len / R), -(R * cos (p.psi + w.len / R))) := by
        rw [hend.1, hend.2, htx, hty, hx]
        simp only [Pose.leftBy, Prod.mk.injEq]
        constructor <;> ring
      have hw1 := congrArg Prod.fst hw
      have hw2 := congrArg Prod.snd hw
      dsimp only at hw1 hw2
      have hRR : √((w.x - w.tx) * (w.x - w.tx) + (w.y - w.ty) * (w.y - w.ty)) = R := by
        rw [hw1, hw2, show R * sin (p.psi + w.len / R) * (R * sin (p.psi + w.len / R)) +
          -(R * cos (p.psi + w.len / R)) * -(R * cos (p.psi + w.len / R)) =
            R ^ 2 * (sin (p.psi + w.len / R) ^ 2 + cos (p.psi + w.len / R) ^ 2) by ring, sin_sq_add_cos_sq, mul_one,
          Real.sqrt_sq hR.le]
      obtain ⟨k, h1, h2, rfl⟩ := piece_arc hd hR (by simp [ht]) hRR hend (by
        intro s
        rw [hw, hx, ht, htx, hty]
        have e1 : p.psi + s / R = (p.psi + w.len / R) - (((1 : ℤ) : ℝ) * w.len / R + -((1 : ℤ) : ℝ) * s / R) := by
          push_cast; ring
        simp only [turnBy, Pose.leftBy, e1, sin_sub, cos_sub, Prod.mk.injEq]
        constructor <;> ring) ha
      exact .cons k h1 (fun h => by simp [ht] at h) (fun _ => h2) hb'
    · have hx : ∀ s, p.along R w s = p.rightBy R (s / R) := by
        intro s
        simp [Pose.along, ht]
      have hw : (w.x - w.tx, w.y - w.ty) = (-(R * sin (p.psi - w.len / R)), R * cos (p.psi - w.len / R)) := by
        rw [hend.1, hend.2, htx, hty, hx]
        simp only [Pose.rightBy, Prod.mk.injEq]
        constructor <;> ring
      have hw1 := congrArg Prod.fst hw
      have hw2 := congrArg Prod.snd hw
      dsimp only at hw1 hw2
      have hRR : √((w.x - w.tx) * (w.x - w.tx) + (w.y - w.ty) * (w.y - w.ty)) = R := by
        rw [hw1, hw2, show -(R * sin (p.psi - w.len / R)) * -(R * sin (p.psi - w.len / R)) +
          R * cos (p.psi - w.len / R) * (R * cos (p.psi - w.len / R)) =
            R ^ 2 * (sin (p.psi - w.len / R) ^ 2 + cos (p.psi - w.len / R) ^ 2) by ring, sin_sq_add_cos_sq, mul_one,
          Real.sqrt_sq hR.le]
      obtain ⟨k, h1, h2, rfl⟩ := piece_arc hd hR (by simp [ht]) hRR hend (by
        intro s
        rw [hw, hx, ht, htx, hty]
        have e1 : p.psi - s / R = (p.psi - w.len / R) - (((-1 : ℤ) : ℝ) * w.len / R + -((-1 : ℤ) : ℝ) * s / R) := by
          push_cast; ring
        simp only [turnBy, Pose.rightBy, e1, sin_sub (p.psi - w.len / R), cos_sub (p.psi - w.len / R), Prod.mk.injEq]
        constructor <;> ring) ha
      exact .cons k h1 (fun h => by simp [ht] at h) (fun _ => h2) hb'

/-- The points are on the path. -/
theorem samples_passes {R d : ℝ} {p : Pose} {ws : List Dubins} {zs : List (ℝ × ℝ)} (h : Samples R d p ws zs)
    (hl : ∀ w ∈ ws, 0 ≤ w.len) : ∀ z ∈ zs, Passes R p ws z := by
  induction h with
  | nil p => intro z hz; cases hz
  | @cons p w ws zs k hk hs ha hr ih =>
    intro z hz
    rw [List.mem_append] at hz
    rcases hz with hz | hz
    · rw [List.mem_map] at hz
      obtain ⟨j, hj, rfl⟩ := hz
      rw [List.mem_range] at hj
      have hw := hl w (by simp)
      have hk0 : (0 : ℝ) < k := by exact_mod_cast hk
      refine .inl ⟨_, ?_, ?_, rfl⟩
      · positivity
      · have : ((j + 1 : ℕ) : ℝ) / k ≤ 1 := by
          rw [div_le_one hk0]
          exact_mod_cast hj
        nlinarith
    · exact .inr (ih (fun w hw => hl w (List.mem_cons_of_mem _ hw)) z hz)

theorem flies_len {R : ℝ} {p q : Pose} {ws : List Dubins} (h : Flies R p ws q) : ∀ w ∈ ws, 0 ≤ w.len := by
  induction h with
  | nil p => intro w hw; cases hw
  | cons hlen hturn hend hrest ih =>
    intro w hw
    rcases List.mem_cons.1 hw with rfl | hw
    · exact hlen
    · exact ih w hw

end Verif.Extend
