import Verif.Dubins.Paths

/-!
# The waypoints of turns (C173)
-/

namespace Verif.Dubins

open Complex

/-- How far the waypoints within a turn go. -/
theorem turn_count {len r sep : ℝ} (hr : 0 < r) (hs : 0 < sep) (hl : 0 ≤ len) {n : ℤ}
    (h : (if sep < len ∧ sep / r ≠ 0 then toInt (len / r / (sep / r)) else .ok 0) = .ok n) :
    ((n.toNat - 1 : ℕ) : ℝ) * sep ≤ len ∧ len - ((n.toNat - 1 : ℕ) : ℝ) * sep < 2 * sep ∧
    (n.toNat - 1 = 0 ∨ sep ≤ len - ((n.toNat - 1 : ℕ) : ℝ) * sep) ∧ (sep < len → sep ≤ len - ((n.toNat - 1 : ℕ) : ℝ) * sep) := by
  have hne : sep / r ≠ 0 := (div_pos hs hr).ne'
  split at h
  · rename_i hc
    have hx : len / r / (sep / r) = len / sep := by field_simp
    rw [hx] at h
    unfold toInt at h
    split at h
    · simp only [Outcome.ok.injEq] at h
      subst h
      have hx1 : 1 < len / sep := (one_lt_div hs).2 hc.1
      obtain ⟨h1, h2⟩ := (trunc_spec (len / sep)).1 (by linarith)
      have hn : 1 ≤ trunc (len / sep) := by
        have : (0 : ℝ) < trunc (len / sep) := by linarith
        have : 0 < trunc (len / sep) := by exact_mod_cast this
        omega
      have hcast : (((trunc (len / sep)).toNat - 1 : ℕ) : ℝ) = trunc (len / sep) - 1 := by
        rw [Nat.cast_sub (by omega)]
        have : (((trunc (len / sep)).toNat : ℤ) : ℝ) = trunc (len / sep) := by rw [Int.toNat_of_nonneg (by omega)]
        rw [← this]; push_cast; rfl
      rw [hcast]
      rw [le_div_iff₀ hs] at h1
      rw [div_lt_iff₀ hs] at h2
      refine ⟨by linarith, by linarith, Or.inr (by linarith), fun _ => by linarith⟩
    · simp at h
  · rename_i hc
    simp only [Outcome.ok.injEq] at h
    subst h
    have : ¬ sep < len := fun hh => hc ⟨hh, hne⟩
    simp only [Int.toNat_zero, Nat.zero_sub, Nat.cast_zero, zero_mul, sub_zero]
    exact ⟨hl, by linarith, Or.inl trivial, fun hh => absurd hh this⟩

/-- The waypoints of a turn, with the direction in which it begins. -/
theorem turnWays_eq {s e c : ℂ} {len r sep : ℝ} {dir : Dir} {ws : List Way} (hr : 0 < r) (hs : 0 < sep) (hl : 0 ≤ len) (hv : s - c ≠ 0)
    (h : turnWays s e len c r dir sep = .ok ws) :
    ∃ k : ℕ, ws = (List.range k).map (fun j : ℕ => ⟨c + r * ((s - c) / ‖s - c‖) * exp (((dir.sign * ((j + 1) * (sep / r)) : ℝ) : ℂ) * I), sep⟩) ++
        [⟨e, len - k * sep⟩] ∧
      k * sep ≤ len ∧ len - k * sep < 2 * sep ∧ (k = 0 ∨ sep ≤ len - k * sep) ∧ (sep < len → sep ≤ len - k * sep) := by
  unfold turnWays at h
  rw [Outcome.bind_eq_ok] at h
  obtain ⟨n, hn, h⟩ := h
  obtain ⟨h1, h2, h3⟩ := turn_count hr hs hl hn
  refine ⟨n.toNat - 1, ?_, h1, h2, h3⟩
  simp only [Outcome.ok.injEq] at h
  rw [← h, if_neg (not_lt.2 h1)]
  congr 1
  apply List.map_congr_left
  intro j _
  congr 1
  rw [← bearing_unit hv, mul_assoc, ← Complex.exp_add]
  congr 3
  push_cast; ring

/-- The centre stays. -/
theorem turned_circle (p : Pose) (dir : Dir) (r a : ℝ) : ((p.turned dir r a).circle dir r).c = (p.circle dir r).c := by
  simp only [Pose.turned, Pose.circle]; ring

theorem turned_unit {p : Pose} (hp : ‖p.to_‖ = 1) (dir : Dir) (r a : ℝ) : ‖(p.turned dir r a).to_‖ = 1 := by
  simp only [Pose.turned]; rw [norm_mul, hp, exp_unit, mul_one]

theorem circle_off {p : Pose} {dir : Dir} {r : ℝ} (hp : ‖p.to_‖ = 1) (hr : 0 < r) : ‖p.at_ - (p.circle dir r).c‖ = r := by
  have hv : p.at_ - (p.circle dir r).c = -(dir.sign * r * I * p.to_) := by simp [Pose.circle]
  rw [hv]; simp [hp, dir.sign_abs, abs_of_pos hr]

theorem turned_at (p : Pose) (dir : Dir) (r a : ℝ) :
    (p.turned dir r a).at_ = (p.circle dir r).c + (p.at_ - (p.circle dir r).c) * exp (((dir.sign * a : ℝ) : ℂ) * I) := by
  simp only [Pose.turned, Pose.circle]; ring

/-- **C173.**  The waypoints of a turn: each `sep` along it from the one before, the last one its end; the last gap is less than two of
them, and less than one only if there is no other waypoint. -/
theorem C173_turn {p : Pose} {e : ℂ} {len r sep : ℝ} {dir : Dir} {ws : List Way} (hp : ‖p.to_‖ = 1) (hr : 0 < r) (hs : 0 < sep) (hl : 0 ≤ len)
    (h : turnWays p.at_ e len (p.circle dir r).c r dir sep = .ok ws) :
    ∃ k : ℕ, ws = (List.range k).map (fun j : ℕ => ⟨(p.turned dir r ((j + 1) * (sep / r))).at_, sep⟩) ++ [⟨e, len - k * sep⟩] ∧
      k * sep ≤ len ∧ len - k * sep < 2 * sep ∧ (k = 0 ∨ sep ≤ len - k * sep) := by
  have hn := circle_off (dir := dir) hp hr
  have hv : p.at_ - (p.circle dir r).c ≠ 0 := by rw [← norm_ne_zero_iff, hn]; exact hr.ne'
  obtain ⟨k, hk, h1, h2, h3, _⟩ := turnWays_eq hr hs hl hv h
  refine ⟨k, ?_, h1, h2, h3⟩
  rw [hk]
  congr 1
  apply List.map_congr_left
  intro j _
  congr 1
  rw [turned_at, hn]
  have : (r : ℂ) ≠ 0 := by exact_mod_cast hr.ne'
  field_simp

/-- **C173.**  The behaviour is undefined exactly when the number of waypoints does not fit into an `int`. -/
theorem C173_undefined (s e c : ℂ) {len r sep : ℝ} (dir : Dir) (hr : 0 < r) (hs : 0 < sep) (hl : 0 ≤ len) :
    (turnWays s e len c r dir sep = .ub ↔ 2147483648 ≤ len / sep) ∧ (len / sep < 2147483648 → ∃ ws, turnWays s e len c r dir sep = .ok ws) := by
  have hx : len / r / (sep / r) = len / sep := by field_simp
  have hne : sep / r ≠ 0 := (div_pos hs hr).ne'
  have h0 : 0 ≤ len / sep := by positivity
  have ht := (trunc_spec (len / sep)).1 h0
  have htn := trunc_nonneg h0
  have key : trunc (len / sep) ≤ 2147483647 ↔ len / sep < 2147483648 := by
    constructor
    · intro h
      have : (trunc (len / sep) : ℝ) ≤ 2147483647 := by exact_mod_cast h
      linarith
    · intro h
      have : (trunc (len / sep) : ℝ) < 2147483648 := by linarith
      have : trunc (len / sep) < 2147483648 := by exact_mod_cast this
      omega
  unfold turnWays
  rw [hx]
  by_cases hc : sep < len
  · rw [if_pos ⟨hc, hne⟩]
    unfold toInt
    by_cases hk : len / sep < 2147483648
    · rw [if_pos ⟨by omega, key.2 hk⟩]
      exact ⟨⟨fun h => by simp [Outcome.bind] at h, fun h => absurd hk (not_lt.2 h)⟩, fun _ => ⟨_, rfl⟩⟩
    · rw [if_neg (fun h => hk (key.1 h.2))]
      exact ⟨⟨fun _ => not_lt.1 hk, fun _ => rfl⟩, fun h => absurd h hk⟩
  · rw [if_neg (fun h => hc h.1)]
    have : len / sep ≤ 1 := (div_le_one hs).2 (not_lt.1 hc)
    exact ⟨⟨fun h => by simp [Outcome.bind] at h, fun h => by linarith⟩, fun _ => ⟨_, rfl⟩⟩

/-! ### Lengths -/

/-- Where one is after the waypoints. -/
def lastPos : ℂ → List Way → ℂ
  | p, [] => p
  | _, w :: ws => lastPos w.pos ws

theorem lastPos_append (p : ℂ) (a b : List Way) : lastPos p (a ++ b) = lastPos (lastPos p a) b := by
  induction a generalizing p with
  | nil => rfl
  | cons w ws ih => exact ih w.pos

theorem totalFrom_append (p : ℂ) (a b : List Way) : totalFrom p (a ++ b) = totalFrom p a + totalFrom (lastPos p a) b := by
  induction a generalizing p with
  | nil => simp [totalFrom, lastPos]
  | cons w ws ih => simp only [List.cons_append, totalFrom, lastPos]; rw [ih]; ring

theorem totalFrom_nonneg (p : ℂ) (a : List Way) : 0 ≤ totalFrom p a := by
  induction a generalizing p with
  | nil => simp [totalFrom]
  | cons w ws ih =>
      simp only [totalFrom]
      have := ih w.pos
      split
      · linarith
      · have := norm_nonneg (w.pos - p); linarith

/-- The first waypoint counts as the others do, from its own place. -/
theorem total_append (a b : List Way) (w : Way) : total (a ++ w :: b) = total a + (if 0 < w.seg then w.seg else
    if a = [] then 0 else ‖w.pos - lastPos 0 a‖) + totalFrom w.pos b := by
  cases a with
  | nil => simp [total]
  | cons x xs =>
      simp only [List.cons_append, total, totalFrom_append, totalFrom, lastPos, reduceCtorEq, if_false]
      ring

theorem totalFrom_pos {ws : List Way} (h : ∀ w ∈ ws, 0 < w.seg) (p : ℂ) : totalFrom p ws = (ws.map (·.seg)).sum := by
  induction ws generalizing p with
  | nil => rfl
  | cons w ws ih =>
      simp only [totalFrom, List.map_cons, List.sum_cons]
      rw [if_pos (h w (by simp)), ih (fun v hv => h v (by simp [hv]))]

theorem total_pos {ws : List Way} (h : ∀ w ∈ ws, 0 < w.seg) : total ws = (ws.map (·.seg)).sum := by
  cases ws with
  | nil => rfl
  | cons w ws =>
      simp only [total, List.map_cons, List.sum_cons]
      rw [if_pos (h w (by simp)), totalFrom_pos (fun v hv => h v (by simp [hv]))]

/-- **C173.**  The segments of a turn add up to its length. -/
theorem C173_length {s e c : ℂ} {len r sep : ℝ} {dir : Dir} {ws : List Way} (hr : 0 < r) (hs : 0 < sep) (hl : 0 < len)
    (h : turnWays s e len c r dir sep = .ok ws) :
    (ws.map (·.seg)).sum = len ∧ (∀ w ∈ ws, 0 < w.seg) ∧ ws.getLast?.map (·.pos) = some e ∧ total ws = len ∧ ∀ p, totalFrom p ws = len := by
  unfold turnWays at h
  rw [Outcome.bind_eq_ok] at h
  obtain ⟨n, hn, h⟩ := h
  obtain ⟨h1, h2, h3, h4⟩ := turn_count hr hs hl.le hn
  simp only [Outcome.ok.injEq] at h
  rw [if_neg (not_lt.2 h1)] at h
  have hlast : 0 < len - ((n.toNat - 1 : ℕ) : ℝ) * sep := by
    rcases h3 with h3 | h3
    · rw [h3]; simpa using hl
    · linarith
  have hpos : ∀ w ∈ ws, 0 < w.seg := by
    intro w hw
    rw [← h] at hw
    simp only [List.mem_append, List.mem_map, List.mem_range, List.mem_singleton] at hw
    rcases hw with ⟨j, _, rfl⟩ | rfl
    · exact hs
    · exact hlast
  have hsum : (ws.map (·.seg)).sum = len := by
    rw [← h]
    simp only [List.map_append, List.map_map, List.sum_append, List.map_cons, List.map_nil, List.sum_cons, List.sum_nil]
    have : (List.map ((fun x : Way => x.seg) ∘ fun j : ℕ => (⟨c + r * exp (((bearing (s - c) + (j + 1) * (sep / r * dir.sign) : ℝ) : ℂ) * I), sep⟩ : Way))
        (List.range (n.toNat - 1))).sum = ((n.toNat - 1 : ℕ) : ℝ) * sep := by
      rw [show ((fun x : Way => x.seg) ∘ fun j : ℕ => (⟨c + r * exp (((bearing (s - c) + (j + 1) * (sep / r * dir.sign) : ℝ) : ℂ) * I), sep⟩ : Way)) = fun _ => sep from rfl]
      simp
    rw [this]; ring
  refine ⟨hsum, hpos, ?_, by rw [total_pos hpos, hsum], fun p => by rw [totalFrom_pos hpos, hsum]⟩
  rw [← h]; simp

end Verif.Dubins
