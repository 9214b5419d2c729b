import Verif.Extend.Near2

/-!
# C130: a segment is extended by the length asked for, on a path that can be flown
-/

namespace Verif.Extend

open Real

theorem rfmod_spec {e m : ℝ} (hm : 0 < m) (he : 0 ≤ e) : rfmod e m = e - m * ⌊e / m⌋ ∧ 0 ≤ rfmod e m ∧ rfmod e m < m := by
  have h : rfmod e m = e - m * ⌊e / m⌋ := by
    unfold rfmod
    rw [if_pos (div_nonneg he hm.le)]
  have h1 := Int.floor_le (e / m)
  have h2 := Int.lt_floor_add_one (e / m)
  rw [le_div_iff₀ hm] at h1
  rw [div_lt_iff₀ hm] at h2
  refine ⟨h, ?_, ?_⟩ <;> rw [h] <;> linarith

theorem direction_dist (a b : Dubins) :
    b.x - a.x = √((b.x - a.x) ^ 2 + (b.y - a.y) ^ 2) * cos (direction a b) ∧
      b.y - a.y = √((b.x - a.x) ^ 2 + (b.y - a.y) ^ 2) * sin (direction a b) := by
  obtain ⟨d, h0, hx, hy, hd⟩ := direction_spec a b
  rw [← hd, Real.sqrt_sq h0]
  exact ⟨hx, hy⟩

/-- What the three shapes have in common. -/
theorem extend_spec {a b : Dubins} {e R : ℝ} {ws : List Dubins} (hR : 0 < R) (he : 0 ≤ e)
    (h : extendSegment a b e R = .ok ws) :
    ∃ L m : ℝ, ∃ N : ℕ, required e R = .ok m ∧ 0 ≤ L ∧ L ≤ m ∧
      Flies R ⟨a.x, a.y, direction a b⟩ ws
        ⟨a.x + L * cos (direction a b), a.y + L * sin (direction a b), direction a b + N * (2 * π)⟩ ∧
      total ws - L ≤ e ∧ e - 6 * R * eps ≤ total ws - L ∧
      (m ≤ √((b.x - a.x) ^ 2 + (b.y - a.y) ^ 2) → ∀ z, Passes R ⟨a.x, a.y, direction a b⟩ ws z → Near a b (2 * R) z) := by
  have heps : 0 < eps := by unfold eps; norm_num
  obtain ⟨hx, hy⟩ := direction_dist a b
  unfold extendSegment at h
  unfold required
  by_cases h1 : e < 2 * R * (π - 2)
  · rw [if_pos h1] at h ⊢
    obtain ⟨t0, t1, g1, g2⟩ := bubble_gain hR he h1
    generalize search (bubbleError e R) = th at *
    obtain rfl := Outcome.ok.inj h
    have hs0 : 0 ≤ sin th := sin_nonneg_of_nonneg_of_le_pi t0 (by linarith [pi_pos])
    have hL : 0 ≤ bubbleStraight th R := by unfold bubbleStraight; positivity
    have hf := flies_bubble hR t0 a b
    rw [bubble_end] at hf
    refine ⟨bubbleStraight th R, _, 0, rfl, hL, le_rfl, by simpa using hf, ?_, ?_, ?_⟩
    · rw [bubble_total]; exact g1
    · rw [bubble_total]; nlinarith
    · intro hm z hz
      exact bubble_near hR t0 t1 hx hy hm hz
  rw [if_neg h1] at h ⊢
  by_cases h2 : e < 2 * π * R
  · rw [if_pos h2] at h ⊢
    obtain ⟨t0, t1, g1, g2⟩ := slide_gain hR (not_lt.1 h1) h2
    generalize search (slideError e R) = th at *
    obtain rfl := Outcome.ok.inj h
    have hc0 : 0 ≤ cos th := cos_nonneg_of_neg_pi_div_two_le_of_le (by linarith [pi_pos]) t1
    have hL : 0 ≤ slideStraight th R := by unfold slideStraight; positivity
    have hf := flies_slide hR t0 a b
    rw [slide_end R t0 t1] at hf
    refine ⟨slideStraight th R, _, 0, rfl, hL, le_rfl, by simpa using hf, ?_, ?_, ?_⟩
    · rw [slide_total]; exact g1
    · rw [slide_total]; exact g2
    · intro hm z hz
      exact slide_near hR t0 t1 hx hy hm hz
  rw [if_neg h2] at h ⊢
  have hm : 0 < 2 * π * R := by positivity
  obtain ⟨r1, r2, r3⟩ := rfmod_spec hm he
  have hfl : 1 ≤ ⌊e / (2 * π * R)⌋ := by
    rw [Int.le_floor, Int.cast_one, le_div_iff₀ hm]
    linarith [not_lt.1 h2]
  rw [Outcome.bind_eq_ok] at h
  obtain ⟨n, hn, h⟩ := h
  rw [Outcome.bind_eq_ok] at h
  obtain ⟨n', hn', h⟩ := h
  rw [hn]
  have en : n = ⌊e / (2 * π * R)⌋ := by
    unfold floorDiv toInt32 at hn
    rw [if_neg hm.ne'] at hn
    split at hn
    · exact (Outcome.ok.inj hn).symm
    · cases hn
  have en' : n' = n - 1 := by
    unfold toInt32 at hn'
    split at hn'
    · exact (Outcome.ok.inj hn').symm
    · cases hn'
  obtain rfl := Outcome.ok.inj h
  have ht : 0 ≤ rfmod e (2 * π * R) / 2 := by linarith
  have hf := flies_track (N := n'.toNat) hR ht a b
  rw [track_end] at hf
  have hN : ((n'.toNat : ℕ) : ℝ) = (⌊e / (2 * π * R)⌋ : ℤ) - 1 := by
    have : ((n'.toNat : ℕ) : ℤ) = ⌊e / (2 * π * R)⌋ - 1 := by omega
    have h3 : (((n'.toNat : ℕ) : ℤ) : ℝ) = ((⌊e / (2 * π * R)⌋ - 1 : ℤ) : ℝ) := by rw [this]
    push_cast at h3 ⊢
    exact h3
  have htot : total (buildRaceTrack n'.toNat (rfmod e (2 * π * R) / 2) R a b) = e := by
    rw [track_total, hN, r1]; ring
  refine ⟨0, _, n'.toNat + 1, rfl, le_rfl, ht, by simpa using hf, ?_, ?_, ?_⟩
  · rw [htot]; linarith
  · rw [htot]
    have : 0 < 6 * R * eps := by positivity
    linarith
  · intro hm' z hz
    exact track_near hR ht hx hy hm' hz

/-- **C130.**  For every segment, every turn radius above 0 and every extension that is not negative, `ExtendSegment` answers a
path that a vehicle flying along the segment can fly with turns of that radius: pieces of nonnegative length that follow one
another without a jump or a kink, with the circles on the right sides.  It comes back onto the line of the segment, ahead of its
start by some length `L` that is no more than `RequiredSegmentLength`, in the direction of the segment, and is longer than `L` by
the extension, up to six hundred-millionths of the radius. -/
theorem C130_path {a b : Dubins} {e R : ℝ} {ws : List Dubins} (hR : 0 < R) (he : 0 ≤ e)
    (h : extendSegment a b e R = .ok ws) :
    ∃ psi L m : ℝ, ∃ N : ℕ,
      b.x - a.x = √((b.x - a.x) ^ 2 + (b.y - a.y) ^ 2) * cos psi ∧
      b.y - a.y = √((b.x - a.x) ^ 2 + (b.y - a.y) ^ 2) * sin psi ∧
      required e R = .ok m ∧ 0 ≤ L ∧ L ≤ m ∧
      Flies R ⟨a.x, a.y, psi⟩ ws ⟨a.x + L * cos psi, a.y + L * sin psi, psi + N * (2 * π)⟩ ∧
      total ws ≤ L + e ∧ L + e - 6 * R / 100000000 ≤ total ws := by
  obtain ⟨L, m, N, h1, h2, h3, h4, h5, h6, _⟩ := extend_spec hR he h
  obtain ⟨hx, hy⟩ := direction_dist a b
  unfold eps at h6
  exact ⟨_, L, m, N, hx, hy, h1, h2, h3, h4, by linarith, by linarith⟩

/-- **C130.**  "Guaranteed to stay within 2*R of the original path": on a segment that is at least as long as
`RequiredSegmentLength`, no position passed on the path is further than twice the radius from the segment. -/
theorem C130_near {a b : Dubins} {e R m : ℝ} {ws : List Dubins} (hR : 0 < R) (he : 0 ≤ e)
    (h : extendSegment a b e R = .ok ws) (hm : required e R = .ok m) (hl : m ≤ √((b.x - a.x) ^ 2 + (b.y - a.y) ^ 2)) :
    ∃ psi, b.x - a.x = √((b.x - a.x) ^ 2 + (b.y - a.y) ^ 2) * cos psi ∧
      b.y - a.y = √((b.x - a.x) ^ 2 + (b.y - a.y) ^ 2) * sin psi ∧
      ∀ z, Passes R ⟨a.x, a.y, psi⟩ ws z → Near a b (2 * R) z := by
  obtain ⟨L, m', N, h1, h2, h3, h4, h5, h6, h7⟩ := extend_spec hR he h
  obtain ⟨hx, hy⟩ := direction_dist a b
  rw [hm] at h1
  obtain rfl := Outcome.ok.inj h1
  exact ⟨_, hx, hy, h7 hl⟩

/-- **C130.**  A segment of six radii is always long enough. -/
theorem C130_required {e R m : ℝ} (hR : 0 < R) (he : 0 ≤ e) (hm : required e R = .ok m) : 0 ≤ m ∧ m ≤ 6 * R := by
  unfold required at hm
  by_cases h1 : e < 2 * R * (π - 2)
  · rw [if_pos h1] at hm
    obtain ⟨t0, t1, -, -⟩ := bubble_gain hR he h1
    generalize search (bubbleError e R) = th at *
    obtain rfl := Outcome.ok.inj hm
    have hs0 : 0 ≤ sin th := sin_nonneg_of_nonneg_of_le_pi t0 (by linarith [pi_pos])
    have hs1 := sin_le_one th
    unfold bubbleStraight
    constructor
    · positivity
    · nlinarith
  rw [if_neg h1] at hm
  by_cases h2 : e < 2 * π * R
  · rw [if_pos h2] at hm
    obtain ⟨t0, t1, -, -⟩ := slide_gain hR (not_lt.1 h1) h2
    generalize search (slideError e R) = th at *
    obtain rfl := Outcome.ok.inj hm
    have hc0 : 0 ≤ cos th := cos_nonneg_of_neg_pi_div_two_le_of_le (by linarith [pi_pos]) t1
    have hc1 := cos_le_one th
    have hq : √(1 - (1 - sin th) * (1 - sin th)) ≤ 1 := by
      rw [Real.sqrt_le_left one_pos.le]
      nlinarith [mul_self_nonneg (1 - sin th)]
    unfold slideStraight
    constructor
    · positivity
    · nlinarith
  rw [if_neg h2] at hm
  have hp : 0 < 2 * π * R := by positivity
  obtain ⟨r1, r2, r3⟩ := rfmod_spec hp he
  rw [Outcome.bind_eq_ok] at hm
  obtain ⟨n, hn, hm⟩ := hm
  obtain rfl := Outcome.ok.inj hm
  have := pi_le_four
  constructor
  · linarith
  · nlinarith

/-- **C130.**  The number of turns fits its type whenever the extension is shorter than 2147483648 turns; then an answer is
given. -/
theorem C130_answer {a b : Dubins} {e R : ℝ} (hR : 0 < R) (he : 0 ≤ e) (hb : e < 2147483648 * (2 * π * R)) :
    (∃ ws, extendSegment a b e R = .ok ws) ∧ ∃ m, required e R = .ok m := by
  have hp : 0 < 2 * π * R := by positivity
  have h0 : 0 ≤ ⌊e / (2 * π * R)⌋ := Int.floor_nonneg.2 (by positivity)
  have h1 : ⌊e / (2 * π * R)⌋ < 2147483648 := by
    rw [Int.floor_lt, div_lt_iff₀ hp]
    exact_mod_cast hb
  have hf : floorDiv e (2 * π * R) = .ok ⌊e / (2 * π * R)⌋ := by
    unfold floorDiv toInt32
    rw [if_neg hp.ne', if_pos ⟨by omega, by omega⟩]
  have hf' : toInt32 (⌊e / (2 * π * R)⌋ - 1) = .ok (⌊e / (2 * π * R)⌋ - 1) := by
    unfold toInt32
    rw [if_pos ⟨by omega, by omega⟩]
  constructor
  · unfold extendSegment
    split
    · exact ⟨_, rfl⟩
    · split
      · exact ⟨_, rfl⟩
      · rw [hf, Outcome.bind_ok, hf', Outcome.bind_ok]
        exact ⟨_, rfl⟩
  · unfold required
    split
    · exact ⟨_, rfl⟩
    · split
      · exact ⟨_, rfl⟩
      · rw [hf, Outcome.bind_ok]
        exact ⟨_, rfl⟩

/-- **C130 is violated** for a turn radius of 0: the conversion of the number of turns to an integer is undefined, for every
segment and every extension that is not negative. -/
theorem C130_zero_violated (a b : Dubins) {e : ℝ} (he : 0 ≤ e) : extendSegment a b e 0 = .ub ∧ required e 0 = .ub := by
  have h1 : ¬ e < 2 * 0 * (π - 2) := by simp [he]
  have h2 : ¬ e < 2 * π * 0 := by simp [he]
  unfold extendSegment required
  rw [if_neg h1, if_neg h2, if_neg h1, if_neg h2]
  unfold floorDiv
  rw [if_pos (by simp)]
  exact ⟨rfl, rfl⟩

/-- The bisection with a function that is negative throughout goes to the right end. -/
theorem bisect_neg {f : ℝ → ℝ} {hi : ℝ} : ∀ (n : ℕ) (lo : ℝ), (∀ t, lo ≤ t → t ≤ hi → f t < 0) → lo ≤ hi →
    hi - lo ≤ eps * 2 ^ n → lo ≤ bisect f n lo hi ∧ bisect f n lo hi ≤ hi ∧ hi ≤ bisect f n lo hi + eps
  | 0, lo, hf, hl, h => by
    simp only [bisect]
    refine ⟨le_rfl, hl, by linarith⟩
  | n + 1, lo, hf, hl, h => by
    unfold bisect
    by_cases hc : lo + eps < hi
    · rw [if_pos hc]
      dsimp only
      have e1 : f lo < 0 := hf lo le_rfl hl
      have e2 : f (1 / 2 * lo + 1 / 2 * hi) < 0 := hf _ (by linarith) (by linarith)
      rw [if_pos (by simp only [e1, e2])]
      obtain ⟨a, b, c⟩ := bisect_neg n (1 / 2 * lo + 1 / 2 * hi) (fun t h1 h2 => hf t (by linarith) h2) (by linarith)
        (by rw [pow_succ] at h; linarith)
      exact ⟨by linarith, b, c⟩
    · rw [if_neg hc]
      exact ⟨le_rfl, hl, by linarith⟩

/-- **C130 is violated** for an extension below 0: the path is never shorter, nor is it left alone; the largest bubble is added,
which makes it longer by more than twice the radius, however small the extension. -/
theorem C130_negative_violated (a b : Dubins) {e R : ℝ} (hR : 0 < R) (he : e < 0) :
    ∃ ws L psi, extendSegment a b e R = .ok ws ∧
      Flies R ⟨a.x, a.y, psi⟩ ws ⟨a.x + L * cos psi, a.y + L * sin psi, psi⟩ ∧ L + 2 * R < total ws := by
  have hpi := pi_gt_d2
  have h1 : e < 2 * R * (π - 2) := by
    have : 0 < 2 * R * (π - 2) := mul_pos (by linarith) (by linarith)
    linarith
  have hneg : ∀ t, 0 ≤ t → t ≤ π / 2 → bubbleError e R t < 0 := by
    intro t t0 _
    unfold bubbleError bubbleStraight bubbleArc
    have := sin_le t0
    nlinarith
  obtain ⟨t0, t1, t2⟩ := bisect_neg 28 0 hneg (by positivity) (by
    have := pi_le_four
    unfold eps
    norm_num
    linarith)
  have hth : bisect (bubbleError e R) 28 0 (π / 2) = search (bubbleError e R) := rfl
  rw [hth] at t0 t1 t2
  refine ⟨_, bubbleStraight (search (bubbleError e R)) R, direction a b, if_pos h1, ?_, ?_⟩
  · have hf := flies_bubble hR t0 a b
    rw [bubble_end] at hf
    exact hf
  · rw [bubble_total]
    generalize search (bubbleError e R) = th at *
    unfold bubbleStraight bubbleArc
    have := sin_le_one th
    unfold eps at t2
    have h3 : 1.5 < th := by linarith
    nlinarith

/-! ## Concrete cases -/

/-- The hypotheses hold for each of the three shapes: 1, 5 and 20 metres with a radius of 1. -/
example (a b : Dubins) : (∃ ws, extendSegment a b 1 1 = .ok ws) ∧ (∃ ws, extendSegment a b 5 1 = .ok ws) ∧
    (∃ ws, extendSegment a b 20 1 = .ok ws) := by
  have := pi_gt_three
  exact ⟨(C130_answer one_pos (by norm_num) (by nlinarith)).1, (C130_answer one_pos (by norm_num) (by nlinarith)).1,
    (C130_answer one_pos (by norm_num) (by nlinarith)).1⟩

/-- The shapes differ: four arcs, six arcs, and a race track. -/
example (a b : Dubins) : (extendSegment a b 1 1).bind (fun ws => .ok ws.length) = .ok 4 ∧
    (extendSegment a b 5 1).bind (fun ws => .ok ws.length) = .ok 6 := by
  have h1 := pi_gt_three
  have h2 := pi_lt_d2
  unfold extendSegment
  constructor
  · rw [if_pos (by linarith)]; rfl
  · rw [if_neg (by linarith), if_pos (by linarith)]; rfl

/-- A segment of six radii meets the hypothesis of `C130_near`. -/
example : ∃ ws m, extendSegment ⟨0, 0, 0, 0, 0, 0⟩ ⟨6, 0, 0, 0, 0, 0⟩ 1 1 = .ok ws ∧ required 1 1 = .ok m ∧
    m ≤ √(((6 : ℝ) - 0) ^ 2 + (0 - 0) ^ 2) := by
  have := pi_gt_three
  obtain ⟨⟨ws, hw⟩, m, hm⟩ := C130_answer (a := ⟨0, 0, 0, 0, 0, 0⟩) (b := ⟨6, 0, 0, 0, 0, 0⟩) (e := 1) (R := 1) one_pos
    (by norm_num) (by nlinarith)
  refine ⟨ws, m, hw, hm, (C130_required one_pos (by norm_num) hm).2.trans ?_⟩
  rw [show ((6 : ℝ) - 0) ^ 2 + (0 - 0) ^ 2 = 6 ^ 2 by norm_num, Real.sqrt_sq (by norm_num)]
  norm_num

end Verif.Extend
