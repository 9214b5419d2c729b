import Verif.Dubins.Flown

/-!
# Paths of a turn, a straight line and a turn; paths of three turns
-/

namespace Verif.Dubins

open Complex

theorem trunc_nonneg {x : ℝ} (h : 0 ≤ x) : 0 ≤ trunc x := by unfold trunc; rw [if_pos h]; exact Int.floor_nonneg.2 h

theorem iRound_spec {x : ℝ} {d : ℤ} (hx : 0 ≤ x) (h : iRound x = .ok d) : 0 ≤ d ∧ |(d : ℝ) - x| ≤ 1 / 2 := by
  unfold iRound toInt at h
  split at h
  · simp only [Outcome.ok.injEq] at h
    subst h
    have := (trunc_spec (x + 1 / 2)).1 (by linarith)
    exact ⟨trunc_nonneg (by linarith), by rw [abs_le]; constructor <;> linarith⟩
  · simp at h

theorem iRound_total {x : ℝ} (h0 : 0 ≤ x) (h1 : x < 2147483647) : ∃ d, iRound x = .ok d := by
  refine ⟨trunc (x + 1 / 2), ?_⟩
  unfold iRound toInt
  rw [if_pos]
  constructor
  · have := trunc_nonneg (x := x + 1 / 2) (by linarith)
    omega
  · have := ((trunc_spec (x + 1 / 2)).1 (by linarith)).1
    have h2 : (trunc (x + 1 / 2) : ℝ) < 2147483648 := by linarith
    have h3 : trunc (x + 1 / 2) < 2147483648 := by exact_mod_cast h2
    omega

/-- The length of a turn: that of the angle, or nothing for a turn of nearly nothing or nearly a full circle. -/
def Turns (r l a : ℝ) : Prop := l = r * a ∨ (l = 0 ∧ (|a| < 0.005 ∨ |a - 2 * Real.pi| < 0.005))

/-- An angle of a turn. -/
def Angle (a : ℝ) : Prop := -1e-9 ≤ a ∧ a ≤ 2 * Real.pi + 1e-9

theorem turns_first {dir : Dir} {r al as : ℝ} : Turns r (sweep dir al (snap as al) * r) (sweep dir al as) := by
  rcases snap_spec as al with h | ⟨h, h'⟩
  · rw [h]; left; ring
  · rw [h, sweep_self]; right; exact ⟨by ring, snap_small dir h'⟩

theorem turns_last {dir : Dir} {r be bs : ℝ} : Turns r (sweep dir (snap bs be) be * r) (sweep dir bs be) := by
  rcases snap_spec bs be with h | ⟨h, h'⟩
  · rw [h]; left; ring
  · rw [h, sweep_self]; right
    refine ⟨by ring, ?_⟩
    rw [abs_sub_comm bs be] at h'
    exact snap_small dir h'

/-- A turn from an angle to the place of a pose gives its direction. -/
theorem turned_to {q : Pose} {dir : Dir} {r : ℝ} (hr : 0 < r) (hu : ‖q.to_‖ = 1) {rot : ℂ} (hrot : ‖rot‖ = 1) {n : Pose} {c : ℂ} {a : ℝ}
    (h1 : (r : ℂ) * exp ((a : ℂ) * I) * rot = n.at_ - c) (h2 : n.to_ = dir.sign * I * (exp ((a : ℂ) * I) * rot)) :
    n.turned dir r (sweep dir a (bearing ((q.at_ - (q.circle dir r).c) / rot))) = ⟨q.at_ + (c - (q.circle dir r).c), q.to_⟩ := by
  obtain ⟨g1, g2⟩ := pose_angle (p := q) (dir := dir) hr hu hrot
  rw [turned_angle h1 h2 (sweep_exp dir _ _)]
  ext
  · simp only; rw [g1]; ring
  · simp only; exact g2.symm

/-- **C171.**  A path of a turn, a straight line and a turn: it begins at the pose, and flown as laid out it ends in the direction asked
for, within a metre of the place asked for; the place where the straight line ends is off by up to half a metre. -/
theorem C171_straight {p q : Pose} {d1 d2 : Dir} {r : ℝ} (hp : ‖p.to_‖ = 1) (hq : ‖q.to_‖ = 1) (hr : 1 ≤ r) {d least : ℤ}
    (hd : iRound ‖(q.circle d2 r).c - (p.circle d1 r).c‖ = .ok d) (hl : iRound (r + r) = .ok least) (h1 : 1 ≤ d) {c : Circle} {s : Shape}
    (h : cscShape p.at_ q.at_ (p.circle d1 r) (q.circle d2 r) d least = (c, some s)) :
    c = p.circle d1 r ∧ ∃ a1 l a2, Angle a1 ∧ 0 ≤ l ∧ Angle a2 ∧
      s.t1 = (p.turned d1 r a1).at_ ∧ ‖s.t2 - ((p.turned d1 r a1).on l).at_‖ ≤ 1 / 2 ∧
      (((p.turned d1 r a1).on l).turned d2 r a2).to_ = q.to_ ∧ ‖(((p.turned d1 r a1).on l).turned d2 r a2).at_ - q.at_‖ ≤ 1 ∧
      Turns r s.l1 a1 ∧ |s.l2 - l| ≤ 1 / 2 ∧ Turns r s.l3 a2 ∧
      ‖(s.t2 - (q.circle d2 r).c) - (((p.turned d1 r a1).on l).at_ - (((p.turned d1 r a1).on l).circle d2 r).c)‖ ≤ 1 / 2 ∧
      (d1 = d2 → ‖s.t2 - ((p.turned d1 r a1).on l).at_‖ = 0 ∧ s.l2 = l) := by
  obtain ⟨hd0, hdD⟩ := iRound_spec (norm_nonneg _) hd
  obtain ⟨hl0, hlr⟩ := iRound_spec (by linarith) hl
  have h1' : (1 : ℝ) ≤ d := by exact_mod_cast h1
  have hr0 : 0 < r := by linarith
  rw [abs_le] at hdD hlr
  unfold cscShape at h
  have hdc : ¬ |(d : ℝ)| ≤ 0.01 := by rw [abs_of_pos (by linarith)]; norm_num; linarith
  simp only [if_neg hdc] at h
  split at h
  · simp at h
  rename_i hg
  have hne : (q.circle d2 r).c - (p.circle d1 r).c ≠ 0 := by
    intro h0; rw [h0, norm_zero] at hdD; linarith
  have hrot : ‖exp ((bearing ((q.circle d2 r).c - (p.circle d1 r).c) : ℂ) * I)‖ = 1 := exp_unit _
  have hD := bearing_exp ((q.circle d2 r).c - (p.circle d1 r).c)
  generalize exp ((bearing ((q.circle d2 r).c - (p.circle d1 r).c) : ℂ) * I) = rot at h hrot hD
  have hrot0 : rot ≠ 0 := by rw [← norm_ne_zero_iff, hrot]; norm_num
  obtain ⟨p1, p2, as, bs, htan⟩ : ∃ p1 p2 as bs, tangents r d1 d2 d = (p1, p2, as, bs) := ⟨_, _, _, _, rfl⟩
  have hx : d1 ≠ d2 → 1 ≤ (d : ℝ) ∧ 2 * r ≤ d + 1 / 2 := by
    intro hdd
    refine ⟨h1', ?_⟩
    have : least ≤ d := by
      by_contra hc
      exact hg ⟨by omega, hdd⟩
    have : (least : ℝ) ≤ d := by exact_mod_cast this
    linarith
  obtain ⟨e1, e2, e3, ⟨l, δ, hl0, hδ0, hδ1, e4, e5, e6, _⟩, hra, hrb⟩ := tangents_spec hr0 (by linarith) hx htan
  simp only [Pose.circle] at htan h
  rw [htan] at h
  simp only [Prod.mk.injEq, Option.some.injEq] at h
  obtain ⟨hc, hs⟩ := h
  refine ⟨hc.symm, ?_⟩
  subst hs
  obtain ⟨g1, g2⟩ := pose_angle (p := p) (dir := d1) hr0 hp hrot
  -- the angle at the end
  have hbe : (q.at_ - (p.circle d1 r).c) / rot - ((q.circle d2 r).c - (p.circle d1 r).c) / rot = (q.at_ - (q.circle d2 r).c) / rot := by
    field_simp; ring
  have hal := turned_angle g1 g2 (sweep_exp d1 _ as)
  have hn : ((p.turned d1 r (sweep d1 (bearing ((p.at_ - (p.circle d1 r).c) / rot)) as)).on l).at_ = (p.circle d1 r).c + (p2 + δ) * rot := by
    rw [hal]
    simp only [Pose.on]
    rw [e4, e1]; ring
  have hm : ((p.turned d1 r (sweep d1 (bearing ((p.at_ - (p.circle d1 r).c) / rot)) as)).on l).to_ = d2.sign * I * (exp ((bs : ℂ) * I) * rot) := by
    rw [hal]
    simp only [Pose.on]
    linear_combination (I * rot) * e3
  have hend := turned_to (q := q) (dir := d2) (n := (p.turned d1 r (sweep d1 (bearing ((p.at_ - (p.circle d1 r).c) / rot)) as)).on l)
    (c := (p.circle d1 r).c + (d + δ) * rot) (a := bs) hr0 hq hrot (by rw [hn, e2]; push_cast; ring) hm
  refine ⟨sweep d1 (bearing ((p.at_ - (p.circle d1 r).c) / rot)) as, l, sweep d2 bs (bearing ((q.at_ - (q.circle d2 r).c) / rot)),
    sweep_range d1 (bearing_range _) hra, hl0, sweep_range d2 hrb (bearing_range _), ?_, ?_, ?_, ?_, ?_, ?_, ?_, ?_, ?_⟩
  · rw [hal, e1]; simp only [Pose.circle]; ring
  · rw [hn]
    simp only [Pose.circle]
    rw [show p2 * rot + (p.at_ + d1.sign * r * I * p.to_) - (p.at_ + d1.sign * r * I * p.to_ + (p2 + δ) * rot) = -((δ : ℂ) * rot) by ring, norm_neg,
      norm_mul, hrot, Complex.norm_real, Real.norm_of_nonneg hδ0]
    linarith
  · rw [hend]
  · rw [hend]
    simp only
    rw [show q.at_ + ((p.circle d1 r).c + (d + δ) * rot - (q.circle d2 r).c) - q.at_ = ((d + δ - ‖(q.circle d2 r).c - (p.circle d1 r).c‖ : ℝ) : ℂ) * rot by
      push_cast; linear_combination hD, norm_mul, hrot, mul_one, Complex.norm_real, Real.norm_eq_abs, abs_le]
    constructor <;> linarith
  · exact turns_first
  · exact e5.trans hδ1
  · have := turns_last (dir := d2) (r := r) (be := bearing ((q.at_ - (q.circle d2 r).c) / rot)) (bs := bs)
    rw [← hbe] at this ⊢
    exact this
  · have hcirc : ((((p.turned d1 r (sweep d1 (bearing ((p.at_ - (p.circle d1 r).c) / rot)) as)).on l).circle d2 r).c) = (p.circle d1 r).c + (d + δ) * rot := by
      simp only [Pose.circle] at hn hm ⊢
      rw [hn, hm, e2]
      linear_combination (r * exp ((bs : ℂ) * I) * rot) * iI_sq d2
    rw [hn, hcirc]
    have : p2 * rot + (p.circle d1 r).c - (q.circle d2 r).c - ((p.circle d1 r).c + (p2 + δ) * rot - ((p.circle d1 r).c + (d + δ) * rot)) =
        ((d - ‖(q.circle d2 r).c - (p.circle d1 r).c‖ : ℝ) : ℂ) * rot := by
      push_cast; linear_combination hD
    simp only [Pose.circle] at this hdD ⊢
    rw [this, norm_mul, hrot, mul_one, Complex.norm_real, Real.norm_eq_abs, abs_le]
    exact hdD
  · intro hdd
    have hz := e6 (Or.inl hdd)
    subst hz
    constructor
    · rw [hn, norm_eq_zero]; simp only [Pose.circle]; push_cast; ring
    · have := abs_nonpos_iff.1 e5
      simp only; linarith

/-- **C171.**  A path of three turns, the middle one the other way around: flown as laid out it ends exactly at the pose asked for. -/
theorem C171_turns {p q : Pose} {dir : Dir} {r : ℝ} (hp : ‖p.to_‖ = 1) (hq : ‖q.to_‖ = 1) (hr : 0 < r)
    (h1 : 0.01 < ‖(q.circle dir r).c - (p.circle dir r).c‖) (h4 : ‖(q.circle dir r).c - (p.circle dir r).c‖ ≤ 4 * r) {c : Circle} {m : ℂ} {s : Shape}
    (h : cccShape p.at_ q.at_ (p.circle dir r) (q.circle dir r) = (c, m, s)) :
    c = p.circle dir r ∧ ∃ a1 a2 a3, Angle a1 ∧ (Real.pi ≤ a2 ∧ a2 ≤ 2 * Real.pi) ∧ Angle a3 ∧ s.l1 = r * a1 ∧ s.l2 = r * a2 ∧ s.l3 = r * a3 ∧
      s.t1 = (p.turned dir r a1).at_ ∧ m = ((p.turned dir r a1).circle dir.other r).c ∧ s.t2 = ((p.turned dir r a1).turned dir.other r a2).at_ ∧
      (q.circle dir r).c = (((p.turned dir r a1).turned dir.other r a2).circle dir r).c ∧
      ((p.turned dir r a1).turned dir.other r a2).turned dir r a3 = q := by
  have hpi := Real.pi_gt_three
  unfold cccShape at h
  simp only [if_neg (not_le.2 h1), show (p.circle dir r).r = r from rfl, show (p.circle dir r).dir = dir from rfl] at h
  have hrot : ‖exp ((bearing ((q.circle dir r).c - (p.circle dir r).c) : ℂ) * I)‖ = 1 := exp_unit _
  have hD := bearing_exp ((q.circle dir r).c - (p.circle dir r).c)
  generalize exp ((bearing ((q.circle dir r).c - (p.circle dir r).c) : ℂ) * I) = rot at h hrot hD
  have hrot0 : rot ≠ 0 := by rw [← norm_ne_zero_iff, hrot]; norm_num
  obtain ⟨g1, g2⟩ := pose_angle (p := p) (dir := dir) hr hp hrot
  have hbe : (q.at_ - (p.circle dir r).c) / rot - ((q.circle dir r).c - (p.circle dir r).c) / rot = (q.at_ - (q.circle dir r).c) / rot := by
    field_simp; ring
  have hP : ((q.circle dir r).c - (p.circle dir r).c) / rot = ‖(q.circle dir r).c - (p.circle dir r).c‖ := by
    rw [← hD]; simp [hrot0, hrot]
  rw [norm_sub_rev (p.circle dir r).c, hbe, hP] at h
  generalize hDD : ‖(q.circle dir r).c - (p.circle dir r).c‖ = D at *
  have hal := bearing_range ((p.at_ - (p.circle dir r).c) / rot)
  have hbr := bearing_range ((q.at_ - (q.circle dir r).c) / rot)
  obtain ⟨k1, k2⟩ := pose_angle (p := q) (dir := dir) hr hq hrot
  generalize bearing ((p.at_ - (p.circle dir r).c) / rot) = al at h g1 g2 hal
  generalize bearing ((q.at_ - (q.circle dir r).c) / rot) = be at h hbr k1 k2
  have hcos : 4 * r * Real.cos (Real.arccos (D / (4 * r))) = D := by
    rw [Real.cos_arccos (by have : 0 ≤ D / (4 * r) := div_nonneg (by norm_num at h1; linarith) (by linarith)
                            linarith) ((div_le_one (by linarith)).2 h4)]
    field_simp
  have hg0 := Real.arccos_nonneg (D / (4 * r))
  have hg1 : Real.arccos (D / (4 * r)) ≤ Real.pi / 2 := Real.arccos_le_pi_div_two.2 (div_nonneg (by norm_num at h1; linarith) (by linarith))
  generalize Real.arccos (D / (4 * r)) = g at h hcos hg0 hg1
  have hbe' : -1e-9 ≤ be ∧ be < 2 * Real.pi := hbr
  norm_num at hal hbe'
  -- the places
  have hcosC : (D : ℂ) = 2 * r * (exp (((dir.sign * g : ℝ) : ℂ) * I) + exp (((-(dir.sign * g) : ℝ) : ℂ) * I)) := by
    rw [exp_cos_sin, exp_cos_sin, Real.cos_neg, Real.sin_neg]
    have : Real.cos (dir.sign * g) = Real.cos g := by cases dir <;> simp [Dir.sign]
    rw [this, ← hcos]; push_cast; ring
  obtain ⟨a1, a3, hA1, hA3, hs, x1, x3, hl⟩ : ∃ a1 a3, Angle a1 ∧ Angle a3 ∧
      (c = p.circle dir r ∧ m = 2 * r * exp (((dir.sign * g : ℝ) : ℂ) * I) * rot + (p.circle dir r).c ∧
        s.t1 = r * exp (((dir.sign * g : ℝ) : ℂ) * I) * rot + (p.circle dir r).c ∧
        s.t2 = (D - r * exp (((-(dir.sign * g) : ℝ) : ℂ) * I)) * rot + (p.circle dir r).c) ∧
      exp (((dir.sign * a1 : ℝ) : ℂ) * I) = exp (((dir.sign * g - al : ℝ) : ℂ) * I) ∧
      exp (((dir.sign * a3 : ℝ) : ℂ) * I) = exp (((be - (Real.pi - dir.sign * g) : ℝ) : ℂ) * I) ∧
      s.l1 = r * a1 ∧ s.l2 = r * (Real.pi + 2 * g) ∧ s.l3 = r * a3 := by
    have hconj : ∀ x : ℝ, (starRingEnd ℂ) (exp ((x : ℂ) * I)) = exp (((-x : ℝ) : ℂ) * I) := by
      intro x; rw [← Complex.exp_conj]; simp
    cases dir
    · simp only [Pose.circle, if_true] at h
      simp only [Prod.mk.injEq] at h
      obtain ⟨rfl, rfl, rfl⟩ := h
      refine ⟨if al ≤ 2 * Real.pi - g then g + al else g + al - 2 * Real.pi, if be ≤ Real.pi + g then Real.pi + g - be else 3 * Real.pi + g - be, ?_, ?_,
        ⟨rfl, ?_, ?_, ?_⟩, ?_, ?_, ?_, ?_, ?_⟩
      · unfold Angle; norm_num; split <;> constructor <;> linarith
      · unfold Angle; norm_num; split <;> constructor <;> linarith
      · simp [Pose.circle, Dir.sign, ← Complex.exp_conj, map_ofNat]
      · simp [Pose.circle, Dir.sign, ← Complex.exp_conj]
      · simp [Pose.circle, Dir.sign, ← Complex.exp_conj]; exact Or.inl (by ring)
      · simp only [Dir.sign]; split
        · congr 3; ring
        · rw [show -1 * (g + al - 2 * Real.pi) = -1 * g - al + 2 * Real.pi * ((1 : ℤ) : ℝ) by push_cast; ring, exp_turns]
      · simp only [Dir.sign]; split
        · congr 3; ring
        · rw [show -1 * (3 * Real.pi + g - be) = be - (Real.pi - -1 * g) + 2 * Real.pi * ((-1 : ℤ) : ℝ) by push_cast; ring, exp_turns]
      · simp only; split <;> ring
      · simp only; ring
      · simp only; split <;> ring
    · simp only [Pose.circle, reduceCtorEq, if_false] at h
      simp only [Prod.mk.injEq] at h
      obtain ⟨rfl, rfl, rfl⟩ := h
      refine ⟨if al ≤ g then g - al else 2 * Real.pi + g - al, if be ≤ Real.pi - g then Real.pi + be + g else be + g - Real.pi, ?_, ?_,
        ⟨rfl, ?_, ?_, ?_⟩, ?_, ?_, ?_, ?_, ?_⟩
      · unfold Angle; norm_num; split <;> constructor <;> linarith
      · unfold Angle; norm_num; split <;> constructor <;> linarith
      · simp [Pose.circle, Dir.sign]
      · simp [Pose.circle, Dir.sign]
      · simp [Pose.circle, Dir.sign]; exact Or.inl (by ring)
      · simp only [Dir.sign]; split
        · congr 3; ring
        · rw [show 1 * (2 * Real.pi + g - al) = 1 * g - al + 2 * Real.pi * ((1 : ℤ) : ℝ) by push_cast; ring, exp_turns]
      · simp only [Dir.sign]; split
        · rw [show 1 * (Real.pi + be + g) = be - (Real.pi - 1 * g) + 2 * Real.pi * ((1 : ℤ) : ℝ) by push_cast; ring, exp_turns]
        · congr 3; ring
      · simp only; split <;> ring
      · simp only; ring
      · simp only; split <;> ring
  obtain ⟨rfl, rfl, ht1, ht2⟩ := hs
  obtain ⟨l1, l2, l3⟩ := hl
  have ho : dir.other.sign = -dir.sign := by cases dir <;> simp [Dir.other, Dir.sign]
  -- the three turns
  have p1 := turned_angle g1 g2 x1
  have p2 := turned_angle (p := p.turned dir r a1) (dir := dir.other) (r := r) (a := dir.sign * g + Real.pi) (b := -(dir.sign * g)) (t := Real.pi + 2 * g)
    (c := 2 * r * exp (((dir.sign * g : ℝ) : ℂ) * I) * rot + (p.circle dir r).c) (rot := rot)
    (by rw [p1, exp_add_pi]; simp only; ring) (by rw [p1, exp_add_pi, ho]; push_cast; ring)
    (by
      cases dir
      · simp only [Dir.other, Dir.sign]
        rw [show 1 * (Real.pi + 2 * g) = (-(-1 * g) - (-1 * g + Real.pi)) + 2 * Real.pi * ((1 : ℤ) : ℝ) by push_cast; ring, exp_turns]
      · simp only [Dir.other, Dir.sign]; congr 3; ring)
  have hneg : exp (((Real.pi - dir.sign * g : ℝ) : ℂ) * I) = -exp (((-(dir.sign * g) : ℝ) : ℂ) * I) := by
    rw [← exp_add_pi]; congr 3; ring
  have p3 := turned_angle (p := (p.turned dir r a1).turned dir.other r (Real.pi + 2 * g)) (dir := dir) (r := r) (a := Real.pi - dir.sign * g) (b := be) (t := a3)
    (c := (q.circle dir r).c) (rot := rot)
    (by rw [p2, hneg]; simp only; linear_combination rot * hcosC - hD) (by rw [p2, hneg, ho]; push_cast; ring) x3
  refine ⟨rfl, a1, Real.pi + 2 * g, a3, hA1, ⟨by linarith, by linarith⟩, hA3, l1, l2, l3, ?_, ?_, ?_, ?_, ?_⟩
  · rw [ht1, p1]; ring
  · rw [p1]; simp only [Pose.circle]; rw [ho]; push_cast
    have := iI_sq dir
    linear_combination (r * exp ((dir.sign : ℂ) * g * I) * rot) * this
  · rw [ht2, p2]; simp only; linear_combination rot * hcosC
  · rw [p2]; simp only [Pose.circle] at hD ⊢; rw [ho]; push_cast; push_cast at hcosC
    have := iI_sq dir
    linear_combination (r * exp (-((dir.sign : ℂ) * g) * I) * rot) * this + rot * hcosC - hD
  · rw [p3]; ext
    · simp only; rw [k1]; ring
    · simp only; exact k2.symm

end Verif.Dubins
