import Verif.Visilib.Padding
import Mathlib.Analysis.Normed.Module.Convex

/-!
C197: the pieces around a polygon cover everything that is nearer to its boundary than the padding, and nothing far from it.
-/

namespace Verif.Visilib.Padding

open Complex

/-- The edges at a corner are not too short, and neither parallel up to the tolerance nor turning back, unless they go straight
on. -/
structure Sound (eps : ℝ) (a b c : ℂ) : Prop where
  edge : eps < ‖b - a‖ ∧ eps < ‖c - b‖
  turn : max 1e-12 |eps| ≤ |((starRingEnd ℂ) (b - a) * (c - b)).im| ∨ ∃ r : ℝ, 0 < r ∧ c - b = r * (b - a)

theorem normalize_right {p : ℂ} : normalize (rotate p (-Real.pi / 2)) = -I * (p / ‖p‖) := by
  rw [rotate_right, normalize_eq, norm_mul, norm_neg, norm_I, one_mul]; ring

theorem normalize_left {p : ℂ} : normalize (rotate p (Real.pi / 2)) = I * (p / ‖p‖) := by
  rw [rotate_left, normalize_eq, norm_mul, norm_I, one_mul]; ring

theorem unit_norm {p : ℂ} (h : p ≠ 0) : ‖p / ‖p‖‖ = 1 := by
  rw [norm_div, Complex.norm_real, norm_norm, div_self (norm_ne_zero_iff.2 h)]

/-- The angle between the sides of two rectangles at their common end. -/
theorem angleSep_sides {b n : ℂ} {x d : ℝ} (hn : ‖n‖ = 1) (hd : 0 < d) (hx0 : 0 < x) (hx1 : x < Real.pi) :
    angleSep (n * (d : ℝ) + b) b (n * cis x * (d : ℝ) + b) = x := by
  have hn0 : n ≠ 0 := by intro e; rw [e] at hn; simp at hn
  have hdc : (d : ℂ) ≠ 0 := by exact_mod_cast hd.ne'
  refine angleSep_of (r := 1) one_pos hx0.le (by linarith) ?_ ?_
  · rw [show b - (n * (d : ℝ) + b) = -(n * d) by ring]
    exact neg_ne_zero.2 (mul_ne_zero hn0 hdc)
  · have : cis (x - Real.pi) = -cis x := by
      apply Complex.ext
      · simp [Real.cos_sub]
      · simp [Real.sin_sub]
    rw [this]
    push_cast
    ring

theorem conj_unit {u : ℂ} (hu : ‖u‖ = 1) : (starRingEnd ℂ) u * u = 1 := by
  rw [mul_comm, Complex.mul_conj, Complex.normSq_eq_norm_sq, hu]; norm_num

theorem norm_scaled {u : ℂ} (hu : ‖u‖ = 1) {l : ℝ} (hl : 0 < l) : ‖(l : ℂ) * u‖ = l := by
  rw [norm_mul, hu, mul_one, Complex.norm_of_nonneg hl.le]

/-- The piece at a corner that turns, the edges given by their directions and lengths. -/
theorem corner_list {eps d l1 l2 th : ℝ} {b u v : ℂ} (heps : 0 ≤ eps) (hd : d ≠ 0) (he1 : eps < l1) (he2 : eps < l2)
    (hun : ‖u‖ = 1) (hvu : v = u * cis th) (hth1 : -Real.pi < th) (hth2 : th < Real.pi) (hth0 : th ≠ 0)
    (hx : max 1e-12 |eps| ≤ |l1 * l2 * Real.sin th|) :
    ∃ (n : ℂ) (x : ℝ), ‖n‖ = 1 ∧ 0 < x ∧ x < Real.pi ∧
      corner eps d (b - l1 * u) b (b + l2 * v) = wedge d x b (n * (|d| : ℝ) + b) (n * cis x * (|d| : ℝ) + b)
        (some (b + (|d| : ℝ) * (n * (1 + I * (Real.tan (x / 2) : ℝ))))) ∧
      ((I * n = u ∧ I * (n * cis x) = v) ∨ (I * n = -v ∧ I * (n * cis x) = -u)) := by
  have hd' : 0 < |d| := abs_pos.2 hd
  have hl1 : 0 < l1 := by linarith
  have hl2 : 0 < l2 := by linarith
  have hc1 : (l1 : ℂ) ≠ 0 := by exact_mod_cast hl1.ne'
  have hc2 : (l2 : ℂ) ≠ 0 := by exact_mod_cast hl2.ne'
  have hvn : ‖v‖ = 1 := by rw [hvu, norm_mul, hun, cis_norm, mul_one]
  have hu0 : u ≠ 0 := by intro e; rw [e] at hun; simp at hun
  have huu := conj_unit hun
  have hba : b - (b - l1 * u) = l1 * u := by ring
  have hcb : b + l2 * v - b = l2 * v := by ring
  have hden : |(v.im * l2) * (u.re * l1) - (u.im * l1) * (v.re * l2)| = |l1 * l2 * Real.sin th| := by
    have h3 : ((starRingEnd ℂ) u * v).im = Real.sin th := by rw [hvu, ← mul_assoc, huu, one_mul]; rfl
    have h4 : ((starRingEnd ℂ) u * v).im = u.re * v.im - u.im * v.re := by simp; ring
    rw [← h3, h4]
    congr 1
    ring
  have hbeta : angleSep (b - l1 * u) b (b + l2 * v) = th + Real.pi := by
    refine angleSep_of (r := l2 / l1) (by positivity) (by linarith) (by linarith) ?_ ?_
    · rw [hba]; exact mul_ne_zero hc1 hu0
    · rw [hba, hcb, hvu, show th + Real.pi - Real.pi = th by ring]
      push_cast
      field_simp
  have hI : I * I = -1 := Complex.I_mul_I
  have hnu : (l1 * u) / (‖(l1 : ℂ) * u‖ : ℝ) = u := by rw [norm_scaled hun hl1]; field_simp
  have hnv : (l2 * v) / (‖(l2 : ℂ) * v‖ : ℝ) = v := by rw [norm_scaled hvn hl2]; field_simp
  unfold corner
  dsimp only
  rw [normalize_right, normalize_left, normalize_right, normalize_left, hbeta, hba, hcb, hnu, hnv]
  rcases lt_or_gt_of_ne hth0 with hneg | hpos
  · rw [if_pos (by linarith)]
    obtain ⟨x, hxd⟩ : ∃ x, x = -th := ⟨_, rfl⟩
    obtain ⟨n, hnd⟩ : ∃ n, n = I * v := ⟨_, rfl⟩
    have hn : ‖n‖ = 1 := by rw [hnd, norm_mul, norm_I, hvn, mul_one]
    have hk : I * u = n * cis x := by
      rw [hnd, hvu, mul_assoc I, mul_assoc u, ← cis_add, hxd, show th + -th = 0 by ring,
        show cis 0 = 1 by apply Complex.ext <;> simp, mul_one]
    have hc2' : 0 < Real.cos (x / 2) := Real.cos_pos_of_mem_Ioo ⟨by linarith, by linarith⟩
    have e3 : I * n = -v := by rw [hnd, ← mul_assoc, hI]; ring
    have e4 : I * (n * cis x) = -u := by rw [← hk, ← mul_assoc, hI]; ring
    rw [hk, ← hnd]
    refine ⟨n, x, hn, by linarith, by linarith, ?_, .inr ⟨e3, e4⟩⟩
    · rw [angleSep_sides hn hd' (by linarith) (by linarith)]
      congr 1
      refine crossing_eq (s := 1 + |d| * Real.tan (x / 2) / l2) (t := 1 + |d| * Real.tan (x / 2) / l1) ?_ ?_ ?_ ?_ ?_
      · rw [show n * (|d| : ℝ) + (b + l2 * v) - (n * (|d| : ℝ) + b) = l2 * v by ring, norm_scaled hvn hl2]; exact he2
      · rw [show n * cis x * (|d| : ℝ) + (b - l1 * u) - (n * cis x * (|d| : ℝ) + b) = -(l1 * u) by ring, norm_neg,
          norm_scaled hun hl1]; exact he1
      · rw [← hden] at hx
        refine hx.trans (le_of_eq ?_)
        simp only [Complex.add_im, Complex.add_re, Complex.sub_im, Complex.sub_re, Complex.re_ofReal_mul, Complex.im_ofReal_mul]
        congr 1
        ring
      · rw [show n * (|d| : ℝ) + b - (n * (|d| : ℝ) + (b + l2 * v)) = -(l2 * v) by ring, Complex.ofReal_add, Complex.ofReal_div,
          Complex.ofReal_mul, Complex.ofReal_one]
        generalize ((Real.tan (x / 2) : ℝ) : ℂ) = T
        field_simp
        linear_combination ((|d| : ℝ) : ℂ) * T * e3
      · rw [show n * cis x * (|d| : ℝ) + b - (n * cis x * (|d| : ℝ) + (b - l1 * u)) = l1 * u by ring, ← tangent_eq hc2'.ne',
          Complex.ofReal_add, Complex.ofReal_div, Complex.ofReal_mul, Complex.ofReal_one]
        generalize ((Real.tan (x / 2) : ℝ) : ℂ) = T
        field_simp
        linear_combination -((|d| : ℝ) : ℂ) * T * e4
  · rw [if_neg (by linarith)]
    obtain ⟨n, hnd⟩ : ∃ n, n = -I * u := ⟨_, rfl⟩
    have hn : ‖n‖ = 1 := by rw [hnd, norm_mul, norm_neg, norm_I, hun, mul_one]
    have hk : -I * v = n * cis th := by rw [hnd, hvu]; ring
    have hc2' : 0 < Real.cos (th / 2) := Real.cos_pos_of_mem_Ioo ⟨by linarith, by linarith⟩
    have e3 : I * n = u := by rw [hnd, ← mul_assoc, mul_neg, hI]; ring
    have e4 : I * (n * cis th) = v := by rw [← hk, ← mul_assoc, mul_neg, hI]; ring
    rw [hk, ← hnd]
    refine ⟨n, th, hn, hpos, hth2, ?_, .inl ⟨e3, e4⟩⟩
    · rw [angleSep_sides hn hd' hpos hth2]
      congr 1
      refine crossing_eq (s := 1 + |d| * Real.tan (th / 2) / l2) (t := 1 + |d| * Real.tan (th / 2) / l1) ?_ ?_ ?_ ?_ ?_
      · rw [show n * cis th * (|d| : ℝ) + (b + l2 * v) - (n * cis th * (|d| : ℝ) + b) = l2 * v by ring, norm_scaled hvn hl2]
        exact he2
      · rw [show n * (|d| : ℝ) + (b - l1 * u) - (n * (|d| : ℝ) + b) = -(l1 * u) by ring, norm_neg, norm_scaled hun hl1]
        exact he1
      · rw [← hden] at hx
        refine hx.trans (le_of_eq ?_)
        simp only [Complex.add_im, Complex.add_re, Complex.sub_im, Complex.sub_re, Complex.re_ofReal_mul, Complex.im_ofReal_mul]
        congr 1
        ring
      · rw [show n * cis th * (|d| : ℝ) + b - (n * cis th * (|d| : ℝ) + (b + l2 * v)) = -(l2 * v) by ring, ← tangent_eq hc2'.ne',
          Complex.ofReal_add, Complex.ofReal_div, Complex.ofReal_mul, Complex.ofReal_one]
        generalize ((Real.tan (th / 2) : ℝ) : ℂ) = T
        field_simp
        linear_combination -((|d| : ℝ) : ℂ) * T * e4
      · rw [show n * (|d| : ℝ) + b - (n * (|d| : ℝ) + (b - l1 * u)) = l1 * u by ring,
          Complex.ofReal_add, Complex.ofReal_div, Complex.ofReal_mul, Complex.ofReal_one]
        generalize ((Real.tan (th / 2) : ℝ) : ℂ) = T
        field_simp
        linear_combination ((|d| : ℝ) : ℂ) * T * e3

/-- Everything near a corner and beyond both edges is in the piece at the corner. -/
theorem corner_core {eps d l1 l2 th : ℝ} {b u v w : ℂ} (heps : 0 ≤ eps) (hd : d ≠ 0) (he1 : eps < l1) (he2 : eps < l2)
    (hun : ‖u‖ = 1) (hvu : v = u * cis th) (hth1 : -Real.pi < th) (hth2 : th < Real.pi) (hth0 : th ≠ 0)
    (hx : max 1e-12 |eps| ≤ |l1 * l2 * Real.sin th|) (hw : ‖w‖ ≤ |d|)
    (hw1 : 0 ≤ (w * (starRingEnd ℂ) u).re) (hw2 : (w * (starRingEnd ℂ) v).re ≤ 0) :
    b + w ∈ area (corner eps d (b - l1 * u) b (b + l2 * v)) := by
  obtain ⟨n, x, hn, hx0, hx1, hl, hside⟩ := corner_list (b := b) heps hd he1 he2 hun hvu hth1 hth2 hth0 hx
  rw [hl]
  refine wedge_cover hn hx0 hx1 (abs_pos.2 hd) hw ?_ ?_ _ rfl _ rfl
  · rcases hside with ⟨e3, -⟩ | ⟨e3, -⟩
    · rw [e3]; exact hw1
    · rw [e3, map_neg, mul_neg, Complex.neg_re]; linarith
  · rcases hside with ⟨-, e4⟩ | ⟨-, e4⟩
    · rw [e4]; exact hw2
    · rw [e4, map_neg, mul_neg, Complex.neg_re]; linarith

/-- The edges at a corner by their directions and lengths. -/
theorem corner_form {a b c : ℂ} (h1 : b - a ≠ 0) (h2 : c - b ≠ 0) : ∃ (l1 l2 th : ℝ) (u v : ℂ), l1 = ‖b - a‖ ∧ l2 = ‖c - b‖ ∧
    ‖u‖ = 1 ∧ v = u * cis th ∧ -Real.pi < th ∧ th ≤ Real.pi ∧ a = b - l1 * u ∧ c = b + l2 * v := by
  have hl1 := norm_pos_iff.2 h1
  have hl2 := norm_pos_iff.2 h2
  have e1 : b - a = (‖b - a‖ : ℝ) * ((b - a) / ‖b - a‖) := by
    have : ((‖b - a‖ : ℝ) : ℂ) ≠ 0 := by exact_mod_cast hl1.ne'
    field_simp
  have e2 : c - b = (‖c - b‖ : ℝ) * ((b - a) / ‖b - a‖ * cis (arg ((c - b) / (b - a)))) := by
    have h3 := cis_arg (z := (c - b) / (b - a))
    have h4 : (c - b) = (c - b) / (b - a) * (b - a) := by field_simp
    have h5 : ((‖b - a‖ : ℝ) : ℂ) ≠ 0 := by exact_mod_cast hl1.ne'
    calc c - b = (c - b) / (b - a) * (b - a) := h4
      _ = (‖(c - b) / (b - a)‖ : ℝ) * cis (arg ((c - b) / (b - a))) * (b - a) := by rw [← h3]
      _ = _ := by rw [norm_div, Complex.ofReal_div]; ring
  exact ⟨‖b - a‖, ‖c - b‖, arg ((c - b) / (b - a)), (b - a) / ‖b - a‖, _, rfl, rfl, unit_norm h1, rfl, neg_pi_lt_arg _, arg_le_pi _,
    by rw [← e1]; ring, by rw [← e2]; ring⟩

/-- Everything near a corner and beyond both edges is in the piece at the corner. -/
theorem corner_cover {eps d : ℝ} {a b c w : ℂ} (heps : 0 ≤ eps) (hd : d ≠ 0) (he1 : eps < ‖b - a‖) (he2 : eps < ‖c - b‖)
    (hx : max 1e-12 |eps| ≤ |((starRingEnd ℂ) (b - a) * (c - b)).im|) (hw : ‖w‖ ≤ |d|)
    (h1 : 0 ≤ (w * (starRingEnd ℂ) (b - a)).re) (h2 : (w * (starRingEnd ℂ) (c - b)).re ≤ 0) :
    b + w ∈ area (corner eps d a b c) := by
  obtain ⟨l1, l2, th, u, v, hl1, hl2, hun, hvu, ht1, ht2, rfl, rfl⟩ :=
    corner_form (norm_pos_iff.1 (lt_of_le_of_lt heps he1)) (norm_pos_iff.1 (lt_of_le_of_lt heps he2))
  rw [← hl1] at he1
  rw [← hl2] at he2
  have hp1 : 0 < l1 := by linarith
  have hp2 : 0 < l2 := by linarith
  have e1 : b - (b - l1 * u) = l1 * u := by ring
  have e2 : b + l2 * v - b = l2 * v := by ring
  rw [e1] at h1 hx
  rw [e2] at h2 hx
  have e3 : ((starRingEnd ℂ) ((l1 : ℂ) * u) * (l2 * v)).im = l1 * l2 * Real.sin th := by
    rw [hvu, map_mul, Complex.conj_ofReal, show (l1 : ℂ) * (starRingEnd ℂ) u * (l2 * (u * cis th)) =
      ((l1 * l2 : ℝ) : ℂ) * cis th * ((starRingEnd ℂ) u * u) by push_cast; ring, conj_unit hun, mul_one, Complex.im_ofReal_mul]
    rfl
  rw [e3] at hx
  have hsin : Real.sin th ≠ 0 := by
    intro e
    rw [e, mul_zero, abs_zero] at hx
    have := le_trans (le_max_left _ _) hx
    norm_num at this
  rw [map_mul, Complex.conj_ofReal, mul_left_comm, Complex.re_ofReal_mul] at h1 h2
  refine corner_core heps hd he1 he2 hun hvu ht1 (lt_of_le_of_ne ht2 fun e => hsin (by rw [e]; exact Real.sin_pi))
    (fun e => hsin (by rw [e]; exact Real.sin_zero)) hx hw ?_ ?_
  · exact nonneg_of_mul_nonneg_right h1 hp1
  · by_contra hneg
    push Not at hneg
    have := mul_pos hp2 hneg
    linarith

/-! ### The rectangle of an edge -/

theorem fuzz_pos (eps : ℝ) : 0 < fuzz eps := by
  unfold fuzz
  split
  · norm_num
  · next h => push Not at h; exact lt_of_lt_of_le (by norm_num) h

/-- What lies beside an edge, or beyond its ends by less than the tolerance, is in its rectangle. -/
theorem rect_wide {eps d t : ℝ} {b c w : ℂ} (hd : d ≠ 0) (hbc : c - b ≠ 0) (ht0 : 0 ≤ fuzz eps + t * ‖c - b‖)
    (ht1 : t * ‖c - b‖ ≤ ‖c - b‖ + fuzz eps)
    (hw : ‖w‖ ≤ |d|) (hp : (w * (starRingEnd ℂ) (c - b)).re = 0) : b + t * (c - b) + w ∈ area (rect eps d b c) := by
  have hl := norm_pos_iff.2 hbc
  have hd' : 0 < |d| := abs_pos.2 hd
  obtain ⟨l, hld⟩ : ∃ l, l = ‖c - b‖ := ⟨_, rfl⟩
  obtain ⟨v, hvd⟩ : ∃ v, v = (c - b) / (‖c - b‖ : ℝ) := ⟨_, rfl⟩
  have hvn : ‖v‖ = 1 := by rw [hvd]; exact unit_norm hbc
  rw [← hld] at hl ht0 ht1
  have hlc : (l : ℂ) ≠ 0 := by exact_mod_cast hl.ne'
  have hc : c = b + l * v := by rw [hvd, hld]; rw [hld] at hlc; field_simp; ring
  have hcb : c - b = l * v := by rw [hc]; ring
  have hbc' : b - c = (l : ℂ) * (-v) := by rw [hc]; ring
  obtain ⟨f, hf⟩ : ∃ f, f = fuzz eps := ⟨_, rfl⟩
  have hf0 : 0 < f := by rw [hf]; exact fuzz_pos eps
  rw [← hf] at ht0 ht1
  have n1 : normalize (rotate (c - b) (-Real.pi / 2)) = -I * v := by rw [normalize_right, ← hvd]
  have n2 : normalize (rotate (c - b) (Real.pi / 2)) = I * v := by rw [normalize_left, ← hvd]
  have n3 : normalize (c - b) = v := by rw [hcb]; exact normalize_pos hvn hl
  have n4 : normalize (b - c) = -v := by rw [hbc']; exact normalize_pos (by rw [norm_neg]; exact hvn) hl
  have hm : ∀ (l : List ℂ) (y : ℂ), y ∈ l → y ∈ area l := fun l y hy => subset_convexHull ℝ _ hy
  -- the sideways distance
  obtain ⟨s, hs⟩ : ∃ s : ℝ, w = s * (I * v) := by
    rw [hcb, map_mul, Complex.conj_ofReal, mul_left_comm, Complex.re_ofReal_mul] at hp
    have hp' : (w * (starRingEnd ℂ) v).re = 0 := by
      rcases mul_eq_zero.1 hp with h | h
      · exact absurd h hl.ne'
      · exact h
    refine ⟨(w * (starRingEnd ℂ) v).im, ?_⟩
    have e : w * (starRingEnd ℂ) v = ((w * (starRingEnd ℂ) v).im : ℝ) * I := by
      apply Complex.ext
      · rw [hp']; simp
      · simp
    calc w = w * ((starRingEnd ℂ) v * v) := by rw [conj_unit hvn, mul_one]
      _ = w * (starRingEnd ℂ) v * v := by ring
      _ = _ := by rw [e]; simp; ring
  have hs1 : |s| ≤ |d| := by
    have : ‖w‖ = |s| := by rw [hs, norm_mul, norm_mul, norm_I, hvn, Complex.norm_real]; simp
    rw [← this]; exact hw
  obtain ⟨hs2, hs3⟩ := abs_le.1 hs1
  have hconv : Convex ℝ (area (rect eps d b c)) := convex_convexHull ℝ _
  unfold rect at hconv ⊢
  dsimp only at hconv ⊢
  rw [n1, n2, n3, n4, ← hf] at hconv ⊢
  obtain ⟨L, hL⟩ : ∃ L, L = [-I * v * (|d| : ℝ) + b + -v * (f : ℝ), -I * v * (|d| : ℝ) + c + v * (f : ℝ),
    I * v * (|d| : ℝ) + c + v * (f : ℝ), I * v * (|d| : ℝ) + b + -v * (f : ℝ)] := ⟨_, rfl⟩
  rw [← hL] at hconv ⊢
  have m1 := hm L (-I * v * (|d| : ℝ) + b + -v * (f : ℝ)) (by rw [hL]; simp)
  have m2 := hm L (-I * v * (|d| : ℝ) + c + v * (f : ℝ)) (by rw [hL]; simp)
  have m3 := hm L (I * v * (|d| : ℝ) + c + v * (f : ℝ)) (by rw [hL]; simp)
  have m4 := hm L (I * v * (|d| : ℝ) + b + -v * (f : ℝ)) (by rw [hL]; simp)
  have htau : (f + t * l) / (l + 2 * f) ∈ Set.Icc (0 : ℝ) 1 :=
    ⟨div_nonneg ht0 (by positivity), by rw [div_le_one (by positivity)]; linarith⟩
  have hsig : (s + |d|) / (2 * |d|) ∈ Set.Icc (0 : ℝ) 1 :=
    ⟨div_nonneg (by linarith) (by linarith), by rw [div_le_one (by positivity)]; linarith⟩
  have low := hconv.add_smul_sub_mem m1 m2 htau
  have high := hconv.add_smul_sub_mem m4 m3 htau
  have all := hconv.add_smul_sub_mem low high hsig
  convert all using 1
  have hdc : ((|d| : ℝ) : ℂ) ≠ 0 := by exact_mod_cast hd'.ne'
  have hlf : ((l : ℝ) : ℂ) + 2 * (f : ℝ) ≠ 0 := by
    have : l + 2 * f ≠ 0 := by positivity
    exact_mod_cast this
  have hT : (((f + t * l) / (l + 2 * f) : ℝ) : ℂ) * (l + 2 * f) = f + t * l := by
    rw [Complex.ofReal_div]; push_cast; exact div_mul_cancel₀ _ hlf
  have hS : (((s + |d|) / (2 * |d|) : ℝ) : ℂ) * (2 * (|d| : ℝ)) = s + (|d| : ℝ) := by
    rw [Complex.ofReal_div, Complex.ofReal_mul, Complex.ofReal_add, Complex.ofReal_ofNat]; field_simp
  rw [hs, hc, Complex.real_smul, Complex.real_smul, Complex.real_smul]
  generalize (((f + t * l) / (l + 2 * f) : ℝ) : ℂ) = T at hT ⊢
  generalize (((s + |d|) / (2 * |d|) : ℝ) : ℂ) = S at hS ⊢
  linear_combination (-v) * hT - (I * v) * hS

/-- The rectangle around an edge covers what is beside the edge. -/
theorem rect_cover {eps d t : ℝ} {b c w : ℂ} (hd : d ≠ 0) (hbc : c - b ≠ 0) (ht0 : 0 ≤ t) (ht1 : t ≤ 1)
    (hw : ‖w‖ ≤ |d|) (hp : (w * (starRingEnd ℂ) (c - b)).re = 0) : b + t * (c - b) + w ∈ area (rect eps d b c) := by
  have hf := fuzz_pos eps
  have hl := norm_nonneg (c - b)
  exact rect_wide hd hbc (by positivity) (by nlinarith) hw hp

/-! ### The nearest place of the boundary -/

/-- A place that is nearest along an edge sees the edge under no acute angle. -/
theorem foot {w e : ℂ} (h : ∀ s : ℝ, 0 ≤ s → s ≤ 1 → ‖w‖ ≤ ‖w - s * e‖) : (w * (starRingEnd ℂ) e).re ≤ 0 := by
  by_contra hneg
  push Not at hneg
  set r := (w * (starRingEnd ℂ) e).re with hr
  have hE : 0 < normSq e := by
    rw [normSq_pos]
    intro e0
    rw [e0] at hr
    simp at hr
    linarith
  have key : ∀ s : ℝ, normSq (w - s * e) = normSq w - 2 * s * r + s ^ 2 * normSq e := by
    intro s
    rw [normSq_apply, normSq_apply, normSq_apply, hr]
    simp
    ring
  have hs := h (min 1 (r / normSq e)) (le_min zero_le_one (by positivity)) (min_le_left _ _)
  have h2 : normSq w ≤ normSq (w - (min 1 (r / normSq e) : ℝ) * e) := by
    rw [Complex.normSq_eq_norm_sq, Complex.normSq_eq_norm_sq]
    exact pow_le_pow_left₀ (norm_nonneg _) hs 2
  rw [key] at h2
  have hpos : 0 < min 1 (r / normSq e) := lt_min one_pos (by positivity)
  have hle : min 1 (r / normSq e) * normSq e ≤ r := by
    have := min_le_right 1 (r / normSq e)
    calc min 1 (r / normSq e) * normSq e ≤ r / normSq e * normSq e := mul_le_mul_of_nonneg_right this hE.le
      _ = r := by field_simp
  nlinarith

theorem vertex_mod (ps : List ℂ) (k : ℕ) : vertex ps (k % ps.length) = vertex ps k := by
  unfold vertex; rw [Nat.mod_mod]

theorem vertex_congr (ps : List ℂ) {j k : ℕ} (h : j % ps.length = k % ps.length) : vertex ps j = vertex ps k := by
  unfold vertex; rw [h]

/-- The place of the boundary at the share `t` of edge `k`. -/
noncomputable def on (ps : List ℂ) (k : ℕ) (t : ℝ) : ℂ := vertex ps k + t * (vertex ps (k + 1) - vertex ps k)

theorem on_mod (ps : List ℂ) (k : ℕ) (t : ℝ) : on ps (k % ps.length) t = on ps k t := by
  unfold on
  rw [vertex_mod, vertex_congr ps (j := k % ps.length + 1) (k := k + 1) (by simp [Nat.add_mod])]

/-- There is a nearest place of the boundary. -/
theorem nearest (ps : List ℂ) (hne : ps ≠ []) (z : ℂ) :
    ∃ (k : ℕ) (t : ℝ), 0 ≤ t ∧ t ≤ 1 ∧ ∀ (j : ℕ) (s : ℝ), 0 ≤ s → s ≤ 1 → ‖z - on ps k t‖ ≤ ‖z - on ps j s‖ := by
  have hN : 0 < ps.length := List.length_pos_iff.2 hne
  have hcont : ∀ k, Continuous fun t : ℝ => on ps k t := by
    intro k; unfold on; fun_prop
  have hcomp : IsCompact (⋃ k ∈ Finset.range ps.length, on ps k '' Set.Icc (0 : ℝ) 1) :=
    (Finset.range ps.length).isCompact_biUnion fun k _ => isCompact_Icc.image (hcont k)
  have hmem : ∀ j (s : ℝ), 0 ≤ s → s ≤ 1 → on ps j s ∈ ⋃ k ∈ Finset.range ps.length, on ps k '' Set.Icc (0 : ℝ) 1 := by
    intro j s h0 h1
    simp only [Set.mem_iUnion, Finset.mem_range]
    exact ⟨j % ps.length, Nat.mod_lt _ hN, s, ⟨h0, h1⟩, on_mod ps j s⟩
  obtain ⟨y, hy, hmin⟩ := hcomp.exists_isMinOn ⟨_, hmem 0 0 (le_refl _) zero_le_one⟩
    (f := fun y => ‖z - y‖) (by fun_prop)
  simp only [Set.mem_iUnion, Finset.mem_range] at hy
  obtain ⟨k, _, t, ⟨h0, h1⟩, rfl⟩ := hy
  exact ⟨k, t, h0, h1, fun j s s0 s1 => hmin (hmem j s s0 s1)⟩

/-- **C197.**  Every place whose distance from the boundary of a zone is at most the padding is covered by one of the pieces
that are put around the zone, if at every corner the edges are longer than the tolerance, and not parallel up to the tolerance
unless they go straight on. -/
theorem C197_covered (eps d : ℝ) (ps : List ℂ) (heps : 0 ≤ eps) (hd : d ≠ 0)
    (hsound : ∀ k, Sound eps (vertex ps k) (vertex ps (k + 1)) (vertex ps (k + 2))) (hne : ps ≠ []) (z : ℂ)
    (hz : ∃ (k : ℕ) (t : ℝ), 0 ≤ t ∧ t ≤ 1 ∧ ‖z - (vertex ps k + t * (vertex ps (k + 1) - vertex ps k))‖ ≤ |d|) :
    ∃ p ∈ pieces eps d ps, z ∈ area p := by
  have hN : 0 < ps.length := List.length_pos_iff.2 hne
  obtain ⟨k, t, ht0, ht1, hmin⟩ := nearest ps hne z
  have hnear : ‖z - on ps k t‖ ≤ |d| := by
    obtain ⟨j, s, s0, s1, h⟩ := hz
    exact (hmin j s s0 s1).trans h
  have hrect : ∀ j, rect eps d (vertex ps j) (vertex ps (j + 1)) ∈ pieces eps d ps := by
    intro j
    unfold pieces
    rw [List.mem_flatMap]
    refine ⟨(j + ps.length - 1) % ps.length, List.mem_range.2 (Nat.mod_lt _ hN), ?_⟩
    rw [vertex_congr ps (j := (j + ps.length - 1) % ps.length + 1) (k := j) (by
        rw [Nat.mod_add_mod, show j + ps.length - 1 + 1 = j + ps.length by omega, Nat.add_mod_right]),
      vertex_congr ps (j := (j + ps.length - 1) % ps.length + 2) (k := j + 1) (by
        rw [Nat.mod_add_mod, show j + ps.length - 1 + 2 = j + 1 + ps.length by omega, Nat.add_mod_right])]
    simp
  have hcorner : ∀ j, corner eps d (vertex ps j) (vertex ps (j + 1)) (vertex ps (j + 2)) ∈ pieces eps d ps := by
    intro j
    unfold pieces
    rw [List.mem_flatMap]
    refine ⟨j % ps.length, List.mem_range.2 (Nat.mod_lt _ hN), ?_⟩
    rw [vertex_mod, vertex_congr ps (j := j % ps.length + 1) (k := j + 1) (by rw [Nat.mod_add_mod]),
      vertex_congr ps (j := j % ps.length + 2) (k := j + 2) (by rw [Nat.mod_add_mod])]
    simp
  -- at a corner
  have atCorner : ∀ j, (∀ (i : ℕ) (s : ℝ), 0 ≤ s → s ≤ 1 → ‖z - vertex ps (j + 1)‖ ≤ ‖z - on ps i s‖) →
      ‖z - vertex ps (j + 1)‖ ≤ |d| → ∃ p ∈ pieces eps d ps, z ∈ area p := by
    intro j hm hle
    obtain ⟨w, hwd⟩ : ∃ w, w = z - vertex ps (j + 1) := ⟨_, rfl⟩
    have hzw : z = vertex ps (j + 1) + w := by rw [hwd]; ring
    rw [← hwd] at hle
    obtain ⟨⟨e1, e2⟩, hturn⟩ := hsound j
    have h2 : (w * (starRingEnd ℂ) (vertex ps (j + 2) - vertex ps (j + 1))).re ≤ 0 := by
      refine foot fun s s0 s1 => ?_
      have := hm (j + 1) s s0 s1
      rw [← hwd] at this
      refine this.trans (le_of_eq ?_)
      rw [hwd]; unfold on; congr 1; ring
    have h1 : (w * (starRingEnd ℂ) (vertex ps j - vertex ps (j + 1))).re ≤ 0 := by
      refine foot fun s s0 s1 => ?_
      have := hm j (1 - s) (by linarith) (by linarith)
      rw [← hwd] at this
      refine this.trans (le_of_eq ?_)
      rw [hwd]; unfold on; congr 1; push_cast; ring
    have h1' : 0 ≤ (w * (starRingEnd ℂ) (vertex ps (j + 1) - vertex ps j)).re := by
      rw [show vertex ps j - vertex ps (j + 1) = -(vertex ps (j + 1) - vertex ps j) by ring, map_neg, mul_neg, Complex.neg_re] at h1
      linarith
    rcases hturn with hx | ⟨r, hr, hstraight⟩
    · exact ⟨_, hcorner j, by rw [hzw]; exact corner_cover heps hd e1 e2 hx hle h1' h2⟩
    · have h3 : (w * (starRingEnd ℂ) (vertex ps (j + 2) - vertex ps (j + 1))).re = 0 := by
        refine le_antisymm h2 ?_
        rw [hstraight, map_mul, Complex.conj_ofReal, mul_left_comm, Complex.re_ofReal_mul]
        exact mul_nonneg hr.le h1'
      have := rect_cover (eps := eps) (t := 0) hd (norm_pos_iff.1 (lt_of_le_of_lt heps e2)) (le_refl _) zero_le_one hle h3
      exact ⟨_, hrect (j + 1), by rw [hzw]; simpa using this⟩
  rcases ht0.eq_or_lt with rfl | ht0'
  · have e : on ps k 0 = vertex ps (k + ps.length - 1 + 1) := by
      rw [vertex_congr ps (j := k + ps.length - 1 + 1) (k := k) (by
        rw [show k + ps.length - 1 + 1 = k + ps.length by omega, Nat.add_mod_right])]
      simp [on]
    refine atCorner (k + ps.length - 1) ?_ ?_
    · rw [← e]; exact hmin
    · rw [← e]; exact hnear
  · rcases ht1.eq_or_lt with rfl | ht1'
    · have e : on ps k 1 = vertex ps (k + 1) := by simp [on]
      refine atCorner k ?_ ?_
      · rw [← e]; exact hmin
      · rw [← e]; exact hnear
    · obtain ⟨w, hwd⟩ : ∃ w, w = z - on ps k t := ⟨_, rfl⟩
      have hzw : z = vertex ps k + t * (vertex ps (k + 1) - vertex ps k) + w := by rw [hwd]; unfold on; ring
      have a1 : (w * (starRingEnd ℂ) ((1 - t : ℝ) * (vertex ps (k + 1) - vertex ps k))).re ≤ 0 := by
        refine foot fun s s0 s1 => ?_
        have := hmin k (t + s * (1 - t)) (by nlinarith) (by nlinarith)
        rw [← hwd] at this
        refine this.trans (le_of_eq ?_)
        rw [hwd]; unfold on; congr 1; push_cast; ring
      have a2 : (w * (starRingEnd ℂ) ((-t : ℝ) * (vertex ps (k + 1) - vertex ps k))).re ≤ 0 := by
        refine foot fun s s0 s1 => ?_
        have := hmin k (t - s * t) (by nlinarith) (by nlinarith)
        rw [← hwd] at this
        refine this.trans (le_of_eq ?_)
        rw [hwd]; unfold on; congr 1; push_cast; ring
      rw [map_mul, Complex.conj_ofReal, mul_left_comm, Complex.re_ofReal_mul] at a1 a2
      have h3 : (w * (starRingEnd ℂ) (vertex ps (k + 1) - vertex ps k)).re = 0 := by
        apply le_antisymm
        · by_contra hneg
          push Not at hneg
          have := mul_pos (show 0 < 1 - t by linarith) hneg
          linarith
        · by_contra hneg
          push Not at hneg
          have := mul_pos_of_neg_of_neg (show -t < 0 by linarith) hneg
          linarith
      have hk := (hsound k).edge.1
      rw [← hwd] at hnear
      exact ⟨_, hrect k, by
        rw [hzw]
        exact rect_cover hd (norm_pos_iff.1 (lt_of_le_of_lt heps hk)) ht0 ht1 hnear h3⟩

/-! ### Nothing far away -/

theorem area_subset {l : List ℂ} {S : Set ℂ} (hS : Convex ℝ S) (h : ∀ y ∈ l, y ∈ S) : area l ⊆ S :=
  convexHull_min h hS

/-- A tangent of at most one at the end of a radius. -/
theorem tangent_norm {n : ℂ} (hn : ‖n‖ = 1) {t : ℝ} (h0 : 0 ≤ t) (h1 : t ≤ 1) (d : ℝ) :
    ‖(d : ℂ) * (n * (1 + I * t))‖ ≤ Real.sqrt 2 * |d| ∧ ‖(d : ℂ) * (n * (1 - I * t))‖ ≤ Real.sqrt 2 * |d| := by
  have key : ∀ s : ℝ, s ^ 2 ≤ 1 → ‖(1 + I * (s : ℂ))‖ ≤ Real.sqrt 2 := by
    intro s hs
    apply Real.le_sqrt_of_sq_le
    rw [← Complex.normSq_eq_norm_sq, normSq_apply]
    simp
    nlinarith
  constructor
  · rw [norm_mul, norm_mul, hn, one_mul, Complex.norm_real, Real.norm_eq_abs, mul_comm]
    exact mul_le_mul_of_nonneg_right (key t (by nlinarith)) (abs_nonneg _)
  · rw [norm_mul, norm_mul, hn, one_mul, Complex.norm_real, Real.norm_eq_abs, mul_comm]
    have := key (-t) (by nlinarith)
    rw [show (1 : ℂ) - I * t = 1 + I * ((-t : ℝ) : ℂ) by push_cast; ring]
    exact mul_le_mul_of_nonneg_right this (abs_nonneg _)

theorem one_le_sqrt_two : (1 : ℝ) ≤ Real.sqrt 2 := Real.one_le_sqrt.2 (by norm_num)

/-- Where the lines of two edges do not cross, none is found. -/
theorem crossing_none {q1 q2 r1 r2 : ℂ} {eps : ℝ} (h : ‖q1 - q2‖ ≤ eps ∨ ‖r1 - r2‖ ≤ eps ∨
    |(q2.im - q1.im) * (r1.re - r2.re) - (r2.im - r1.im) * (q1.re - q2.re)| < max 1e-12 |eps|) : crossing q1 q2 r1 r2 eps = none := by
  unfold crossing
  split
  · rfl
  · next h1 =>
    push Not at h1
    rcases h with h | h | h
    · linarith [h1.1]
    · linarith [h1.2]
    · rw [lt_max_iff] at h
      dsimp only
      rw [if_pos h]

theorem unit_le (p : ℂ) : ‖p / (‖p‖ : ℝ)‖ ≤ 1 := by
  rw [norm_div, Complex.norm_real, norm_norm]; exact div_self_le_one _

/-- The piece at a corner is within the padding times the square root of two. -/
theorem corner_near {eps d : ℝ} {a b c : ℂ} (heps : 0 ≤ eps) (hd : d ≠ 0) : ∀ y ∈ area (corner eps d a b c), ‖y - b‖ ≤ Real.sqrt 2 * |d| := by
  have ball : ∀ l : List ℂ, (∀ y ∈ l, ‖y - b‖ ≤ Real.sqrt 2 * |d|) → ∀ y ∈ area l, ‖y - b‖ ≤ Real.sqrt 2 * |d| := by
    intro l hl y hy
    have := area_subset (convex_closedBall b (Real.sqrt 2 * |d|)) (fun y hy => by
      rw [Metric.mem_closedBall, dist_eq_norm]; exact hl y hy) hy
    rwa [Metric.mem_closedBall, dist_eq_norm] at this
  have hroot : |d| ≤ Real.sqrt 2 * |d| := le_mul_of_one_le_left (abs_nonneg _) one_le_sqrt_two
  have h00 : (0 : ℝ) ≤ Real.sqrt 2 * |d| := by positivity
  have side : ∀ p : ℂ, ‖p‖ ≤ 1 → ‖p * ((|d| : ℝ) : ℂ) + b - b‖ ≤ Real.sqrt 2 * |d| := by
    intro p hp
    rw [add_sub_cancel_right, norm_mul, Complex.norm_real, Real.norm_eq_abs, abs_abs]
    exact (mul_le_of_le_one_left (abs_nonneg _) hp).trans hroot
  have r1 : ∀ p : ℂ, ‖-I * (p / (‖p‖ : ℝ))‖ ≤ 1 := fun p => by rw [norm_mul, norm_neg, norm_I, one_mul]; exact unit_le p
  have r2 : ∀ p : ℂ, ‖I * (p / (‖p‖ : ℝ))‖ ≤ 1 := fun p => by rw [norm_mul, norm_I, one_mul]; exact unit_le p
  by_cases hs : eps < ‖b - a‖ ∧ eps < ‖c - b‖ ∧ max 1e-12 |eps| ≤ |((starRingEnd ℂ) (b - a) * (c - b)).im|
  · obtain ⟨he1, he2, hx⟩ := hs
    obtain ⟨l1, l2, th, u, v, hl1, hl2, hun, hvu, ht1, ht2, rfl, rfl⟩ :=
      corner_form (norm_pos_iff.1 (lt_of_le_of_lt heps he1)) (norm_pos_iff.1 (lt_of_le_of_lt heps he2))
    rw [← hl1] at he1
    rw [← hl2] at he2
    have e1 : b - (b - l1 * u) = l1 * u := by ring
    have e2 : b + l2 * v - b = l2 * v := by ring
    rw [e1, e2] at hx
    have e3 : ((starRingEnd ℂ) ((l1 : ℂ) * u) * (l2 * v)).im = l1 * l2 * Real.sin th := by
      rw [hvu, map_mul, Complex.conj_ofReal, show (l1 : ℂ) * (starRingEnd ℂ) u * (l2 * (u * cis th)) =
        ((l1 * l2 : ℝ) : ℂ) * cis th * ((starRingEnd ℂ) u * u) by push_cast; ring, conj_unit hun, mul_one, Complex.im_ofReal_mul]
      rfl
    rw [e3] at hx
    have hsin : Real.sin th ≠ 0 := by
      intro e
      rw [e, mul_zero, abs_zero] at hx
      have := le_trans (le_max_left _ _) hx
      norm_num at this
    obtain ⟨n, x, hn, hx0, hx1, hl, -⟩ := corner_list (b := b) heps hd he1 he2 hun hvu ht1
      (lt_of_le_of_ne ht2 fun e => hsin (by rw [e]; exact Real.sin_pi)) (fun e => hsin (by rw [e]; exact Real.sin_zero)) hx
    rw [hl]
    apply ball
    have hk : ‖n * cis x‖ = 1 := by rw [norm_mul, hn, cis_norm, mul_one]
    have hc2 : 0 < Real.cos (x / 2) := Real.cos_pos_of_mem_Ioo ⟨by linarith [Real.pi_pos], by linarith⟩
    have ht2' : 0 < Real.tan (x / 2) := Real.tan_pos_of_pos_of_lt_pi_div_two (by linarith) (by linarith)
    have hd' := abs_pos.2 hd
    have tanle : ∀ y : ℝ, 0 < y → y < Real.pi / 4 → 0 ≤ Real.tan y ∧ Real.tan y ≤ 1 := by
      intro y y0 y1
      refine ⟨(Real.tan_pos_of_pos_of_lt_pi_div_two y0 (by linarith)).le, ?_⟩
      rw [← Real.tan_pi_div_four]
      exact (Real.tan_lt_tan_of_lt_of_lt_pi_div_two (by linarith) (by linarith) y1).le
    have hIn : ‖I * n‖ = 1 := by rw [norm_mul, norm_I, hn, mul_one]
    have hIk : ‖-I * (n * cis x)‖ = 1 := by rw [norm_mul, norm_neg, norm_I, hk, mul_one]
    unfold wedge
    dsimp only
    split
    · have e1 : normalize (b + (|d| : ℝ) * (n * (1 + I * (Real.tan (x / 2) : ℝ))) - (n * (|d| : ℝ) + b)) = I * n := by
        rw [show b + (|d| : ℝ) * (n * (1 + I * (Real.tan (x / 2) : ℝ))) - (n * (|d| : ℝ) + b) =
          ((|d| * Real.tan (x / 2) : ℝ) : ℂ) * (I * n) by push_cast; ring]
        exact normalize_pos hIn (by positivity)
      have e2 : normalize (b + (|d| : ℝ) * (n * (1 + I * (Real.tan (x / 2) : ℝ))) - (n * cis x * (|d| : ℝ) + b)) = -I * (n * cis x) := by
        rw [show b + (|d| : ℝ) * (n * (1 + I * (Real.tan (x / 2) : ℝ))) - (n * cis x * (|d| : ℝ) + b) =
          ((|d| * Real.tan (x / 2) : ℝ) : ℂ) * (-I * (n * cis x)) by
            rw [← tangent_eq hc2.ne']; push_cast; ring]
        exact normalize_pos hIk (by positivity)
      rw [e1, e2]
      obtain ⟨t0, t1⟩ := tanle (x / 4) (by linarith) (by linarith)
      intro y hy
      simp only [List.mem_cons, List.not_mem_nil, or_false] at hy
      rcases hy with rfl | rfl | rfl | rfl | rfl
      · rw [sub_self, norm_zero]; exact h00
      · exact side n hn.le
      · have := (tangent_norm hn t0 t1 |d|).1
        rw [abs_abs] at this
        refine le_trans (le_of_eq ?_) this
        congr 1; rw [Complex.ofReal_mul]; ring
      · have := (tangent_norm hk t0 t1 |d|).2
        rw [abs_abs] at this
        refine le_trans (le_of_eq ?_) this
        congr 1; rw [Complex.ofReal_mul]; ring
      · exact side _ hk.le
    · next hg =>
      push Not at hg
      obtain ⟨t0, t1⟩ := tanle (x / 2) (by linarith) (by linarith [Real.pi_pos])
      intro y hy
      simp only [List.mem_cons, List.not_mem_nil, or_false] at hy
      rcases hy with rfl | rfl | rfl | rfl
      · rw [sub_self, norm_zero]; exact h00
      · exact side n hn.le
      · have := (tangent_norm hn t0 t1 |d|).1
        rw [abs_abs] at this
        rw [add_sub_cancel_left]
        exact this
      · exact side _ hk.le
  · have hcr : ‖b - a‖ ≤ eps ∨ ‖c - b‖ ≤ eps ∨ |((starRingEnd ℂ) (b - a) * (c - b)).im| < max 1e-12 |eps| := by
      by_contra hno
      push Not at hno
      exact hs ⟨hno.1, hno.2.1, hno.2.2⟩
    apply ball
    unfold corner
    dsimp only
    rw [normalize_right, normalize_left, normalize_right, normalize_left]
    split
    · rw [crossing_none (by
        rw [add_sub_add_left_eq_sub, add_sub_add_left_eq_sub, ← norm_neg (a - b), neg_sub]
        rcases hcr with h | h | h
        · exact .inr (.inl h)
        · exact .inl h
        · refine .inr (.inr (lt_of_le_of_lt (le_of_eq ?_) h))
          congr 1
          simp only [Complex.add_im, Complex.add_re, Complex.sub_im, Complex.sub_re, Complex.mul_im, Complex.conj_re, Complex.conj_im]
          ring)]
      intro y hy
      simp only [wedge, List.mem_cons, List.not_mem_nil, or_false] at hy
      rcases hy with rfl | rfl | rfl
      · rw [sub_self, norm_zero]; exact h00
      · exact side _ (r2 _)
      · exact side _ (r2 _)
    · rw [crossing_none (by
        rw [add_sub_add_left_eq_sub, add_sub_add_left_eq_sub, ← norm_neg (a - b), neg_sub]
        rcases hcr with h | h | h
        · exact .inr (.inl h)
        · exact .inl h
        · refine .inr (.inr (lt_of_le_of_lt (le_of_eq ?_) h))
          congr 1
          simp only [Complex.add_im, Complex.add_re, Complex.sub_im, Complex.sub_re, Complex.mul_im, Complex.conj_re, Complex.conj_im]
          ring)]
      intro y hy
      simp only [wedge, List.mem_cons, List.not_mem_nil, or_false] at hy
      rcases hy with rfl | rfl | rfl
      · rw [sub_self, norm_zero]; exact h00
      · exact side _ (r1 _)
      · exact side _ (r1 _)

open Pointwise in
/-- The piece along an edge is within the padding and the tolerance of that edge. -/
theorem rect_near {eps d : ℝ} {b c : ℂ} : ∀ y ∈ area (rect eps d b c),
    ∃ t : ℝ, 0 ≤ t ∧ t ≤ 1 ∧ ‖y - (b + t * (c - b))‖ ≤ |d| + fuzz eps := by
  have hf := (fuzz_pos eps).le
  have hS : Convex ℝ (segment ℝ b c + Metric.closedBall (0 : ℂ) (|d| + fuzz eps)) :=
    (convex_segment b c).add (convex_closedBall 0 _)
  have r1 : ∀ p : ℂ, ‖-I * (p / (‖p‖ : ℝ))‖ ≤ 1 := fun p => by rw [norm_mul, norm_neg, norm_I, one_mul]; exact unit_le p
  have r2 : ∀ p : ℂ, ‖I * (p / (‖p‖ : ℝ))‖ ≤ 1 := fun p => by rw [norm_mul, norm_I, one_mul]; exact unit_le p
  have key : ∀ m n : ℂ, ‖m‖ ≤ 1 → ‖n‖ ≤ 1 → ‖m * ((|d| : ℝ) : ℂ) + n * ((fuzz eps : ℝ) : ℂ)‖ ≤ |d| + fuzz eps := by
    intro m n hm hn
    refine (norm_add_le _ _).trans (add_le_add ?_ ?_)
    · rw [norm_mul, Complex.norm_real, Real.norm_eq_abs, abs_abs]; exact mul_le_of_le_one_left (abs_nonneg _) hm
    · rw [norm_mul, Complex.norm_real, Real.norm_of_nonneg hf]; exact mul_le_of_le_one_left hf hn
  intro y hy
  have hmem := area_subset hS (l := rect eps d b c) (by
    unfold rect
    dsimp only
    rw [normalize_right, normalize_left, normalize_eq, normalize_eq]
    intro y hy
    rw [Set.mem_add]
    simp only [List.mem_cons, List.not_mem_nil, or_false] at hy
    rcases hy with rfl | rfl | rfl | rfl
    · exact ⟨b, left_mem_segment ℝ b c, _, by rw [mem_closedBall_zero_iff]; exact key _ _ (r1 (c - b)) (unit_le (b - c)), by ring⟩
    · exact ⟨c, right_mem_segment ℝ b c, _, by rw [mem_closedBall_zero_iff]; exact key _ _ (r1 (c - b)) (unit_le (c - b)), by ring⟩
    · exact ⟨c, right_mem_segment ℝ b c, _, by rw [mem_closedBall_zero_iff]; exact key _ _ (r2 (c - b)) (unit_le (c - b)), by ring⟩
    · exact ⟨b, left_mem_segment ℝ b c, _, by rw [mem_closedBall_zero_iff]; exact key _ _ (r2 (c - b)) (unit_le (b - c)), by ring⟩) hy
  rw [Set.mem_add] at hmem
  obtain ⟨m, hm, e, he, rfl⟩ := hmem
  rw [segment_eq_image'] at hm
  obtain ⟨t, ⟨t0, t1⟩, rfl⟩ := hm
  refine ⟨t, t0, t1, ?_⟩
  rw [mem_closedBall_zero_iff] at he
  refine le_trans (le_of_eq ?_) he
  congr 1
  simp only [Complex.real_smul]
  ring

/-- **C197.**  No piece around a polygon reaches further from its boundary than the padding times the square root of two, or
than the padding and the tolerance. -/
theorem C197_not_far (eps d : ℝ) (ps : List ℂ) (heps : 0 ≤ eps) (hd : d ≠ 0) (p : List ℂ) (hp : p ∈ pieces eps d ps) (z : ℂ)
    (hz : z ∈ area p) : ∃ (k : ℕ) (t : ℝ), 0 ≤ t ∧ t ≤ 1 ∧
      ‖z - (vertex ps k + t * (vertex ps (k + 1) - vertex ps k))‖ ≤ max (Real.sqrt 2 * |d|) (|d| + fuzz eps) := by
  unfold pieces at hp
  rw [List.mem_flatMap] at hp
  obtain ⟨n, -, hp⟩ := hp
  simp only [List.mem_cons, List.not_mem_nil, or_false] at hp
  rcases hp with rfl | rfl
  · obtain ⟨t, t0, t1, h⟩ := rect_near z hz
    exact ⟨n + 1, t, t0, t1, h.trans (le_max_right _ _)⟩
  · refine ⟨n + 1, 0, le_rfl, zero_le_one, ?_⟩
    rw [Complex.ofReal_zero, zero_mul, add_zero]
    exact (corner_near heps hd z hz).trans (le_max_left _ _)

/-- **C197.**  What is merged when zones are padded covers each zone and everything nearer to the boundary of a zone than its
padding. -/
theorem C197_zones (eps : ℝ) (zs : List (List ℂ × ℝ)) (heps : 0 < eps) (ps : List ℂ) (d : ℝ) (hzs : (ps, d) ∈ zs) :
    ps ∈ toMerge eps zs ∧
    (eps ≤ |d| → (∀ k, Sound eps (vertex ps k) (vertex ps (k + 1)) (vertex ps (k + 2))) → ps ≠ [] → ∀ z : ℂ,
      (∃ (k : ℕ) (t : ℝ), 0 ≤ t ∧ t ≤ 1 ∧ ‖z - (vertex ps k + t * (vertex ps (k + 1) - vertex ps k))‖ ≤ |d|) →
      ∃ p ∈ toMerge eps zs, z ∈ area p) := by
  constructor
  · exact List.mem_flatMap.2 ⟨_, hzs, List.mem_cons_self⟩
  · intro hd hsound hne z hz
    have hd0 : d ≠ 0 := by rintro rfl; rw [abs_zero] at hd; linarith
    obtain ⟨p, hp, h⟩ := C197_covered eps d ps heps.le hd0 hsound hne z hz
    refine ⟨p, List.mem_flatMap.2 ⟨_, hzs, List.mem_cons_of_mem _ ?_⟩, h⟩
    rw [if_neg (by push Not; exact hd)]
    exact hp

/-- **C197.**  What is merged when zones are padded is a zone, or near the boundary of one. -/
theorem C197_zones_only (eps : ℝ) (zs : List (List ℂ × ℝ)) (heps : 0 < eps) (p : List ℂ) (hp : p ∈ toMerge eps zs) :
    ∃ ps d, (ps, d) ∈ zs ∧ (p = ps ∨ eps ≤ |d| ∧ ∀ z ∈ area p, ∃ (k : ℕ) (t : ℝ), 0 ≤ t ∧ t ≤ 1 ∧
      ‖z - (vertex ps k + t * (vertex ps (k + 1) - vertex ps k))‖ ≤ max (Real.sqrt 2 * |d|) (|d| + fuzz eps)) := by
  unfold toMerge at hp
  rw [List.mem_flatMap] at hp
  obtain ⟨⟨ps, d⟩, hz, hp⟩ := hp
  refine ⟨ps, d, hz, ?_⟩
  rcases List.mem_cons.1 hp with rfl | hp
  · exact .inl rfl
  · by_cases hd : |d| < eps
    · rw [if_pos hd] at hp; exact absurd hp List.not_mem_nil
    · rw [if_neg hd] at hp
      push Not at hd
      have hd0 : d ≠ 0 := by rintro rfl; rw [abs_zero] at hd; linarith
      exact .inr ⟨hd, fun z h => C197_not_far eps d ps heps.le hd0 p hp z h⟩

/-! ### A square of ten metres -/

/-- The corners of a square of ten metres, counted counterclockwise. -/
def square : List ℂ := [0, 10, 10 + 10 * I, 10 * I]

theorem square_corner {a b c : ℂ} (h1 : normSq (b - a) = 100) (h2 : normSq (c - b) = 100)
    (h3 : ((starRingEnd ℂ) (b - a) * (c - b)).im = 100) : Sound 1e-8 a b c := by
  have key : ∀ w : ℂ, normSq w = 100 → (1e-8 : ℝ) < ‖w‖ := by
    intro w hw
    rw [Complex.normSq_eq_norm_sq] at hw
    nlinarith [norm_nonneg w]
  exact ⟨⟨key _ h1, key _ h2⟩, .inl (by rw [h3]; norm_num)⟩

theorem square_sound (k : ℕ) : Sound 1e-8 (vertex square k) (vertex square (k + 1)) (vertex square (k + 2)) := by
  have h : k % 4 = 0 ∨ k % 4 = 1 ∨ k % 4 = 2 ∨ k % 4 = 3 := by omega
  have hl : square.length = 4 := rfl
  unfold vertex
  rw [hl]
  rcases h with h | h | h | h
  · rw [show (k + 1) % 4 = 1 by omega, show (k + 2) % 4 = 2 by omega, h]
    apply square_corner <;> norm_num [square, normSq_apply]
  · rw [show (k + 1) % 4 = 2 by omega, show (k + 2) % 4 = 3 by omega, h]
    apply square_corner <;> norm_num [square, normSq_apply]
  · rw [show (k + 1) % 4 = 3 by omega, show (k + 2) % 4 = 0 by omega, h]
    apply square_corner <;> norm_num [square, normSq_apply]
  · rw [show (k + 1) % 4 = 0 by omega, show (k + 2) % 4 = 1 by omega, h]
    apply square_corner <;> norm_num [square, normSq_apply]

/-- The place three metres left of and four metres below the first corner is covered by a padding of five metres. -/
example : ∃ p ∈ pieces 1e-8 5 square, (-3 - 4 * I : ℂ) ∈ area p := by
  refine C197_covered 1e-8 5 square (by norm_num) (by norm_num) square_sound (by simp [square]) _
    ⟨0, 0, le_rfl, zero_le_one, ?_⟩
  rw [Complex.ofReal_zero, zero_mul, add_zero, show vertex square 0 = 0 from rfl, sub_zero]
  refine (sq_le_sq₀ (norm_nonneg _) (abs_nonneg _)).1 ?_
  rw [← Complex.normSq_eq_norm_sq, normSq_apply]
  norm_num

/-- A second zone does not take it away. -/
example (other : List ℂ) : square ∈ toMerge 1e-8 [(other, 0), (square, 5)] ∧
    ∃ p ∈ toMerge 1e-8 [(other, 0), (square, 5)], (5 - 5 * I : ℂ) ∈ area p := by
  obtain ⟨h1, h2⟩ := C197_zones 1e-8 [(other, 0), (square, 5)] (by norm_num) square 5 (by simp)
  refine ⟨h1, h2 (by norm_num) square_sound (by simp [square]) _ ⟨0, 1 / 2, by norm_num, by norm_num, ?_⟩⟩
  rw [show vertex square 0 = 0 from rfl, show vertex square (0 + 1) = 10 from rfl]
  refine (sq_le_sq₀ (norm_nonneg _) (abs_nonneg _)).1 ?_
  rw [← Complex.normSq_eq_norm_sq, normSq_apply]
  norm_num

/-- Every piece around the square stays within eight metres. -/
example (p : List ℂ) (hp : p ∈ pieces 1e-8 5 square) (z : ℂ) (hz : z ∈ area p) : ∃ (k : ℕ) (t : ℝ), 0 ≤ t ∧ t ≤ 1 ∧
    ‖z - (vertex square k + t * (vertex square (k + 1) - vertex square k))‖ ≤ 8 := by
  obtain ⟨k, t, h0, h1, h⟩ := C197_not_far 1e-8 5 square (by norm_num) (by norm_num) p hp z hz
  refine ⟨k, t, h0, h1, h.trans (max_le ?_ ?_)⟩
  · rw [abs_of_pos (by norm_num : (0 : ℝ) < 5)]
    have : Real.sqrt 2 ≤ 8 / 5 := Real.sqrt_le_iff.2 ⟨by norm_num, by norm_num⟩
    linarith
  · unfold fuzz
    rw [abs_of_pos (by norm_num : (0 : ℝ) < 5), abs_of_pos (by norm_num : (0 : ℝ) < 1e-8)]
    split <;> norm_num

end Verif.Visilib.Padding
