import Verif.Dpss.Offset
import Verif.Dpss.Simplify

/-!
# What is removed (C166) and where waypoints are (C167)
-/

namespace Verif.Dpss

open Complex
open Verif.Escort (dot normSq_def swathSide_spec intersectPoint side swathSide)

/-! ### Removing segments without length -/

/-- What is tested of two points in a row: the second one is not where both coordinates are the `y` of the first. -/
def Apart (q r : Pt) : Prop := 1e-10 ≤ ‖r.at_ - (⟨q.at_.im, q.at_.im⟩ : ℂ)‖

theorem apart_iff (q r : Pt) : ¬ ‖(⟨r.at_.re - q.at_.im, r.at_.im - q.at_.im⟩ : ℂ)‖ < 1e-10 ↔ Apart q r := by
  unfold Apart
  rw [not_lt]
  exact Iff.rfl

theorem nonZero_sublist : ∀ (q : Pt) (l : List Pt), (nonZero q l).Sublist l
  | _, [] => by simp [nonZero]
  | q, r :: l => by
      rw [nonZero]
      split
      · exact (nonZero_sublist q l).cons r
      · exact (nonZero_sublist r l).cons_cons r

theorem nonZero_chain : ∀ (q : Pt) (l : List Pt), (q :: nonZero q l).IsChain Apart
  | _, [] => by simp [nonZero]
  | q, r :: l => by
      rw [nonZero]
      split
      · exact nonZero_chain q l
      · rename_i h
        exact List.isChain_cons_cons.2 ⟨(apart_iff q r).1 h, nonZero_chain r l⟩

theorem nonZero_id : ∀ (q : Pt) (l : List Pt), (q :: l).IsChain Apart → nonZero q l = l
  | _, [], _ => by simp [nonZero]
  | q, r :: l, h => by
      obtain ⟨h1, h2⟩ := List.isChain_cons_cons.1 h
      rw [nonZero, if_neg ((apart_iff q r).2 h1), nonZero_id r l h2]

/-- **C166.**  What is left are points in their order, the first among them; a point is gone only if it was where both coordinates
are the second one of the point left before it, and no such point is left. -/
theorem C166_removed_partial (l : List Pt) :
    (removeZero l).Sublist l ∧ (removeZero l).head? = l.head? ∧ (removeZero l).IsChain Apart ∧
    (l.IsChain Apart → removeZero l = l) := by
  cases l with
  | nil => exact ⟨by simp [removeZero], rfl, by simp [removeZero], fun _ => rfl⟩
  | cons q l =>
      refine ⟨(nonZero_sublist q l).cons_cons q, rfl, nonZero_chain q l, fun h => ?_⟩
      rw [removeZero, nonZero_id q l h]

/-- **C166, violated.**  A point given twice stays twice, unless its coordinates are the same. -/
theorem C166_twice_violated {p : Pt} (h : 1e-10 ≤ |p.at_.re - p.at_.im|) : removeZero [p, p] = [p, p] := by
  apply (C166_removed_partial [p, p]).2.2.2
  refine List.isChain_cons_cons.2 ⟨?_, by simp⟩
  refine h.trans ?_
  have := Complex.abs_re_le_norm (p.at_ - (⟨p.at_.im, p.at_.im⟩ : ℂ))
  simpa using this

/-- **C166, violated.**  A point is removed though it is as far from the one before as one likes. -/
theorem C166_far_violated (x y z z' : ℝ) :
    removeZero [⟨⟨x, y⟩, z, false⟩, ⟨⟨y, y⟩, z', false⟩] = [⟨⟨x, y⟩, z, false⟩] ∧ ‖(⟨y, y⟩ : ℂ) - ⟨x, y⟩‖ = |y - x| := by
  constructor
  · rw [removeZero, nonZero, if_pos, nonZero]
    have e : (⟨y - y, y - y⟩ : ℂ) = 0 := by apply Complex.ext <;> simp
    simp only
    rw [e, norm_zero]; norm_num
  · have e : (⟨y, y⟩ : ℂ) - ⟨x, y⟩ = ((y - x : ℝ) : ℂ) := by apply Complex.ext <;> simp
    rw [e, norm_real, Real.norm_eq_abs]

/-- **C166, violated.**  So a line search of a road as long as one likes may get a plan of one point, with which it offers
nothing. -/
theorem C166_plan_violated (k : Look) (road : List ℂ) (x y z z' : ℝ) :
    offsetForward k road [⟨⟨x, y⟩, z, false⟩, ⟨⟨y, y⟩, z', false⟩] = .ok [⟨⟨x, y⟩, z, false⟩] := by
  unfold offsetForward
  rw [(C166_far_violated x y z z').1]

/-! ### Turning -/

theorem rotate_eq (th : ℝ) (v : ℂ) : rotate th v = v * exp (th * I) := by
  rw [exp_mul_I]
  apply Complex.ext
  · simp [rotate, ← ofReal_cos, ← ofReal_sin]; ring
  · simp [rotate, ← ofReal_cos, ← ofReal_sin]; ring

theorem rotate_norm (th : ℝ) (v : ℂ) : ‖rotate th v‖ = ‖v‖ := by
  rw [rotate_eq, norm_mul, norm_exp_ofReal_mul_I, mul_one]

/-- The direction from one point to another. -/
noncomputable def course (a b : ℂ) : ℂ := (b - a) / (‖b - a‖ : ℂ)

theorem beside_at {a b : Pt} (h : 1e-10 < ‖b.at_ - a.at_‖) (p : Pt) (th d : ℝ) :
    (beside a b p th d).at_ = p.at_ + d * course a.at_ b.at_ * exp (th * I) := by
  unfold beside course
  simp only
  rw [rotate_norm, if_pos h, rotate_eq]
  push_cast
  ring

theorem exp_pi_sub (x : ℝ) : exp (((Real.pi - x : ℝ) : ℂ) * I) = -exp (-(x * I)) := by
  push_cast
  rw [sub_mul, sub_eq_add_neg, Complex.exp_add, exp_pi_mul_I]
  ring

/-- At an end of the road: looking from the waypoint to the road is looking along the road, turned back by the azimuth. -/
theorem beside_end {a b : Pt} (h : 1e-10 < ‖b.at_ - a.at_‖) (k : Look) (p : Pt) :
    p.at_ - (beside a b p (Real.pi - k.azimuth) (reach k false)).at_
      = reach k false * (course a.at_ b.at_ * exp (-(k.azimuth * I))) := by
  rw [beside_at h, exp_pi_sub]
  ring

/-- Half way between two directions. -/
theorem beside_inner {a b c : Pt} (h : 1e-10 < ‖b.at_ - a.at_‖) (k : Look) :
    (beside a b b ((Real.pi - (separation a.at_ b.at_ c.at_).1) / 2) (reach k true)).at_ - b.at_
      = reach k true * (course a.at_ b.at_ * exp (-(((separation a.at_ b.at_ c.at_).1 / 2 : ℝ) * I)) * I) := by
  rw [beside_at h]
  have e : (((Real.pi - (separation a.at_ b.at_ c.at_).1) / 2 : ℝ) : ℂ) * I
      = (Real.pi / 2 : ℂ) * I + -(((separation a.at_ b.at_ c.at_).1 / 2 : ℝ) * I) := by push_cast; ring
  rw [e, Complex.exp_add, exp_pi_div_two_mul_I]
  ring

theorem course_norm {a b : ℂ} (h : a ≠ b) : ‖course a b‖ = 1 := by
  have h' : ‖b - a‖ ≠ 0 := norm_ne_zero_iff.2 (sub_ne_zero.2 (Ne.symm h))
  unfold course
  rw [norm_div, norm_real, norm_norm, div_self h']

theorem course_arg {a b : ℂ} (h : a ≠ b) : course a b = exp (arg (b - a) * I) := by
  have h' : (‖b - a‖ : ℂ) ≠ 0 := by
    rw [Ne, ofReal_eq_zero]; exact norm_ne_zero_iff.2 (sub_ne_zero.2 (Ne.symm h))
  unfold course
  rw [div_eq_iff h', mul_comm, norm_mul_exp_arg_mul_I]

/-- The angle of a corner turns one direction into the other. -/
theorem separation_course {a b c : ℂ} (h1 : 1e-6 ≤ ‖b - a‖) (h2 : 1e-6 ≤ ‖c - b‖) :
    course b c = course a b * exp (-((separation a b c).1 * I)) := by
  have n1 : a ≠ b := by rintro rfl; norm_num at h1
  have n2 : b ≠ c := by rintro rfl; norm_num at h2
  rw [course_arg n1, course_arg n2, ← Complex.exp_add]
  have key : ∃ n : ℤ, (separation a b c).1 = arg (b - a) - arg (c - b) + n * (2 * Real.pi) := by
    unfold separation
    simp only
    rw [if_neg (not_lt.2 h1), if_neg (not_lt.2 h2)]
    simp only
    by_cases hA : arg (b - a) - arg (c - b) < -Real.pi
    · rw [if_pos hA]
      by_cases hB : Real.pi < arg (b - a) - arg (c - b) + 2 * Real.pi
      · rw [if_pos hB]; exact ⟨0, by push_cast; ring⟩
      · rw [if_neg hB]; exact ⟨1, by push_cast; ring⟩
    · rw [if_neg hA]
      by_cases hB : Real.pi < arg (b - a) - arg (c - b)
      · rw [if_pos hB]; exact ⟨-1, by push_cast; ring⟩
      · rw [if_neg hB]; exact ⟨0, by push_cast; ring⟩
  obtain ⟨n, hn⟩ := key
  rw [hn, Complex.exp_eq_exp_iff_exists_int]
  exact ⟨n, by push_cast; ring⟩

theorem separation_range (a b c : ℂ) : |(separation a b c).1| ≤ Real.pi := by
  have hp := Real.pi_pos
  unfold separation
  simp only
  split
  · simpa using hp.le
  · split
    · simpa using hp.le
    · simp only
      have a1 := Complex.neg_pi_lt_arg (b - a)
      have a2 := Complex.arg_le_pi (b - a)
      have a3 := Complex.neg_pi_lt_arg (c - b)
      have a4 := Complex.arg_le_pi (c - b)
      rw [abs_le]
      by_cases hA : arg (b - a) - arg (c - b) < -Real.pi
      · rw [if_pos hA]
        by_cases hB : Real.pi < arg (b - a) - arg (c - b) + 2 * Real.pi
        · rw [if_pos hB]; constructor <;> linarith
        · rw [if_neg hB]; constructor <;> linarith
      · rw [if_neg hA]
        by_cases hB : Real.pi < arg (b - a) - arg (c - b)
        · rw [if_pos hB]; constructor <;> linarith
        · rw [if_neg hB]; constructor <;> linarith

/-! ### The waypoints -/

/-- The looks from some waypoints to the points of the road that go with them. -/
noncomputable def looks (plan : List Pt) (r : ℂ) (road : List ℂ) : List (ℂ × ℂ) :=
  (plan.map (·.at_)).zip (stares (plan.map (·.at_)) r road)

theorem firstCross_none : ∀ (l : List (ℂ × ℂ)) (k : ℕ), firstCross k l = none ↔ l.IsChain fun r s => ¬ crosses r s
  | [], _ => by simp [firstCross]
  | [_], _ => by simp [firstCross]
  | r :: s :: l, k => by
      rw [firstCross, List.isChain_cons_cons]
      by_cases h : crosses r s
      · simp [h]
      · rw [if_neg h, firstCross_none (s :: l)]
        exact ⟨fun h' => ⟨h, h'⟩, fun h' => h'.2⟩

theorem firstCross_range : ∀ (l : List (ℂ × ℂ)) (k n : ℕ), firstCross k l = some n → k ≤ n ∧ n + 1 < k + l.length
  | [], _, _, h => by simp [firstCross] at h
  | [_], _, _, h => by simp [firstCross] at h
  | r :: s :: l, k, n, h => by
      rw [firstCross] at h
      by_cases hc : crosses r s
      · rw [if_pos hc] at h
        obtain rfl := Option.some.inj h
        simp
      · rw [if_neg hc] at h
        have := firstCross_range (s :: l) (k + 1) n h
        simp only [List.length_cons] at this ⊢
        omega

theorem merge_length : ∀ (k : ℕ) (l : List Pt), 1 ≤ k → k < l.length → (merge k l).length = l.length - 1
  | 0, _, h, _ => by omega
  | 1, [], _, h => by simp at h
  | 1, [_], _, h => by simp at h
  | 1, a :: b :: l, _, _ => by simp [merge]
  | k + 2, [], _, h => by simp at h
  | k + 2, a :: l, _, h => by
      have := merge_length (k + 1) l (by omega) (by simp only [List.length_cons] at h; omega)
      simp only [merge, List.length_cons, this] at h ⊢
      omega

theorem merge_last : ∀ (k : ℕ) (l : List Pt), 1 ≤ k → k + 1 < l.length → (merge k l).getLast? = l.getLast?
  | 0, _, h, _ => by omega
  | 1, [], _, h => by simp at h
  | 1, [_], _, h => by simp at h
  | 1, [_, _], _, h => by simp at h
  | 1, a :: b :: c :: l, _, _ => by simp [merge, List.getLast?_cons_cons]
  | k + 2, [], _, h => by simp at h
  | k + 2, a :: l, _, h => by
      have := merge_last (k + 1) l (by omega) (by simp only [List.length_cons] at h; omega)
      rw [merge, List.getLast?_cons, List.getLast?_cons, this]

theorem zip_le (plan : List Pt) (r : ℂ) (road : List ℂ) : (looks plan r road).length ≤ plan.length := by
  unfold looks
  rw [List.length_zip, List.length_map]
  exact min_le_left _ _

theorem cleanLoop_spec (r : ℂ) (road : List ℂ) : ∀ (n : ℕ) (l : List Pt), l.length = n + 2 →
    2 ≤ (cleanLoop r road n l).length ∧ (cleanLoop r road n l).length ≤ l.length ∧
    (cleanLoop r road n l).getLast? = l.getLast? ∧
    ((cleanLoop r road n l).length = 2 ∨ (looks (cleanLoop r road n l) r road).IsChain fun r s => ¬ crosses r s) ∧
    ((looks l r road).IsChain (fun r s => ¬ crosses r s) → cleanLoop r road n l = l)
  | 0, l, h => by
      refine ⟨by rw [cleanLoop, h], le_refl _, rfl, Or.inl (by rw [cleanLoop, h]), fun _ => rfl⟩
  | n + 1, l, h => by
      rw [cleanLoop]
      have hl := zip_le l r road
      unfold looks at hl
      cases hc : firstCross 1 ((l.map (·.at_)).zip (stares (l.map (·.at_)) r road)) with
      | none =>
          refine ⟨?_, le_refl _, rfl, Or.inr ((firstCross_none _ _).1 hc), fun _ => rfl⟩
          simp only; omega
      | some k =>
          obtain ⟨k1, k2⟩ := firstCross_range _ _ _ hc
          simp only
          have hk : 1 ≤ (if k = l.length - 1 then k - 1 else k) ∧ (if k = l.length - 1 then k - 1 else k) + 1 < l.length := by
            split <;> omega
          generalize (if k = l.length - 1 then k - 1 else k) = j at *
          have h1 := merge_length j l hk.1 (by omega)
          have h2 := merge_last j l hk.1 hk.2
          obtain ⟨i1, i2, i3, i4, -⟩ := cleanLoop_spec r road n (merge j l) (by omega)
          refine ⟨i1, by omega, i3.trans h2, i4, fun hn => ?_⟩
          have hn' := (firstCross_none _ 1).2 hn
          unfold looks at hn'
          rw [hn'] at hc
          simp at hc

/-- **C167.**  Cleaning up leaves at least two waypoints, the last of them as it was, and either two or ones whose looks do not
cross; waypoints whose looks do not cross stay. -/
theorem C167_clean {r : ℂ} {road : List ℂ} {l : List Pt} (hl : 2 ≤ l.length) :
    ∃ p, cleanUp (r :: road) l = .ok p ∧ 2 ≤ p.length ∧ p.length ≤ l.length ∧ p.getLast? = l.getLast? ∧
      (p.length = 2 ∨ (looks p r road).IsChain fun r s => ¬ crosses r s) ∧
      ((looks l r road).IsChain (fun r s => ¬ crosses r s) → p = l) :=
  ⟨_, rfl, cleanLoop_spec r road (l.length - 2) l (by omega)⟩

/-- **C167.**  Without a road the behaviour is undefined exactly if two waypoints are left to be moved. -/
theorem C167_undefined (k : Look) (road : List ℂ) (l : List Pt) :
    (offsetForward k road l = .ub ↔ road = [] ∧ 2 ≤ (removeZero l).length) ∧
    ∀ s, (offsetReverse k s road l = .ub ↔ road = [] ∧ 2 ≤ (removeZero l).length) := by
  unfold offsetForward offsetReverse cleanUp
  constructor
  · rcases road with _ | ⟨r, road⟩ <;> split <;> simp_all [Outcome.bind]
  · intro s
    rcases road with _ | ⟨r, road⟩ <;> split <;> simp_all [Outcome.bind]

/-- **C167.**  With a road there always is a plan. -/
theorem C167_total (k : Look) {road : List ℂ} (hr : road ≠ []) (l : List Pt) :
    (∃ p, offsetForward k road l = .ok p) ∧ ∀ s, ∃ p, offsetReverse k s road l = .ok p := by
  obtain ⟨r, road, rfl⟩ := List.exists_cons_of_ne_nil hr
  unfold offsetForward offsetReverse cleanUp
  constructor
  · split
    · exact ⟨_, rfl⟩
    · exact ⟨_, rfl⟩
    · exact ⟨_, rfl⟩
  · intro s
    split
    · exact ⟨_, rfl⟩
    · exact ⟨_, rfl⟩
    · exact ⟨_, rfl⟩

theorem besideFrom_length (k : Look) : ∀ (l : List Pt) (a : Pt), (besideFrom k a l).length = l.length
  | [], _ => rfl
  | [_], _ => rfl
  | b :: c :: l, a => by rw [besideFrom, List.length_cons, besideFrom_length k (c :: l) b]; rfl

theorem forwardRaw_length (k : Look) (l : List Pt) : (forwardRaw k l).length = l.length := by
  match l with
  | [] => rfl
  | [_] => rfl
  | a :: b :: l => rw [forwardRaw, List.length_cons, besideFrom_length]; rfl

theorem besideFrom_inner (k : Look) (a b c : Pt) (post : List Pt) : ∀ (pre : List Pt) (x : Pt),
    (besideFrom k x (pre ++ a :: b :: c :: post))[pre.length + 1]?
      = some (beside a b b ((Real.pi - (separation a.at_ b.at_ c.at_).1) / 2) (reach k true))
  | [], x => by simp [besideFrom]
  | [p], x => by simp [besideFrom]
  | p :: q :: pre, x => by
      have := besideFrom_inner k a b c post (q :: pre) p
      simp only [List.cons_append, besideFrom, List.length_cons, List.getElem?_cons_succ] at this ⊢
      exact this

theorem besideFrom_last (k : Look) (y z : Pt) : ∀ (pre : List Pt) (x : Pt),
    (besideFrom k x (pre ++ [y, z])).getLast? = some (beside y z z (Real.pi - k.azimuth) (reach k false))
  | [], x => by simp [besideFrom]
  | [p], x => by simp [besideFrom]
  | p :: q :: pre, x => by
      have := besideFrom_last k y z (q :: pre) p
      simp only [List.cons_append, besideFrom] at this ⊢
      rw [List.getLast?_cons, this]; rfl

/-- Which waypoint goes with which point: the first, an inner one and the last. -/
theorem forwardRaw_get (k : Look) :
    (∀ a b l, (forwardRaw k (a :: b :: l)).head? = some (beside a b a (Real.pi - k.azimuth) (reach k false))) ∧
    (∀ pre a b c post, (forwardRaw k (pre ++ a :: b :: c :: post))[pre.length + 1]?
      = some (beside a b b ((Real.pi - (separation a.at_ b.at_ c.at_).1) / 2) (reach k true))) ∧
    (∀ pre y z, (forwardRaw k (pre ++ [y, z])).getLast? = some (beside y z z (Real.pi - k.azimuth) (reach k false))) := by
  refine ⟨fun _ _ _ => rfl, ?_, ?_⟩
  · intro pre a b c post
    match pre with
    | [] => simp [forwardRaw, besideFrom]
    | [p] =>
        have := besideFrom_inner k a b c post [] p
        simpa [forwardRaw] using this
    | p :: q :: pre =>
        have := besideFrom_inner k a b c post (q :: pre) p
        simp only [List.cons_append, forwardRaw, List.length_cons, List.getElem?_cons_succ] at this ⊢
        exact this
  · intro pre y z
    match pre with
    | [] => simp [forwardRaw, besideFrom]
    | [p] =>
        have := besideFrom_last k y z [] p
        simp only [List.nil_append, List.cons_append, forwardRaw] at this ⊢
        rw [List.getLast?_cons, this]; rfl
    | p :: q :: pre =>
        have := besideFrom_last k y z (q :: pre) p
        simp only [List.cons_append, forwardRaw] at this ⊢
        rw [List.getLast?_cons, this]; rfl

/-- **C167.**  Unless looks cross or points are taken away there is one waypoint for every point of the plan. -/
theorem C167_all {k : Look} {r : ℂ} {road : List ℂ} {l : List Pt} (h : l.IsChain Apart) (hw : (forwardRaw k l).IsChain Apart)
    (hc : (looks (forwardRaw k l) r road).IsChain fun r s => ¬ crosses r s) :
    offsetForward k (r :: road) l = .ok (forwardRaw k l) := by
  unfold offsetForward
  rw [(C166_removed_partial l).2.2.2 h]
  match l with
  | [] => rfl
  | [_] => rfl
  | a :: b :: l =>
      simp only
      rw [(C166_removed_partial _).2.2.2 hw]
      have hl := forwardRaw_length k (a :: b :: l)
      obtain ⟨p, hp, -, -, -, -, he⟩ := C167_clean (r := r) (road := road) (l := forwardRaw k (a :: b :: l)) (by
        rw [hl]; simp)
      rw [hp, Outcome.bind_ok, he hc, (C166_removed_partial _).2.2.2 hw]

/-- How far a waypoint at an end is from the road. -/
theorem reach_far {k : Look} (h1 : 1 * (Real.pi / 180) ≤ k.elevation) (h2 : k.elevation ≤ 89 * (Real.pi / 180)) :
    reach k false * Real.tan k.elevation = k.altitude ∧ reach k true = reach k false * Real.sin k.azimuth := by
  have hp := Real.pi_pos
  have ht : 0 < Real.tan k.elevation := Real.tan_pos_of_pos_of_lt_pi_div_two (by linarith) (by linarith)
  unfold reach
  have hn : ¬ (k.elevation < 1 * (Real.pi / 180) ∨ 89 * (Real.pi / 180) < k.elevation) := by
    rintro (h | h) <;> linarith
  rw [if_neg hn, if_neg hn]
  exact ⟨div_mul_cancel₀ _ ht.ne', rfl⟩

/-- **C167.**  A road of one segment is flown from a waypoint for its first point to one for its second.  From each one the
point is seen at the elevation asked for, and in the direction of the segment turned back by the azimuth: in the
coordinates of the line searches, whose first is north and whose second is east, to the left. -/
theorem C167_segment_partial {k : Look} {r : ℂ} {road : List ℂ} {a b : Pt} (hab : Apart a b) (hl : 1e-10 < ‖b.at_ - a.at_‖)
    (h1 : 1 * (Real.pi / 180) ≤ k.elevation) (h2 : k.elevation ≤ 89 * (Real.pi / 180)) (h3 : 0 ≤ k.altitude)
    (hw : (forwardRaw k [a, b]).IsChain Apart) :
    ∃ v w, offsetForward k (r :: road) [a, b] = .ok [v, w] ∧
      (‖a.at_ - v.at_‖ * Real.tan k.elevation = k.altitude ∧ ‖b.at_ - w.at_‖ * Real.tan k.elevation = k.altitude) ∧
      a.at_ - v.at_ = ‖a.at_ - v.at_‖ * (course a.at_ b.at_ * exp (-(k.azimuth * I))) ∧
      b.at_ - w.at_ = ‖b.at_ - w.at_‖ * (course a.at_ b.at_ * exp (-(k.azimuth * I))) := by
  have hp := Real.pi_pos
  have ht : 0 < Real.tan k.elevation := Real.tan_pos_of_pos_of_lt_pi_div_two (by linarith) (by linarith)
  have hr := (reach_far h1 h2).1
  have hr0 : 0 ≤ reach k false := by
    by_contra hc
    push Not at hc
    nlinarith
  have hne : a.at_ ≠ b.at_ := by
    intro e; rw [e] at hl; norm_num at hl
  have hu : ‖course a.at_ b.at_ * exp (-(k.azimuth * I))‖ = 1 := by
    rw [norm_mul, course_norm hne, one_mul, ← neg_mul, ← ofReal_neg, norm_exp_ofReal_mul_I]
  have e : ∀ p : Pt, ‖p.at_ - (beside a b p (Real.pi - k.azimuth) (reach k false)).at_‖ = reach k false := by
    intro p
    rw [beside_end hl, norm_mul, hu, mul_one, norm_real, Real.norm_of_nonneg hr0]
  refine ⟨beside a b a (Real.pi - k.azimuth) (reach k false), beside a b b (Real.pi - k.azimuth) (reach k false), ?_, ⟨?_, ?_⟩,
    ?_, ?_⟩
  · unfold offsetForward
    rw [(C166_removed_partial [a, b]).2.2.2 (List.isChain_cons_cons.2 ⟨hab, by simp⟩)]
    simp only
    rw [(C166_removed_partial _).2.2.2 hw]
    simp only [forwardRaw, besideFrom, cleanUp, Outcome.bind_ok] at hw ⊢
    change Outcome.ok (removeZero [_, _]) = _
    rw [(C166_removed_partial _).2.2.2 hw]
  · rw [e, hr]
  · rw [e, hr]
  · rw [e]; exact beside_end hl k a
  · rw [e]; exact beside_end hl k b

/-- The distance of a point from the line through `p` in the direction `u`. -/
noncomputable def offLine (p u w : ℂ) : ℝ := |u.re * (w - p).im - u.im * (w - p).re|

theorem offLine_eq {p u w : ℂ} (hu : ‖u‖ = 1) (t : ℝ) : offLine p u w ≤ ‖w - (p + t * u)‖ ∧
    ∃ t : ℝ, offLine p u w = ‖w - (p + t * u)‖ := by
  have hu2 : u.re ^ 2 + u.im ^ 2 = 1 := by rw [← normSq_def, hu]; norm_num
  have key : ∀ t : ℝ, ‖w - (p + t * u)‖ ^ 2 = offLine p u w ^ 2 + (dot u (w - p) - t) ^ 2 := by
    intro t
    rw [normSq_def]
    unfold offLine dot
    rw [sq_abs]
    simp only [sub_re, sub_im, add_re, add_im, mul_re, mul_im, ofReal_re, ofReal_im]
    linear_combination (-(w.re - p.re) ^ 2 - (w.im - p.im) ^ 2 + t ^ 2) * hu2
  constructor
  · apply abs_le_of_sq_le_sq' _ (norm_nonneg _) |>.2
    rw [key]; nlinarith [sq_nonneg (dot u (w - p) - t)]
  · refine ⟨dot u (w - p), ?_⟩
    have := key (dot u (w - p))
    rw [sub_self] at this
    have h0 : 0 ≤ offLine p u w := abs_nonneg _
    exact ((pow_left_inj₀ (norm_nonneg _) h0 two_ne_zero).1 (by rw [this]; ring)).symm

theorem offLine_mul {p u w : ℂ} {s : ℝ} {z : ℂ} (hu : ‖u‖ = 1) (h : w - p = s * (u * z)) : offLine p u w = |s| * |z.im| := by
  have hu2 : u.re ^ 2 + u.im ^ 2 = 1 := by rw [← normSq_def, hu]; norm_num
  unfold offLine
  rw [h, ← abs_mul]
  congr 1
  simp only [mul_re, mul_im, ofReal_re, ofReal_im]
  linear_combination (s * z.im) * hu2

theorem bend {k : Look} {a b c : Pt} (h1 : 1e-6 ≤ ‖b.at_ - a.at_‖) (h2 : 1e-6 ≤ ‖c.at_ - b.at_‖) {beta : ℝ}
    (hb : beta = (separation a.at_ b.at_ c.at_).1) :
    let w := beside a b b ((Real.pi - beta) / 2) (reach k true)
    offLine b.at_ (course a.at_ b.at_) w.at_ = |reach k true| * Real.cos (beta / 2) ∧
    offLine b.at_ (course b.at_ c.at_) w.at_ = |reach k true| * Real.cos (beta / 2) ∧
    course b.at_ c.at_ = course a.at_ b.at_ * exp (-(beta * I)) ∧ ‖w.at_ - b.at_‖ = |reach k true| := by
  subst hb
  intro w
  set beta := (separation a.at_ b.at_ c.at_).1 with hbeta
  have hn : a.at_ ≠ b.at_ := by intro e; rw [e] at h1; norm_num at h1
  have hn2 : b.at_ ≠ c.at_ := by intro e; rw [e] at h2; norm_num at h2
  have hw : w.at_ - b.at_ = reach k true * (course a.at_ b.at_ * exp (-((beta / 2 : ℝ) * I)) * I) :=
    beside_inner (by norm_num at h1 ⊢; linarith) k
  have hc := separation_course h1 h2
  rw [← hbeta] at hc
  have hcos : 0 ≤ Real.cos (beta / 2) := by
    have := abs_le.1 (separation_range a.at_ b.at_ c.at_)
    rw [← hbeta] at this
    apply Real.cos_nonneg_of_neg_pi_div_two_le_of_le <;> linarith
  have im1 : ∀ x : ℝ, (exp (x * I) * I).im = Real.cos x := by
    intro x
    rw [exp_mul_I]
    simp [← ofReal_cos, ← ofReal_sin]
  refine ⟨?_, ?_, hc, ?_⟩
  · rw [offLine_mul (course_norm hn) (z := exp (((-(beta / 2) : ℝ) : ℂ) * I) * I) (by rw [hw]; push_cast; ring_nf), im1, Real.cos_neg,
      abs_of_nonneg hcos]
  · rw [offLine_mul (course_norm hn2) (z := exp (((beta / 2 : ℝ) : ℂ) * I) * I) (s := reach k true), im1, abs_of_nonneg hcos]
    rw [hw, hc]
    have : exp (-(((beta / 2 : ℝ) : ℂ) * I)) = exp (-(beta * I)) * exp (((beta / 2 : ℝ) : ℂ) * I) := by
      rw [← Complex.exp_add]; congr 1; push_cast; ring
    rw [this]
    ring
  · rw [hw, norm_mul, norm_mul, norm_mul, course_norm hn, norm_I, ← neg_mul, ← ofReal_neg, norm_exp_ofReal_mul_I, norm_real,
      Real.norm_eq_abs]
    ring

/-- **C167.**  At a bend of the plan by the angle `beta` the waypoint is as far from the one segment of the plan as from the other,
but nearer than asked for: by the cosine of half the angle. -/
theorem C167_bend_partial {k : Look} {r : ℂ} {road : List ℂ} {pre post : List Pt} {a b c : Pt}
    (h : (pre ++ a :: b :: c :: post).IsChain Apart) (hw : (forwardRaw k (pre ++ a :: b :: c :: post)).IsChain Apart)
    (hc : (looks (forwardRaw k (pre ++ a :: b :: c :: post)) r road).IsChain fun r s => ¬ crosses r s)
    (h1 : 1e-6 ≤ ‖b.at_ - a.at_‖) (h2 : 1e-6 ≤ ‖c.at_ - b.at_‖) (e1 : 1 * (Real.pi / 180) ≤ k.elevation)
    (e2 : k.elevation ≤ 89 * (Real.pi / 180)) :
    ∃ p w beta, offsetForward k (r :: road) (pre ++ a :: b :: c :: post) = .ok p ∧ p[pre.length + 1]? = some w ∧
      |beta| ≤ Real.pi ∧ course b.at_ c.at_ = course a.at_ b.at_ * exp (-(beta * I)) ∧
      offLine b.at_ (course a.at_ b.at_) w.at_ = |k.altitude / Real.tan k.elevation * Real.sin k.azimuth| * Real.cos (beta / 2) ∧
      offLine b.at_ (course b.at_ c.at_) w.at_ = |k.altitude / Real.tan k.elevation * Real.sin k.azimuth| * Real.cos (beta / 2) := by
  have hr : reach k true = k.altitude / Real.tan k.elevation * Real.sin k.azimuth := by
    unfold reach
    rw [if_neg (by rintro (h | h) <;> linarith)]
    rfl
  obtain ⟨b1, b2, b3, -⟩ := bend (k := k) h1 h2 rfl
  refine ⟨_, _, (separation a.at_ b.at_ c.at_).1, C167_all h hw hc, (forwardRaw_get k).2.1 pre a b c post, separation_range _ _ _, b3,
    ?_, ?_⟩
  · rw [b1, hr]
  · rw [b2, hr]

/-- **C167.**  From the first waypoint the first point of the plan, and from the last one the last, are seen in the direction of the
segment there turned back by the azimuth, and from as far as the elevation needs. -/
theorem C167_ends_partial {k : Look} {r : ℂ} {road : List ℂ} {l : List Pt} (h : l.IsChain Apart) (hw : (forwardRaw k l).IsChain Apart)
    (hc : (looks (forwardRaw k l) r road).IsChain fun r s => ¬ crosses r s) (e1 : 1 * (Real.pi / 180) ≤ k.elevation)
    (e2 : k.elevation ≤ 89 * (Real.pi / 180)) :
    ∃ p, offsetForward k (r :: road) l = .ok p ∧
      (∀ a b l', l = a :: b :: l' → 1e-10 < ‖b.at_ - a.at_‖ → ∃ w, p.head? = some w ∧
        a.at_ - w.at_ = ((k.altitude / Real.tan k.elevation : ℝ) : ℂ) * (course a.at_ b.at_ * exp (-(k.azimuth * I)))) ∧
      (∀ a b l', l = l' ++ [a, b] → 1e-10 < ‖b.at_ - a.at_‖ → ∃ w, p.getLast? = some w ∧
        b.at_ - w.at_ = ((k.altitude / Real.tan k.elevation : ℝ) : ℂ) * (course a.at_ b.at_ * exp (-(k.azimuth * I)))) := by
  have hr : reach k false = k.altitude / Real.tan k.elevation := by
    unfold reach
    rw [if_neg (by rintro (h | h) <;> linarith)]
    rfl
  refine ⟨_, C167_all h hw hc, ?_, ?_⟩
  · rintro a b l' rfl hl
    exact ⟨_, (forwardRaw_get k).1 a b l', by rw [← hr]; exact beside_end hl k a⟩
  · rintro a b l' rfl hl
    exact ⟨_, (forwardRaw_get k).2.2 l' a b, by rw [← hr]; exact beside_end hl k b⟩

end Verif.Dpss
