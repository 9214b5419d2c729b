import Verif.Dpss.Steer
import Verif.Stare.Find

/-!
# The point of the road a searching vehicle looks at (C168)
-/

namespace Verif.Dpss

open Complex
open Verif.Escort (closestPoint distTo along)
open Verif.Stare (len len_nil len_single len_cons len_nonneg len_take_mono len_take_le len_take_succ along_zero along_step along_lip' along_corner along_between)

theorem lengthOf_eq : ∀ l : List ℂ, lengthOf l = len l
  | [] => rfl
  | [_] => rfl
  | p :: q :: l => by rw [lengthOf, len_cons, lengthOf_eq (q :: l)]

theorem len_split : ∀ (pre : List ℂ) (p : ℂ) (l : List ℂ), len (pre ++ p :: l) = len (pre ++ [p]) + len (p :: l)
  | [], p, l => by simp
  | [a], p, l => by simp only [List.cons_append, List.nil_append, len_cons, len_single]; ring
  | a :: b :: pre, p, l => by
      have := len_split (b :: pre) p l
      simp only [List.cons_append, len_cons] at this ⊢
      linarith

/-- The distance of a point of a road from its start. -/
noncomputable def cum (R : List ℂ) (i : ℕ) : ℝ := len (R.take (i + 1))

theorem cum_nonneg (R : List ℂ) (i : ℕ) : 0 ≤ cum R i := len_nonneg _

theorem cum_mono (R : List ℂ) {i j : ℕ} (h : i ≤ j) : cum R i ≤ cum R j := len_take_mono R (by omega)

theorem cum_le (R : List ℂ) (i : ℕ) : cum R i ≤ len R := len_take_le R _

theorem cum_last {R : List ℂ} {i : ℕ} (h : R.length ≤ i + 1) : cum R i = len R := by
  unfold cum; rw [List.take_of_length_le h]

@[simp] theorem cum_zero (R : List ℂ) : cum R 0 = 0 := by
  unfold cum
  cases R <;> simp

theorem cum_pre (pre : List ℂ) (p : ℂ) (l : List ℂ) : cum (pre ++ p :: l) pre.length = len (pre ++ [p]) := by
  unfold cum
  rw [List.take_append, List.take_of_length_le (by omega)]
  simp

theorem cum_before (pre l l' : List ℂ) {j : ℕ} (h : j < pre.length) : cum (pre ++ l) j = cum (pre ++ l') j := by
  unfold cum
  rw [List.take_append_of_le_length (by omega), List.take_append_of_le_length (by omega)]

/-! ### New points of the road -/

/-- Between two points of a road. -/
theorem norm_part (p q : ℂ) {f : ℝ} (h : 0 ≤ f) : ‖p + (q - p) * (f : ℂ) - p‖ = f * ‖q - p‖ := by
  rw [add_sub_cancel_left, norm_mul, norm_real, Real.norm_eq_abs, abs_of_nonneg h, mul_comm]

theorem norm_rest (p q : ℂ) {f : ℝ} (h : f ≤ 1) : ‖q - (p + (q - p) * (f : ℂ))‖ = (1 - f) * ‖q - p‖ := by
  have e : q - (p + (q - p) * (f : ℂ)) = (q - p) * ((1 - f : ℝ) : ℂ) := by push_cast; ring
  rw [e, norm_mul, norm_real, Real.norm_eq_abs, abs_of_nonneg (by linarith), mul_comm]

theorem along_insert (p q : ℂ) (post : List ℂ) {f : ℝ} (h0 : 0 ≤ f) (h1 : f ≤ 1) :
    ∀ (pre : List ℂ) {d : ℝ}, 0 ≤ d →
      along (pre ++ p :: (p + (q - p) * (f : ℂ)) :: q :: post) d = along (pre ++ p :: q :: post) d
  | [], d, hd => by
      have hn := norm_nonneg (q - p)
      set x := p + (q - p) * (f : ℂ) with hx
      have n1 : ‖x - p‖ = f * ‖q - p‖ := norm_part p q h0
      have n2 : ‖q - x‖ = (1 - f) * ‖q - p‖ := norm_rest p q h1
      simp only [List.nil_append]
      by_cases hq : q = p
      · have hx' : x = p := by rw [hx, hq]; simp
        rw [hx', along_step p p _ (by simpa using hd)]
        simp
      have hn' : 0 < ‖q - p‖ := norm_pos_iff.2 (sub_ne_zero.2 hq)
      by_cases c1 : d ≤ f * ‖q - p‖
      · rw [along, n1, if_pos c1, along, if_pos (by nlinarith)]
        rcases h0.eq_or_lt with h | h
        · subst h
          have : d = 0 := by nlinarith
          subst this; simp
        · have e : x - p = (q - p) * (f : ℂ) := by rw [hx]; ring
          rw [e]
          have : (d / (f * ‖q - p‖) : ℝ) * f = d / ‖q - p‖ := by field_simp
          have hc : ((d / (f * ‖q - p‖) : ℝ) : ℂ) * (f : ℂ) = ((d / ‖q - p‖ : ℝ) : ℂ) := by exact_mod_cast this
          linear_combination (q - p) * hc
      · rw [not_le] at c1
        rw [along_step p x _ (by rw [n1]; exact c1.le), n1]
        by_cases c2 : d ≤ ‖q - p‖
        · rw [along, n2, if_pos (by linarith), along, if_pos c2]
          rcases h1.eq_or_lt with h | h
          · subst h
            exfalso; linarith
          · have e : q - x = (q - p) * ((1 - f : ℝ) : ℂ) := by rw [hx]; push_cast; ring
            rw [e]
            have hne : (1 - f) ≠ 0 := by linarith
            have : ((d - f * ‖q - p‖) / ((1 - f) * ‖q - p‖) : ℝ) * (1 - f) + f = d / ‖q - p‖ := by
              field_simp; ring
            have hc : (((d - f * ‖q - p‖) / ((1 - f) * ‖q - p‖) : ℝ) : ℂ) * ((1 - f : ℝ) : ℂ) + (f : ℂ) = ((d / ‖q - p‖ : ℝ) : ℂ) := by
              exact_mod_cast this
            rw [hx]
            linear_combination (q - p) * hc
        · rw [not_le] at c2
          rw [along_step x q _ (by rw [n2]; linarith), along_step p q _ c2.le, n2]
          congr 1; ring
  | [a], d, hd => by
      have hn := norm_nonneg (p - a)
      simp only [List.cons_append, List.nil_append]
      by_cases c : d ≤ ‖p - a‖
      · rw [along, if_pos c, along, if_pos c]
      · rw [not_le] at c
        rw [along_step _ _ _ c.le, along_step _ _ _ c.le]
        exact along_insert p q post h0 h1 [] (by linarith)
  | a :: b :: pre, d, hd => by
      simp only [List.cons_append]
      by_cases c : d ≤ ‖b - a‖
      · rw [along, if_pos c, along, if_pos c]
      · rw [not_le] at c
        rw [along_step _ _ _ c.le, along_step _ _ _ c.le]
        exact along_insert p q post h0 h1 (b :: pre) (by linarith)

theorem placeFrom_spec {t : ℝ} : ∀ (l : List ℂ) (n : ℕ) (c : ℝ) (p : ℂ), l ≠ [] → c ≤ t → t ≤ c + len (p :: l) →
    ∃ pre p' q post, ∃ f : ℝ, p :: l = pre ++ p' :: q :: post ∧
      placeFrom t n c p l = some (n + pre.length, p' + (q - p') * (f : ℂ)) ∧ 0 ≤ f ∧ f ≤ 1 ∧
      (t - 1e-6 ≤ c + len (pre ++ [p']) + f * ‖q - p'‖ ∧ c + len (pre ++ [p']) + f * ‖q - p'‖ ≤ t) ∧
      t ≤ c + len (pre ++ [p']) + ‖q - p'‖ ∧ (pre ≠ [] → c + len (pre ++ [p']) < t)
  | [], _, _, _, h, _, _ => absurd rfl h
  | q :: l, n, c, p, _, hc, ht => by
      have hn := norm_nonneg (q - p)
      rw [placeFrom]
      by_cases h : t ≤ c + ‖q - p‖
      · rw [if_pos h]
        by_cases h6 : 1e-6 < ‖q - p‖
        · have hp : 0 < ‖q - p‖ := lt_trans (by norm_num) h6
          rw [if_pos h6]
          have e : (t - c) / ‖q - p‖ * ‖q - p‖ = t - c := by field_simp
          refine ⟨[], p, q, l, (t - c) / ‖q - p‖, rfl, by simp, div_nonneg (by linarith) hn, ?_, ?_, ?_, by simp⟩
          · rw [div_le_one hp]; linarith
          · simp only [List.nil_append, len_single]; rw [e]; norm_num
          · simpa using h
        · rw [if_neg h6]
          rw [not_lt] at h6
          refine ⟨[], p, q, l, 0, rfl, by simp, le_refl _, zero_le_one, ?_, by simpa using h, by simp⟩
          simp only [List.nil_append, len_single, zero_mul, add_zero]
          constructor <;> linarith
      · rw [if_neg h]
        rw [not_le] at h
        rw [len_cons] at ht
        have hl : l ≠ [] := by
          rintro rfl
          simp at ht; linarith
        obtain ⟨pre, p', q', post, f, e1, e2, f0, f1, g1, g2, g3⟩ :=
          placeFrom_spec l (n + 1) (c + ‖q - p‖) q hl h.le (by linarith)
        have key : c + len ((p :: pre) ++ [p']) = c + ‖q - p‖ + len (pre ++ [p']) := by
          cases pre with
          | nil =>
              simp only [List.nil_append, List.cons.injEq] at e1
              rw [← e1.1]
              simp [len_cons]
          | cons a pre =>
              simp only [List.cons_append, List.cons.injEq] at e1
              rw [← e1.1]
              simp only [List.cons_append, len_cons]; ring
        refine ⟨p :: pre, p', q', post, f, by rw [e1]; rfl, ?_, f0, f1, ?_, ?_, ?_⟩
        · rw [e2, List.length_cons]; congr 2; omega
        · rw [key]; exact g1
        · rw [key]; exact g2
        · intro _
          rw [key]
          cases pre with
          | nil => simpa using h
          | cons a pre => exact g3 (by simp)

/-- What a place in a road is, where the point for a distance was added. -/
structure Good (R : List ℂ) (n : ℕ) (t : ℝ) : Prop where
  pos : 1 ≤ n
  lt : n + 1 < R.length
  before : ∀ j, 1 ≤ j → j < n → cum R j < t
  low : t - 1e-6 ≤ cum R n
  high : cum R n ≤ t

theorem place_spec {t : ℝ} {R : List ℂ} (hR : 2 ≤ R.length) (h0 : 0 ≤ t) (ht : t ≤ len R) :
    let R' := R.insertIdx (place t R).1 (place t R).2
    R'.length = R.length + 1 ∧ len R' = len R ∧ (∀ d, 0 ≤ d → along R' d = along R d) ∧ Good R' (place t R).1 t ∧
    ∀ m s, Good R m s → s ≤ t → Good R' m s ∧ m ≤ (place t R).1 := by
  match R, hR with
  | r :: r' :: road, _ =>
    obtain ⟨pre, p, q, post, f, e1, e2, f0, f1, g1, g2, g3⟩ := placeFrom_spec (r' :: road) 1 0 r (by simp) h0 (by simpa using ht)
    simp only [zero_add] at g1 g2 g3
    have hplace : place t (r :: r' :: road) = (pre.length + 1, p + (q - p) * (f : ℂ)) := by
      rw [place, e2, Option.getD_some, add_comm]
    set x := p + (q - p) * (f : ℂ) with hx
    have hins : (r :: r' :: road).insertIdx (pre.length + 1) x = pre ++ p :: x :: q :: post := by
      rw [e1]
      have : ∀ pre : List ℂ, (pre ++ p :: q :: post).insertIdx (pre.length + 1) x = pre ++ p :: x :: q :: post := by
        intro pre
        induction pre with
        | nil => simp
        | cons a pre ih => simp only [List.cons_append, List.length_cons, List.insertIdx_succ_cons, ih]
      exact this pre
    intro R'
    have hR' : R' = pre ++ p :: x :: q :: post := by
      change (r :: r' :: road).insertIdx _ _ = _
      rw [hplace]; exact hins
    have hn : (place t (r :: r' :: road)).1 = pre.length + 1 := by rw [hplace]
    rw [hn, hR', e1]
    have n1 : ‖x - p‖ = f * ‖q - p‖ := norm_part p q f0
    have n2 : ‖q - x‖ = (1 - f) * ‖q - p‖ := norm_rest p q f1
    have hnn := norm_nonneg (q - p)
    have cp : cum (pre ++ p :: x :: q :: post) pre.length = len (pre ++ [p]) := cum_pre _ _ _
    have cq : cum (pre ++ p :: x :: q :: post) (pre.length + 1) = len (pre ++ [p]) + f * ‖q - p‖ := by
      have e : pre ++ p :: x :: q :: post = (pre ++ [p]) ++ x :: q :: post := by simp
      have := cum_pre (pre ++ [p]) x (q :: post)
      rw [List.length_append, List.length_singleton, ← e] at this
      rw [this]
      have e' : pre ++ [p] ++ [x] = pre ++ p :: [x] := by simp
      rw [e', len_split, len_cons, len_single, n1]; ring
    have co : cum (pre ++ p :: q :: post) (pre.length + 1) = len (pre ++ [p]) + ‖q - p‖ := by
      have e : pre ++ p :: q :: post = (pre ++ [p]) ++ q :: post := by simp
      have := cum_pre (pre ++ [p]) q post
      rw [List.length_append, List.length_singleton, ← e] at this
      rw [this]
      have e' : pre ++ [p] ++ [q] = pre ++ p :: [q] := by simp
      rw [e', len_split, len_cons, len_single]; ring
    have cb : ∀ j, j ≤ pre.length → cum (pre ++ p :: x :: q :: post) j = cum (pre ++ p :: q :: post) j := by
      intro j hj
      have e : pre ++ p :: x :: q :: post = (pre ++ [p]) ++ x :: q :: post := by simp
      have e' : pre ++ p :: q :: post = (pre ++ [p]) ++ q :: post := by simp
      rw [e, e']
      exact cum_before _ _ _ (by simp; omega)
    have good : Good (pre ++ p :: x :: q :: post) (pre.length + 1) t := by
      refine ⟨by omega, by simp only [List.length_append, List.length_cons]; omega, ?_, by rw [cq]; exact g1.1, by rw [cq]; exact g1.2⟩
      intro j hj1 hj2
      have hpre : pre ≠ [] := by rintro rfl; simp at hj2; omega
      refine lt_of_le_of_lt (cum_mono _ (show j ≤ pre.length by omega)) ?_
      rw [cp]; exact g3 hpre
    refine ⟨by simp only [List.length_append, List.length_cons]; omega, ?_, fun d hd => along_insert p q post f0 f1 pre hd, good, ?_⟩
    · rw [len_split, len_split pre p (q :: post), len_cons, len_cons, len_cons, n1, n2]; ring
    · intro m s hm hst
      have hle : m ≤ pre.length + 1 := by
        by_contra hlt
        rw [not_le] at hlt
        have := hm.before (pre.length + 1) (by omega) hlt
        rw [co] at this; linarith
      refine ⟨?_, hle⟩
      rcases Nat.lt_or_ge m (pre.length + 1) with h | h
      · refine ⟨hm.pos, by simp; omega, ?_, ?_, ?_⟩
        · intro j hj1 hj2; rw [cb j (by omega)]; exact hm.before j hj1 hj2
        · rw [cb m (by omega)]; exact hm.low
        · rw [cb m (by omega)]; exact hm.high
      · obtain rfl : m = pre.length + 1 := le_antisymm hle h
        have h1 := hm.high
        rw [co] at h1
        have : s = t := le_antisymm hst (by linarith)
        rw [this]; exact good

theorem insertAll_spec : ∀ (ts : List ℝ) (R : List ℂ), 2 ≤ R.length → (∀ t ∈ ts, 0 ≤ t ∧ t ≤ len R) → ts.Pairwise (· ≤ ·) →
    (insertAll ts R).1.length = ts.length ∧ 2 ≤ (insertAll ts R).2.length ∧ len (insertAll ts R).2 = len R ∧
    (∀ d, 0 ≤ d → along (insertAll ts R).2 d = along R d) ∧
    (∀ i (h : i < ts.length) (h' : i < (insertAll ts R).1.length), Good (insertAll ts R).2 (insertAll ts R).1[i] ts[i]) ∧
    (insertAll ts R).1.Pairwise (· ≤ ·) ∧
    ∀ m s, Good R m s → (∀ t ∈ ts, s ≤ t) → Good (insertAll ts R).2 m s ∧ ∀ n ∈ (insertAll ts R).1, m ≤ n
  | [], R, hR, _, _ => by simpa [insertAll] using hR
  | t :: ts, R, hR, h0, hp => by
      obtain ⟨hp1, hp2⟩ := List.pairwise_cons.1 hp
      obtain ⟨a1, a2, a3, a4, a5⟩ := place_spec hR (h0 t (by simp)).1 (h0 t (by simp)).2
      set R' := R.insertIdx (place t R).1 (place t R).2 with hR'
      obtain ⟨b1, b2, b3, b4, b5, b6, b7⟩ := insertAll_spec ts R' (by omega) (fun s hs => by rw [a2]; exact h0 s (by simp [hs])) hp2
      have e : insertAll (t :: ts) R = ((place t R).1 :: (insertAll ts R').1, (insertAll ts R').2) := rfl
      rw [e]
      obtain ⟨c1, c2⟩ := b7 _ t a4 hp1
      refine ⟨by simp [b1], b2, by rw [b3, a2], fun d hd => by rw [b4 d hd, a3 d hd], ?_, List.pairwise_cons.2 ⟨c2, b6⟩, ?_⟩
      · intro i h h'
        cases i with
        | zero => exact c1
        | succ i => exact b5 i (by simpa using h) (by simpa using h')
      · intro m s hm hs
        obtain ⟨d1, d2⟩ := a5 m s hm (hs t (by simp))
        obtain ⟨d3, d4⟩ := b7 m s d1 (fun u hu => hs u (by simp [hu]))
        refine ⟨d3, ?_⟩
        intro n hn
        rcases List.mem_cons.1 hn with rfl | hn
        · exact d2
        · exact d4 n hn

end Verif.Dpss
