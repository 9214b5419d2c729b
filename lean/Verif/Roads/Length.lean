/-
The graph of a road map: which points are joined, and the lengths.
-/
import Verif.Roads.Pieces

namespace Verif.Roads

open Verif.Visibility (Edge)

/-- The stretches of a way over points that lead to a point not used for planning,
added up. -/
noncomputable def extra (plan : Id → Bool) (P : Id → Pt) : List Id → ℝ
  | x :: y :: l => (if plan y then 0 else dist (P x) (P y)) + extra plan P (y :: l)
  | _ => 0

theorem extra_append (plan : Id → Bool) (P : Id → Pt) (x : Id) : ∀ (l m : List Id),
    extra plan P (l ++ x :: m) = extra plan P (l ++ [x]) + extra plan P (x :: m)
  | [], m => by simp [extra]
  | [y], m => by simp [extra]
  | y :: z :: l, m => by
    have := extra_append plan P x (z :: l) m
    simp only [List.cons_append, extra] at this ⊢
    rw [this, add_assoc]

theorem extra_mid (plan : Id → Bool) (P : Id → Pt) : ∀ (mid : List Id) (a : Id),
    (∀ x ∈ mid, plan x = false) → extra plan P (a :: mid) = roadLen P (a :: mid)
  | [], _, _ => rfl
  | x :: mid, a, h => by
    rw [extra, roadLen, extra_mid plan P mid x fun y hy => h y (by simp [hy]),
      if_neg (by rw [h x (by simp)]; simp)]

theorem extra_nonneg (plan : Id → Bool) (P : Id → Pt) : ∀ (l : List Id), 0 ≤ extra plan P l
  | [] => le_refl _
  | [x] => le_refl _
  | x :: y :: l => by
    rw [extra]
    refine add_nonneg ?_ (extra_nonneg plan P (y :: l))
    split
    · exact le_refl _
    · exact dist_nonneg _ _

theorem extra_snoc (plan : Id → Bool) (P : Id → Pt) (l : List Id) (y x : Id) :
    extra plan P (l ++ [y, x]) =
      extra plan P (l ++ [y]) + (if plan x then 0 else dist (P y) (P x)) := by
  rw [extra_append plan P y l [x]]
  simp [extra]

/-- The edge of a stretch of the points `l`, as it is laid: with the length of the
stretch and the extra length of what comes before it. -/
def Laid (plan : Id → Bool) (P : Id → Pt) (ix : Id → Option Nat) (l : List Id) (g : Edge) : Prop :=
  ∃ pre a mid b post, l = pre ++ a :: (mid ++ b :: post) ∧ plan a = true ∧ plan b = true ∧
    (∀ x ∈ mid, plan x = false) ∧ ix a = some g.a ∧ ix b = some g.b ∧
    g.len = ⌊roadLen P (a :: (mid ++ [b])) + extra plan P (pre ++ [a])⌋₊

theorem laid_snoc {plan : Id → Bool} {P : Id → Pt} {ix : Id → Option Nat} {D : List Id} {x : Id}
    {g : Edge} : Laid plan P ix (D ++ [x]) g ↔ Laid plan P ix D g ∨
      ∃ pre a mid, D = pre ++ a :: mid ∧ plan a = true ∧ plan x = true ∧
        (∀ x ∈ mid, plan x = false) ∧ ix a = some g.a ∧ ix x = some g.b ∧
        g.len = ⌊roadLen P (a :: (mid ++ [x])) + extra plan P (pre ++ [a])⌋₊ := by
  constructor
  · rintro ⟨pre, a, mid, b, post, e, h⟩
    rcases List.eq_nil_or_concat post with rfl | ⟨post', z, rfl⟩
    · have : D ++ [x] = (pre ++ a :: mid) ++ [b] := by rw [e]; simp
      obtain ⟨h₁, h₂⟩ := List.append_inj' this rfl
      have h₂ : x = b := by simpa using h₂
      subst h₂
      exact .inr ⟨pre, a, mid, h₁, h⟩
    · have : D ++ [x] = (pre ++ a :: (mid ++ b :: post')) ++ [z] := by rw [e]; simp
      obtain ⟨h₁, -⟩ := List.append_inj' this rfl
      exact .inl ⟨pre, a, mid, b, post', h₁, h⟩
  · rintro (⟨pre, a, mid, b, post, e, h⟩ | ⟨pre, a, mid, e, h⟩)
    · exact ⟨pre, a, mid, b, post ++ [x], by rw [e]; simp, h⟩
    · exact ⟨pre, a, mid, x, [], by rw [e]; simp, h⟩

theorem lay_go {plan : Id → Bool} {L : Loaded} {w : Id} (E₀ : List Edge) :
    ∀ (xs pre : List Id) (a : Id) (mid l : List Id) (y : Id) (st : Lay),
      (∀ x ∈ xs, L.pos x ≠ none ∧ (plan x = true → L.ix x ≠ none)) →
      plan a = true → (∀ x ∈ mid, plan x = false) → a :: mid = l ++ [y] →
      st.cur = w → L.ix a = some st.start →
      (∀ g, g ∈ st.edges ↔ g ∈ E₀ ∨ Laid plan (posOf L.pos) L.ix (pre ++ a :: mid) g) →
      ∃ st', lay plan L w xs (extra plan (posOf L.pos) (pre ++ a :: mid)) (some (posOf L.pos y)) st =
          .ok st' ∧ st'.cur = w ∧
        ∀ g, g ∈ st'.edges ↔ g ∈ E₀ ∨ Laid plan (posOf L.pos) L.ix (pre ++ a :: mid ++ xs) g := by
  intro xs
  induction xs with
  | nil =>
    intro pre a mid l y st _ _ _ _ h₄ _ h₆
    exact ⟨st, rfl, h₄, by rw [List.append_nil]; exact h₆⟩
  | cons x xs ih =>
    intro pre a mid l y st h₁ h₂ h₃ hy h₄ h₅ h₆
    obtain ⟨q, hq⟩ := Option.ne_none_iff_exists'.mp (h₁ x (by simp)).1
    have hP : posOf L.pos x = q := by unfold posOf; rw [hq]; rfl
    have ih := fun pre a mid l y st => ih pre a mid l y st fun z hz => h₁ z (by simp [hz])
    have split' : pre ++ a :: mid = (pre ++ l) ++ [y] := by rw [List.append_assoc, ← hy]
    rw [lay]
    by_cases hx : plan x = true
    · obtain ⟨j, hj⟩ := Option.ne_none_iff_exists'.mp ((h₁ x (by simp)).2 hx)
      rw [if_pos hx, if_neg (by rw [h₄]; simp), hq, hj]
      dsimp only
      have hlen : dist q (posOf L.pos y) + extra plan (posOf L.pos) (pre ++ a :: mid) =
          roadLen (posOf L.pos) (a :: (mid ++ [x])) + extra plan (posOf L.pos) (pre ++ [a]) := by
        rw [extra_append, extra_mid plan _ mid a h₃, ← List.cons_append, hy, List.append_assoc]
        show _ = roadLen _ (l ++ [y, x]) + _
        rw [roadLen_snoc, ← hP, dist_comm]
        ring
      have hex : extra plan (posOf L.pos) (pre ++ a :: mid) =
          extra plan (posOf L.pos) ((pre ++ a :: mid) ++ x :: []) := by
        have : (pre ++ a :: mid) ++ x :: [] = pre ++ l ++ [y, x] := by rw [split']; simp
        rw [this, extra_snoc, if_pos hx, add_zero, split']
      obtain ⟨st', e, hc, hm⟩ := ih (pre ++ a :: mid) x [] [] x
        { st with start := j, edges := st.edges ++ [⟨st.start, j,
          ⌊dist q (posOf L.pos y) + extra plan (posOf L.pos) (pre ++ a :: mid)⌋₊⟩] }
        hx (by simp) rfl h₄ hj (by
          intro g
          dsimp only
          rw [List.mem_append, h₆ g, List.mem_singleton, laid_snoc, or_assoc]
          refine or_congr_right (or_congr_right ?_)
          constructor
          · rintro rfl
            exact ⟨pre, a, mid, rfl, h₂, hx, h₃, h₅, hj, by dsimp only; rw [hlen]⟩
          · rintro ⟨pre', a', mid', e, k₁, k₂, k₃, k₄, k₅, k₆⟩
            obtain ⟨rfl, rfl⟩ := last_unique e h₂ k₁ h₃ k₃
            have hpre : pre = pre' := List.append_cancel_right e
            subst hpre
            obtain ⟨ga, gb, gl⟩ := g
            dsimp only at k₄ k₅ k₆
            rw [h₅] at k₄
            rw [hj] at k₅
            cases k₄
            cases k₅
            rw [k₆, hlen])
      rw [hex, ← hP]
      rw [hP]
      refine ⟨st', ?_, hc, ?_⟩
      · rw [← hex, ← hP]
        rw [← hex, ← hP] at e
        exact e
      · have : pre ++ a :: mid ++ x :: xs = pre ++ a :: mid ++ x :: [] ++ xs := by simp
        rw [this]
        exact hm
    · have hx' : plan x = false := by simpa using hx
      rw [if_neg hx, hq]
      dsimp only
      have hex : extra plan (posOf L.pos) (pre ++ a :: mid) + dist q (posOf L.pos y) =
          extra plan (posOf L.pos) (pre ++ a :: (mid ++ [x])) := by
        have : pre ++ a :: (mid ++ [x]) = pre ++ l ++ [y, x] := by
          rw [← List.cons_append, hy]; simp
        rw [this, extra_snoc, split', if_neg hx, ← hP, dist_comm]
      rw [hex, ← hP]
      obtain ⟨st', e, hc, hm⟩ := ih pre a (mid ++ [x]) (a :: mid) x st h₂ (by
        intro z hz
        rcases List.mem_append.mp hz with hz | hz
        · exact h₃ z hz
        · rw [List.mem_singleton.mp hz]; exact hx') rfl h₄ h₅ (by
          intro g
          rw [h₆ g]
          have : pre ++ a :: (mid ++ [x]) = (pre ++ a :: mid) ++ [x] := by simp
          rw [this, laid_snoc]
          constructor
          · rintro (h | h)
            · exact .inl h
            · exact .inr (.inl h)
          · rintro (h | h | ⟨-, -, -, -, -, h, -⟩)
            · exact .inl h
            · exact .inr h
            · exact absurd h hx)
      refine ⟨st', e, hc, ?_⟩
      have : pre ++ a :: mid ++ x :: xs = pre ++ a :: (mid ++ [x]) ++ xs := by simp
      rw [this]
      exact hm

/-- One road: its edges are added. -/
theorem lay_road {plan : Id → Bool} {L : Loaded} {w : Id} {l : List Id} {st : Lay}
    (h₁ : ∀ x ∈ l, L.pos x ≠ none ∧ (plan x = true → L.ix x ≠ none))
    (h₂ : ∀ x, l.head? = some x → plan x = true) (h₃ : w ≠ st.cur) :
    ∃ st', lay plan L w l 0 none st = .ok st' ∧ (st'.cur = w ∨ st'.cur = st.cur) ∧
      ∀ g, g ∈ st'.edges ↔ g ∈ st.edges ∨ Laid plan (posOf L.pos) L.ix l g := by
  cases l with
  | nil =>
    refine ⟨st, rfl, .inr rfl, fun g => ?_⟩
    constructor
    · exact .inl
    · rintro (h | ⟨pre, a, mid, b, post, e, -⟩)
      · exact h
      · have := congrArg List.length e
        simp at this
  | cons x xs =>
    have hx := h₂ x rfl
    obtain ⟨q, hq⟩ := Option.ne_none_iff_exists'.mp (h₁ x (by simp)).1
    obtain ⟨i, hi⟩ := Option.ne_none_iff_exists'.mp ((h₁ x (by simp)).2 hx)
    have hP : posOf L.pos x = q := by unfold posOf; rw [hq]; rfl
    rw [lay, if_pos hx, if_pos h₃, hq, hi]
    dsimp only
    obtain ⟨st', e, hc, hm⟩ := lay_go (plan := plan) (L := L) (w := w) st.edges xs [] x [] [] x
      { st with cur := w, start := i } (fun z hz => h₁ z (by simp [hz])) hx (by simp) rfl rfl hi (by
        intro g
        dsimp only
        constructor
        · exact .inl
        · rintro (h | ⟨pre, a, mid, b, post, e, -⟩)
          · exact h
          · have := congrArg List.length e
            simp at this
            omega)
    refine ⟨st', ?_, .inl hc, ?_⟩
    · rw [← hP]; exact e
    · simpa using hm

theorem layAll_spec {o : Order} {ways : List Way} {plan : Id → Bool} {L : Loaded} :
    ∀ (ws : List Id) (st : Lay), ws.Nodup → st.cur ∉ ws →
      (∀ w ∈ ws, (∀ x ∈ pointsOf o ways w, L.pos x ≠ none ∧ (plan x = true → L.ix x ≠ none)) ∧
        ∀ x, (pointsOf o ways w).head? = some x → plan x = true) →
      ∃ st', layAll o ways plan L ws st = .ok st' ∧
        ∀ g, g ∈ st'.edges ↔ g ∈ st.edges ∨
          ∃ w ∈ ws, Laid plan (posOf L.pos) L.ix (pointsOf o ways w) g := by
  intro ws
  induction ws with
  | nil => intro st _ _ _; exact ⟨st, rfl, by simp⟩
  | cons w ws ih =>
    intro st hn hc h
    obtain ⟨st₁, e₁, c₁, m₁⟩ := lay_road (w := w) (st := st) (h w (by simp)).1 (h w (by simp)).2
      (by rintro rfl; exact hc (by simp))
    rw [List.nodup_cons] at hn
    obtain ⟨st₂, e₂, m₂⟩ := ih st₁ hn.2 (by
      rcases c₁ with e | e
      · rw [e]; exact hn.1
      · rw [e]; exact fun h => hc (by simp [h])) fun v hv => h v (by simp [hv])
    refine ⟨st₂, by rw [layAll, e₁]; exact e₂, fun g => ?_⟩
    rw [m₂, m₁, or_assoc]
    refine or_congr_right ?_
    constructor
    · rintro (h | ⟨v, hv, h⟩)
      · exact ⟨w, by simp, h⟩
      · exact ⟨v, by simp [hv], h⟩
    · rintro ⟨v, hv, hl⟩
      rcases List.mem_cons.mp hv with rfl | hv
      · exact .inl hl
      · exact .inr ⟨v, hv, hl⟩

end Verif.Roads
