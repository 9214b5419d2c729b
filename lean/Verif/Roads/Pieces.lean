/-
How roads are cut into pieces: every piece that is kept is a stretch of a road
between two points used for planning, with its length; every such stretch is kept,
unless there is another one between the same two points.
-/
import Verif.Roads.Build

namespace Verif.Roads

/-- A stretch of a list of points: from a point used for planning to the next one,
with the points between them. -/
def Stretch (plan : Id → Bool) (l : List Id) (a : Id) (mid : List Id) (b : Id) : Prop :=
  plan a = true ∧ plan b = true ∧ (∀ x ∈ mid, plan x = false) ∧
    ∃ pre post, l = pre ++ a :: (mid ++ b :: post)

/-- The length of a way over points. -/
noncomputable def roadLen (P : Id → Pt) : List Id → ℝ
  | x :: y :: l => dist (P x) (P y) + roadLen P (y :: l)
  | _ => 0

/-- The position of a point (the origin for points that are not loaded). -/
noncomputable def posOf (pos : Id → Option Pt) (x : Id) : Pt := (pos x).getD ⟨0, 0⟩

theorem dist_comm (p q : Pt) : dist p q = dist q p := by
  unfold dist
  congr 1
  ring

theorem dist_nonneg (p q : Pt) : 0 ≤ dist p q := Real.sqrt_nonneg _

theorem dist_self (p : Pt) : dist p p = 0 := by
  unfold dist
  simp

theorem roadLen_append (P : Id → Pt) (x : Id) : ∀ (l m : List Id),
    roadLen P (l ++ x :: m) = roadLen P (l ++ [x]) + roadLen P (x :: m)
  | [], m => by simp [roadLen]
  | [y], m => by simp [roadLen]
  | y :: z :: l, m => by
    have := roadLen_append P x (z :: l) m
    simp only [List.cons_append, roadLen] at this ⊢
    rw [this, add_assoc]

theorem roadLen_snoc (P : Id → Pt) (l : List Id) (x y : Id) :
    roadLen P (l ++ [x, y]) = roadLen P (l ++ [x]) + dist (P x) (P y) := by
  rw [roadLen_append P x l [y]]
  simp [roadLen]

theorem roadLen_reverse (P : Id → Pt) : ∀ (l : List Id), roadLen P l.reverse = roadLen P l
  | [] => rfl
  | [x] => rfl
  | x :: y :: l => by
    have := roadLen_reverse P (y :: l)
    rw [List.reverse_cons, List.reverse_cons, List.append_assoc]
    show roadLen P (l.reverse ++ [y, x]) = _
    rw [roadLen_snoc, ← List.reverse_cons, this, roadLen, dist_comm, add_comm]

theorem roadLen_nonneg (P : Id → Pt) : ∀ (l : List Id), 0 ≤ roadLen P l
  | [] => le_refl _
  | [x] => le_refl _
  | x :: y :: l => add_nonneg (dist_nonneg _ _) (roadLen_nonneg P (y :: l))

/-! ### The table -/

theorem Table.get_append (T : Table) (k j : Id × Id) (p : Piece) :
    Table.get (T ++ [(k, p)]) j = match T.get j with
      | some q => some q
      | none => if k = j then some p else none := by
  unfold Table.get
  rw [List.find?_append]
  cases e : T.find? fun e => e.1 = j with
  | some x => simp
  | none =>
    by_cases h : k = j
    · simp [h]
    · simp [h]

theorem Table.get_add (T : Table) (k j : Id × Id) (p : Piece) :
    (T.add k p).get j = match T.get j with
      | some q => some q
      | none => if k = j then some p else none := by
  unfold Table.add
  cases e : T.get k with
  | none => dsimp only; exact Table.get_append T k j p
  | some x =>
    dsimp only
    cases e' : T.get j with
    | some y => rfl
    | none =>
      dsimp only
      rw [if_neg]
      rintro rfl
      rw [e] at e'
      cases e'

/-- A piece is the stretch of a road it is put in for, one way or the other, with its
length. -/
def PieceOf (plan : Id → Bool) (P : Id → Pt) (w : Id) (l : List Id) (k : Id × Id) (p : Piece) :
    Prop :=
  ∃ a mid b, Stretch plan l a mid b ∧ p.way = w ∧
    ((k = (a, b) ∧ p.nodes = a :: (mid ++ [b])) ∨
      (k = (b, a) ∧ p.nodes = (a :: (mid ++ [b])).reverse)) ∧
    p.len = roadLen P p.nodes

/-- All stretches of the list are in the table, both ways. -/
def Covers (plan : Id → Bool) (T : Table) (l : List Id) : Prop :=
  ∀ a mid b, Stretch plan l a mid b → T.get (a, b) ≠ none ∧ T.get (b, a) ≠ none

/-- What is kept while a road is followed, after the points `D`. -/
def CutInv (plan : Id → Bool) (P : Id → Pt) (D : List Id) (c : Cut) : Prop :=
  (c.first = none ∧ c.fwd = [] ∧ c.rev = [] ∧ c.len = 0 ∧ ∀ x ∈ D, plan x = false) ∨
    ∃ a pre mid, c.first = some a ∧ D = pre ++ a :: mid ∧ plan a = true ∧
      (∀ x ∈ mid, plan x = false) ∧ c.fwd = a :: mid ∧ c.rev = (a :: mid).reverse ∧
      c.len = roadLen P (a :: mid) ∧ ∃ y l, a :: mid = l ++ [y] ∧ c.prev = P y

theorem stretch_snoc {plan : Id → Bool} {D : List Id} {x a b : Id} {mid : List Id}
    (h : Stretch plan (D ++ [x]) a mid b) :
    Stretch plan D a mid b ∨ (b = x ∧ ∃ pre, D = pre ++ a :: mid) := by
  obtain ⟨ha, hb, hm, pre, post, e⟩ := h
  rcases List.eq_nil_or_concat post with rfl | ⟨post', z, rfl⟩
  · have : D ++ [x] = (pre ++ a :: mid) ++ [b] := by rw [e]; simp
    obtain ⟨h₁, h₂⟩ := List.append_inj' this rfl
    exact .inr ⟨by simpa using h₂.symm, pre, h₁⟩
  · have : D ++ [x] = (pre ++ a :: (mid ++ b :: post')) ++ [z] := by rw [e]; simp
    obtain ⟨h₁, -⟩ := List.append_inj' this rfl
    exact .inl ⟨ha, hb, hm, pre, post', h₁⟩

theorem Stretch.append {plan : Id → Bool} {l : List Id} {a b : Id} {mid : List Id}
    (h : Stretch plan l a mid b) (m : List Id) : Stretch plan (l ++ m) a mid b := by
  obtain ⟨ha, hb, hm, pre, post, e⟩ := h
  exact ⟨ha, hb, hm, pre, post ++ m, by rw [e]; simp⟩

theorem PieceOf.append {plan : Id → Bool} {P : Id → Pt} {w : Id} {l : List Id} {k : Id × Id}
    {p : Piece} (h : PieceOf plan P w l k p) (m : List Id) : PieceOf plan P w (l ++ m) k p := by
  obtain ⟨a, mid, b, h₁, h₂⟩ := h
  exact ⟨a, mid, b, h₁.append m, h₂⟩

/-- The last point used for planning is where it is. -/
theorem last_unique {plan : Id → Bool} : ∀ {pre pre' : List Id} {a a' : Id} {mid mid' : List Id},
    pre ++ a :: mid = pre' ++ a' :: mid' → plan a = true → plan a' = true →
    (∀ x ∈ mid, plan x = false) → (∀ x ∈ mid', plan x = false) → a = a' ∧ mid = mid'
  | [], [], a, a', mid, mid', e, _, _, _, _ => by simpa using e
  | [], b :: pre', a, a', mid, mid', e, _, ha', hm, _ => by
    simp at e
    have := hm a' (by rw [e.2]; simp)
    rw [ha'] at this; cases this
  | b :: pre, [], a, a', mid, mid', e, ha, _, _, hm' => by
    simp at e
    have := hm' a (by rw [← e.2]; simp)
    rw [ha] at this; cases this
  | b :: pre, b' :: pre', a, a', mid, mid', e, ha, ha', hm, hm' => by
    simp at e
    exact last_unique e.2 ha ha' hm hm'

theorem cut_spec {plan : Id → Bool} {pos : Id → Option Pt} {w : Id} :
    ∀ (xs D : List Id) (c : Cut) (T T' : Table), CutInv plan (posOf pos) D c → Covers plan T D →
      cut plan pos w xs c T = .ok T' →
      Covers plan T' (D ++ xs) ∧ (∀ k p, T.get k = some p → T'.get k = some p) ∧
        ∀ k p, T'.get k = some p → T.get k = some p ∨ PieceOf plan (posOf pos) w (D ++ xs) k p := by
  intro xs
  induction xs with
  | nil =>
    intro D c T T' _ hc h
    rw [cut] at h
    cases h
    rw [List.append_nil]
    exact ⟨hc, fun _ _ h => h, fun _ _ h => .inl h⟩
  | cons x xs ih =>
    intro D c T T' hi hc h
    have assoc : D ++ x :: xs = (D ++ [x]) ++ xs := by simp
    rw [assoc]
    rw [cut] at h
    by_cases hx : plan x = true
    · rw [if_pos hx] at h
      cases hq : pos x with
      | none => rw [hq] at h; cases h
      | some q =>
        have hP : posOf pos x = q := by unfold posOf; rw [hq]; rfl
        rw [hq] at h
        dsimp only at h
        rcases hi with ⟨h₁, h₂, h₃, h₄, h₅⟩ | ⟨a, pre, mid, h₁, h₂, h₃, h₄, h₅, h₆, h₇, y, l, h₈, h₉⟩
        · rw [h₁] at h
          dsimp only at h
          refine ih (D ++ [x]) _ T T' (.inr ⟨x, D, [], rfl, rfl, hx, by simp, ?_, ?_, ?_, x, [], rfl,
            hP.symm⟩) ?_ h
          · dsimp only; rw [h₂]; rfl
          · dsimp only; rw [h₃]; rfl
          · dsimp only; rw [h₄]; rfl
          · intro a mid b hs
            rcases stretch_snoc hs with hs' | ⟨-, pre, e⟩
            · exact hc a mid b hs'
            · have := h₅ a (by rw [e]; simp)
              rw [hs.1] at this; cases this
        · rw [h₁] at h
          dsimp only at h
          have hst : Stretch plan (D ++ [x]) a mid x :=
            ⟨h₃, hx, h₄, pre, [], by rw [h₂]; simp⟩
          have hlen : c.len + dist c.prev q = roadLen (posOf pos) (a :: (mid ++ [x])) := by
            rw [h₇, h₉, ← hP, ← List.cons_append, h₈, List.append_assoc]
            exact (roadLen_snoc _ _ _ _).symm
          have hrev : x :: c.rev = (a :: (mid ++ [x])).reverse := by
            rw [h₆]; simp
          have hfwd : c.fwd ++ [x] = a :: (mid ++ [x]) := by rw [h₅]; rfl
          obtain ⟨r₁, r₂, r₃⟩ := ih (D ++ [x]) _ _ T'
            (.inr ⟨x, D, [], rfl, rfl, hx, by simp, rfl, rfl, rfl, x, [], rfl, hP.symm⟩) (by
              intro a' mid' b' hs
              rw [Table.get_add, Table.get_add, Table.get_add, Table.get_add]
              rcases stretch_snoc hs with hs' | ⟨rfl, pre', e⟩
              · obtain ⟨g₁, g₂⟩ := hc a' mid' b' hs'
                obtain ⟨p₁, e₁⟩ := Option.ne_none_iff_exists'.mp g₁
                obtain ⟨p₂, e₂⟩ := Option.ne_none_iff_exists'.mp g₂
                rw [e₁, e₂]
                exact ⟨by simp, by simp⟩
              · obtain ⟨rfl, rfl⟩ := last_unique (e.symm.trans h₂) hs.1 h₃ hs.2.2.1 h₄
                constructor
                · cases T.get (a', b') with
                  | some _ => simp
                  | none => simp
                · cases T.get (b', a') with
                  | some _ => simp
                  | none =>
                    dsimp only
                    split
                    · simp
                    · rename_i hh
                      split at hh
                      · cases hh
                      · simp) h
          refine ⟨r₁, ?_, ?_⟩
          · intro k p hk
            apply r₂
            rw [Table.get_add, Table.get_add, hk]
          · intro k p hk
            rcases r₃ k p hk with hk | hk
            · rw [Table.get_add, Table.get_add] at hk
              cases e : T.get k with
              | some p' => rw [e] at hk; exact .inl hk
              | none =>
                rw [e] at hk
                dsimp only at hk
                by_cases e₁ : (a, x) = k
                · rw [if_pos e₁] at hk
                  cases hk
                  refine .inr (PieceOf.append ⟨a, mid, x, hst, rfl, .inl ⟨e₁.symm, hfwd⟩, ?_⟩ xs)
                  dsimp only
                  rw [hlen, hfwd]
                · rw [if_neg e₁] at hk
                  dsimp only at hk
                  by_cases e₂ : (x, a) = k
                  · rw [if_pos e₂] at hk
                    cases hk
                    refine .inr (PieceOf.append ⟨a, mid, x, hst, rfl, .inr ⟨e₂.symm, hrev⟩, ?_⟩ xs)
                    dsimp only
                    rw [hlen, hrev, roadLen_reverse]
                  · rw [if_neg e₂] at hk
                    cases hk
            · exact .inr hk
    · rw [if_neg hx] at h
      have hx' : plan x = false := by simpa using hx
      have hcov : Covers plan T (D ++ [x]) := by
        intro a mid b hs
        rcases stretch_snoc hs with hs' | ⟨rfl, -⟩
        · exact hc a mid b hs'
        · exact absurd hs.2.1 hx
      rcases hi with ⟨h₁, h₂, h₃, h₄, h₅⟩ | ⟨a, pre, mid, h₁, h₂, h₃, h₄, h₅, h₆, h₇, y, l, h₈, h₉⟩
      · rw [h₁] at h
        dsimp only at h
        refine ih (D ++ [x]) c T T' (.inl ⟨h₁, h₂, h₃, h₄, ?_⟩) hcov h
        intro z hz
        rcases List.mem_append.mp hz with hz | hz
        · exact h₅ z hz
        · rw [List.mem_singleton.mp hz]; exact hx'
      · rw [h₁] at h
        dsimp only at h
        cases hq : pos x with
        | none => rw [hq] at h; cases h
        | some q =>
          have hP : posOf pos x = q := by unfold posOf; rw [hq]; rfl
          rw [hq] at h
          dsimp only at h
          refine ih (D ++ [x]) ⟨some a, c.fwd ++ [x], x :: c.rev, c.len + dist c.prev q, q⟩ T T'
            (.inr ⟨a, pre, mid ++ [x], rfl, ?_, h₃, ?_, ?_, ?_, ?_, x,
            a :: mid, rfl, hP.symm⟩) hcov h
          · rw [h₂]; simp
          · intro z hz
            rcases List.mem_append.mp hz with hz | hz
            · exact h₄ z hz
            · rw [List.mem_singleton.mp hz]; exact hx'
          · dsimp only; rw [h₅]; rfl
          · dsimp only; rw [h₆]; simp
          · dsimp only
            rw [h₇, h₉, ← hP, ← List.cons_append, h₈, List.append_assoc]
            exact (roadLen_snoc _ _ _ _).symm

/-- With all points loaded nothing undefined is done. -/
theorem cut_defined {plan : Id → Bool} {pos : Id → Option Pt} {w : Id} :
    ∀ (xs : List Id) (c : Cut) (T : Table), (∀ x ∈ xs, pos x ≠ none) →
      ∃ T', cut plan pos w xs c T = .ok T' := by
  intro xs
  induction xs with
  | nil => intro c T _; exact ⟨T, rfl⟩
  | cons x xs ih =>
    intro c T h
    obtain ⟨q, hq⟩ := Option.ne_none_iff_exists'.mp (h x (by simp))
    have ih := fun c T => ih c T fun y hy => h y (by simp [hy])
    rw [cut, hq]
    dsimp only
    split
    · cases c.first with
      | none => exact ih _ _
      | some a => exact ih _ _
    · cases c.first with
      | none => exact ih _ _
      | some a => exact ih _ _

/-- After a point used for planning, a point that was not loaded is undefined. -/
theorem cut_undefined {plan : Id → Bool} {pos : Id → Option Pt} {w : Id} :
    ∀ (xs : List Id) (c : Cut) (T : Table), c.first ≠ none → (∃ x ∈ xs, pos x = none) →
      cut plan pos w xs c T = .ub := by
  intro xs
  induction xs with
  | nil => rintro c T _ ⟨x, hx, -⟩; cases hx
  | cons x xs ih =>
    intro c T hc h
    obtain ⟨a, ha⟩ := Option.ne_none_iff_exists'.mp hc
    rw [cut, ha]
    cases hq : pos x with
    | none => dsimp only; split <;> rfl
    | some q =>
      have h' : ∃ y ∈ xs, pos y = none := by
        obtain ⟨y, hy, e⟩ := h
        rcases List.mem_cons.mp hy with rfl | hy
        · rw [hq] at e; cases e
        · exact ⟨y, hy, e⟩
      dsimp only
      split
      · exact ih _ _ (by simp) h'
      · exact ih _ _ (by simp) h'

/-! ### All roads -/

theorem cutAll_spec {o : Order} {ways : List Way} {plan : Id → Bool} {pos : Id → Option Pt} :
    ∀ (ws : List Id) (T T' : Table), cutAll o ways plan pos ws T = .ok T' →
      (∀ w ∈ ws, Covers plan T' (pointsOf o ways w)) ∧
        (∀ k p, T.get k = some p → T'.get k = some p) ∧
        ∀ k p, T'.get k = some p → T.get k = some p ∨
          ∃ w ∈ ws, PieceOf plan (posOf pos) w (pointsOf o ways w) k p := by
  intro ws
  induction ws with
  | nil =>
    intro T T' h
    rw [cutAll] at h
    cases h
    exact ⟨by simp, fun _ _ h => h, fun _ _ h => .inl h⟩
  | cons w ws ih =>
    intro T T' h
    rw [cutAll] at h
    obtain ⟨T₁, h₁, h₂⟩ := Outcome.bind_eq_ok.mp h
    obtain ⟨a₁, a₂, a₃⟩ := cut_spec (pointsOf o ways w) [] _ T T₁
      (.inl ⟨rfl, rfl, rfl, rfl, by simp⟩) (by
        rintro a mid b ⟨-, -, -, pre, post, e⟩
        have := congrArg List.length e
        simp at this) h₁
    rw [List.nil_append] at a₁ a₃
    obtain ⟨b₁, b₂, b₃⟩ := ih T₁ T' h₂
    refine ⟨?_, fun k p hk => b₂ k p (a₂ k p hk), ?_⟩
    · intro v hv
      rcases List.mem_cons.mp hv with rfl | hv
      · intro a mid b hs
        obtain ⟨g₁, g₂⟩ := a₁ a mid b hs
        obtain ⟨p₁, e₁⟩ := Option.ne_none_iff_exists'.mp g₁
        obtain ⟨p₂, e₂⟩ := Option.ne_none_iff_exists'.mp g₂
        rw [b₂ _ _ e₁, b₂ _ _ e₂]
        exact ⟨by simp, by simp⟩
      · exact b₁ v hv
    · intro k p hk
      rcases b₃ k p hk with hk | ⟨v, hv, hp⟩
      · rcases a₃ k p hk with hk | hp
        · exact .inl hk
        · exact .inr ⟨w, by simp, hp⟩
      · exact .inr ⟨v, by simp [hv], hp⟩

theorem cutAll_defined {o : Order} {ways : List Way} {plan : Id → Bool} {pos : Id → Option Pt} :
    ∀ (ws : List Id) (T : Table), (∀ w ∈ ws, ∀ x ∈ pointsOf o ways w, pos x ≠ none) →
      ∃ T', cutAll o ways plan pos ws T = .ok T' := by
  intro ws
  induction ws with
  | nil => intro T _; exact ⟨T, rfl⟩
  | cons w ws ih =>
    intro T h
    obtain ⟨T₁, h₁⟩ := cut_defined (plan := plan) (w := w) (pointsOf o ways w)
      ⟨none, [], [], 0, ⟨0, 0⟩⟩ T (h w (by simp))
    obtain ⟨T₂, h₂⟩ := ih T₁ fun v hv => h v (by simp [hv])
    exact ⟨T₂, by rw [cutAll, h₁]; exact h₂⟩

end Verif.Roads
