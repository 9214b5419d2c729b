/-
Which points of a road map are used for planning, and what is known of the points
after the file is read.
-/
import Verif.Roads.Model
import Mathlib.Tactic.Linarith

namespace Verif.Roads

theorem put_same {α β : Type} [DecidableEq α] (f : α → β) (a : α) (b : β) : put f a b a = b :=
  if_pos rfl

theorem put_other {α β : Type} [DecidableEq α] (f : α → β) {a x : α} (b : β) (h : x ≠ a) :
    put f a b x = f x := if_neg h

/-! ### Points used for planning -/

/-- All points of all roads, one road after the other. -/
def onRoads (ways : List Way) : List Id := (ways.filter (·.highway)).flatMap (·.nodes)

/-- The point is the first or the last of a road. -/
def RoadEnd (ways : List Way) (x : Id) : Prop :=
  ∃ w ∈ ways, w.highway = true ∧ (w.nodes.head? = some x ∨ w.nodes.getLast? = some x)

/-- What the flags are, after the points `P` with their marks. -/
def FlagInv (m : Id → Option Bool) (P : List (Id × Bool)) : Prop :=
  ∀ x, (m x = none ↔ x ∉ P.map (·.1)) ∧
    (m x = some true ↔ (x, true) ∈ P ∨ 2 ≤ (P.map (·.1)).count x)

theorem flagInv_flag {m : Id → Option Bool} {P : List (Id × Bool)} (h : FlagInv m P) (x : Id)
    (e : Bool) : FlagInv (flag m x e) (P ++ [(x, e)]) := by
  intro y
  obtain ⟨h₁, h₂⟩ := h y
  by_cases hy : y = x
  · subst hy
    unfold flag
    rw [put_same]
    refine ⟨by simp, ?_⟩
    rw [List.map_append, List.count_append]
    have hc : List.count y (List.map (·.1) [(y, e)]) = 1 := by simp
    rw [hc]
    by_cases hm : y ∈ P.map (·.1)
    · have : 1 ≤ (P.map (·.1)).count y := List.count_pos_iff.mpr hm
      have hs : (m y).isSome = true := by
        cases em : m y with
        | none => exact absurd hm (h₁.mp em)
        | some _ => rfl
      rw [hs, Bool.or_true]
      exact ⟨fun _ => .inr (by omega), fun _ => rfl⟩
    · have hn := h₁.mpr hm
      rw [hn]
      have hc0 : (P.map (·.1)).count y = 0 := List.count_eq_zero.mpr hm
      rw [hc0]
      constructor
      · intro he
        have he : e = true := by simpa using he
        exact .inl (by rw [he]; simp)
      · rintro (he | he)
        · rcases List.mem_append.mp he with he | he
          · exact absurd (List.mem_map.mpr ⟨_, he, rfl⟩) hm
          · have : true = e := by simpa using he
            rw [← this]; rfl
        · omega
  · unfold flag
    rw [put_other _ _ hy]
    refine ⟨?_, ?_⟩
    · rw [h₁]
      simp [hy]
    · rw [h₂, List.map_append, List.count_append]
      have hc : List.count y (List.map (·.1) [(x, e)]) = 0 := by
        simp [Ne.symm hy]
      rw [hc]
      simp [hy]

/-- The marks of a road. -/
def marks (len : Nat) : Nat → List Id → List (Id × Bool)
  | _, [] => []
  | i, x :: xs => (x, i == 0 || i + 1 == len) :: marks len (i + 1) xs

theorem marks_fst (len : Nat) : ∀ (xs : List Id) (i : Nat), (marks len i xs).map (·.1) = xs
  | [], _ => rfl
  | x :: xs, i => by rw [marks, List.map_cons, marks_fst len xs]

theorem marks_end (len : Nat) (x : Id) : ∀ (xs : List Id) (i : Nat), i + xs.length = len →
    ((x, true) ∈ marks len i xs ↔ (i = 0 ∧ xs.head? = some x) ∨ xs.getLast? = some x)
  | [], i, _ => by simp [marks]
  | y :: ys, i, h => by
    rw [marks, List.mem_cons, marks_end len x ys (i + 1) (by simp at h; omega)]
    have h' : i + 1 + ys.length = len := by simp at h; omega
    cases ys with
    | nil =>
      have : i + 1 = len := by simpa using h'
      simp [this]
      constructor
      · rintro rfl; exact .inr rfl
      · rintro (⟨_, rfl⟩ | rfl) <;> rfl
    | cons z zs =>
      have : ¬ i + 1 = len := by simp at h'; omega
      have e : (y :: z :: zs).getLast? = (z :: zs).getLast? := by simp
      rw [e]
      simp [this]
      constructor
      · rintro (⟨rfl, rfl⟩ | h)
        · exact .inl ⟨rfl, rfl⟩
        · exact .inr h
      · rintro (⟨rfl, rfl⟩ | h)
        · exact .inl ⟨rfl, rfl⟩
        · exact .inr h

theorem flagInv_nodes (len : Nat) : ∀ (xs : List Id) (i : Nat) (m : Id → Option Bool)
    (P : List (Id × Bool)), FlagInv m P → FlagInv (flagNodes len i xs m) (P ++ marks len i xs)
  | [], i, m, P, h => by rw [marks, List.append_nil]; exact h
  | x :: xs, i, m, P, h => by
    rw [flagNodes, marks]
    have := flagInv_nodes len xs (i + 1) _ _ (flagInv_flag h x (i == 0 || i + 1 == len))
    rw [List.append_assoc] at this
    exact this

/-- The marks of all roads. -/
def allMarks (ways : List Way) : List (Id × Bool) :=
  (ways.filter (·.highway)).flatMap fun w => marks w.nodes.length 0 w.nodes

theorem flagInv_flags : ∀ (ways : List Way) (m : Id → Option Bool) (P : List (Id × Bool)),
    FlagInv m P → FlagInv (flags ways m) (P ++ allMarks ways)
  | [], m, P, h => by simpa [allMarks, flags] using h
  | w :: ws, m, P, h => by
    rw [flags]
    by_cases hw : w.highway = true
    · rw [if_pos hw]
      have := flagInv_flags ws _ _ (flagInv_nodes w.nodes.length w.nodes 0 m P h)
      rw [List.append_assoc] at this
      have e : allMarks (w :: ws) = marks w.nodes.length 0 w.nodes ++ allMarks ws := by
        unfold allMarks
        rw [List.filter_cons_of_pos hw, List.flatMap_cons]
      rw [e]; exact this
    · rw [if_neg hw]
      have e : allMarks (w :: ws) = allMarks ws := by
        unfold allMarks
        rw [List.filter_cons_of_neg hw]
      rw [e]; exact flagInv_flags ws _ _ h

theorem allMarks_fst (ways : List Way) : (allMarks ways).map (·.1) = onRoads ways := by
  unfold allMarks onRoads
  rw [List.map_flatMap]
  congr 1
  funext w
  exact marks_fst _ _ _

theorem allMarks_end (ways : List Way) (x : Id) : (x, true) ∈ allMarks ways ↔ RoadEnd ways x := by
  unfold allMarks RoadEnd
  simp only [List.mem_flatMap, List.mem_filter, and_assoc]
  constructor
  · rintro ⟨w, hw, hh, hm⟩
    refine ⟨w, hw, hh, ?_⟩
    rcases (marks_end _ _ _ 0 (Nat.zero_add _)).mp hm with ⟨-, h⟩ | h
    · exact .inl h
    · exact .inr h
  · rintro ⟨w, hw, hh, hm⟩
    refine ⟨w, hw, hh, (marks_end _ _ _ 0 (Nat.zero_add _)).mpr ?_⟩
    rcases hm with h | h
    · exact .inl ⟨rfl, h⟩
    · exact .inr h

/-- Every point of a road has a flag, and no other point. -/
theorem flags_some (ways : List Way) (x : Id) :
    (flags ways fun _ => none) x ≠ none ↔ x ∈ onRoads ways := by
  have := (flagInv_flags ways (fun _ => none) [] (fun x => by simp) x).1
  rw [List.nil_append, allMarks_fst] at this
  rw [Ne, this, not_not]

/-- **C154.**  A point is used for planning exactly if it is an end of a road or is on
the roads twice: on two roads, or twice on one. -/
theorem C154_planning (ways : List Way) (x : Id) :
    (flags ways fun _ => none) x = some true ↔
      RoadEnd ways x ∨ 2 ≤ (onRoads ways).count x := by
  have := (flagInv_flags ways (fun _ => none) [] (fun x => by simp) x).2
  rw [List.nil_append, allMarks_fst, allMarks_end] at this
  exact this

/-! ### Reading the points -/

/-- What is true of the points after the nodes `E` of the file are read. -/
structure LoadInv (fl : Id → Option Bool) (E : List NodeEl) (L : Loaded) : Prop where
  from_ : ∀ x q, L.pos x = some q → ∃ el ∈ E, el.id = x ∧ el.at_ = some q
  road : ∀ x, L.pos x ≠ none → fl x ≠ none
  got : ∀ el ∈ E, el.at_ ≠ none → fl el.id ≠ none → L.pos el.id ≠ none
  plan : ∀ x, x ∈ L.planning ↔ fl x = some true ∧ ∃ el ∈ E, el.id = x
  nodup : L.planning.Nodup
  ix : ∀ x i, L.ix x = some i → L.ids i = some x
  ids : ∀ i x, L.ids i = some x → x ∈ L.planning ∧ 1 ≤ i ∧ i ≤ L.count
  has : ∀ x, x ∈ L.planning → L.ix x ≠ none
  tidy : (∀ el ∈ E, el.at_ ≠ none) → L.count = L.planning.length ∧
    (∀ x ∈ L.planning, L.pos x ≠ none) ∧ ∀ i x, L.ids i = some x → L.ix x = some i

theorem loadInv_first (fl : Id → Option Bool) :
    LoadInv fl [] ⟨fun _ => none, fun _ => none, fun _ => none, [], 0⟩ := by
  constructor <;> simp

theorem loadInv_step {fl : Id → Option Bool} {E : List NodeEl} {L : Loaded}
    (h : LoadInv fl E L) (el : NodeEl) : LoadInv fl (E ++ [el]) (load1 fl L el) := by
  unfold load1
  cases hf : fl el.id with
  | none =>
    dsimp only
    refine ⟨?_, h.road, ?_, ?_, h.nodup, h.ix, h.ids, h.has, ?_⟩
    · intro x q hq
      obtain ⟨el', h₁, h₂⟩ := h.from_ x q hq
      exact ⟨el', by simp [h₁], h₂⟩
    · intro el' he ha hfl
      rcases List.mem_append.mp he with he | he
      · exact h.got el' he ha hfl
      · rw [List.mem_singleton.mp he, hf] at hfl
        exact absurd rfl hfl
    · intro x
      rw [h.plan]
      constructor
      · rintro ⟨h₁, el', h₂, h₃⟩
        exact ⟨h₁, el', by simp [h₂], h₃⟩
      · rintro ⟨h₁, el', h₂, h₃⟩
        refine ⟨h₁, ?_⟩
        rcases List.mem_append.mp h₂ with he | he
        · exact ⟨el', he, h₃⟩
        · rw [List.mem_singleton.mp he] at h₃
          rw [h₃, h₁] at hf
          cases hf
    · intro ht
      exact h.tidy fun el' he => ht el' (by simp [he])
  | some b =>
    dsimp only
    by_cases hp : (L.pos el.id).isSome = true
    · rw [if_pos hp]
      have hp' : L.pos el.id ≠ none := by
        intro e; rw [e] at hp; cases hp
      refine ⟨?_, h.road, ?_, ?_, h.nodup, h.ix, h.ids, h.has, ?_⟩
      · intro x q hq
        obtain ⟨el', h₁, h₂⟩ := h.from_ x q hq
        exact ⟨el', by simp [h₁], h₂⟩
      · intro el' he ha hfl
        rcases List.mem_append.mp he with he | he
        · exact h.got el' he ha hfl
        · rw [List.mem_singleton.mp he]; exact hp'
      · intro x
        rw [h.plan]
        constructor
        · rintro ⟨h₁, el', h₂, h₃⟩
          exact ⟨h₁, el', by simp [h₂], h₃⟩
        · rintro ⟨h₁, el', h₂, h₃⟩
          refine ⟨h₁, ?_⟩
          rcases List.mem_append.mp h₂ with he | he
          · exact ⟨el', he, h₃⟩
          · rw [List.mem_singleton.mp he] at h₃
            obtain ⟨q, hq⟩ := Option.ne_none_iff_exists'.mp hp'
            obtain ⟨el'', h₄, h₅, -⟩ := h.from_ _ _ hq
            exact ⟨el'', h₄, h₅.trans h₃⟩
      · intro ht
        exact h.tidy fun el' he => ht el' (by simp [he])
    · rw [if_neg hp]
      have hp' : L.pos el.id = none := by
        cases e : L.pos el.id with
        | none => rfl
        | some _ => rw [e] at hp; exact absurd rfl hp
      -- the indices are set first, then the position
      have key : ∀ (L₁ : Loaded), L₁.pos = L.pos →
          (L₁.planning.Nodup) → (∀ x, x ∈ L₁.planning ↔ fl x = some true ∧
            ∃ el' ∈ E ++ [el], el'.id = x) →
          (∀ x i, L₁.ix x = some i → L₁.ids i = some x) →
          (∀ i x, L₁.ids i = some x → x ∈ L₁.planning ∧ 1 ≤ i ∧ i ≤ L₁.count) →
          (∀ x, x ∈ L₁.planning → L₁.ix x ≠ none) →
          ((∀ el' ∈ E ++ [el], el'.at_ ≠ none) → L₁.count = L₁.planning.length ∧
            (∀ x ∈ L₁.planning, L.pos x ≠ none ∨ x = el.id) ∧
            ∀ i x, L₁.ids i = some x → L₁.ix x = some i) →
          LoadInv fl (E ++ [el]) (match el.at_ with
            | some q => { L₁ with pos := put L₁.pos el.id (some q) }
            | none => L₁) := by
        intro L₁ e₁ k₁ k₂ k₃ k₄ k₅ k₆
        have old : ∀ x q, L.pos x = some q → ∃ el' ∈ E ++ [el], el'.id = x ∧ el'.at_ = some q := by
          intro x q hq
          obtain ⟨el', h₁, h₂⟩ := h.from_ x q hq
          exact ⟨el', by simp [h₁], h₂⟩
        cases ha : el.at_ with
        | none =>
          dsimp only
          refine ⟨by rw [e₁]; exact old, by rw [e₁]; exact h.road, ?_, k₂, k₁, k₃, k₄, k₅, ?_⟩
          · intro el' he hat hfl
            rw [e₁]
            rcases List.mem_append.mp he with he | he
            · exact h.got el' he hat hfl
            · rw [List.mem_singleton.mp he, ha] at hat
              exact absurd rfl hat
          · intro ht
            exact absurd ha (ht el (by simp))
        | some q =>
          dsimp only
          refine ⟨?_, ?_, ?_, k₂, k₁, k₃, k₄, k₅, ?_⟩
          · intro x r hr
            dsimp only at hr
            by_cases hx : x = el.id
            · rw [hx, put_same] at hr
              exact ⟨el, by simp, hx.symm, ha.trans hr⟩
            · rw [put_other _ _ hx, e₁] at hr
              exact old x r hr
          · intro x hx
            dsimp only at hx
            by_cases hxe : x = el.id
            · rw [hxe, hf]; simp
            · rw [put_other _ _ hxe, e₁] at hx
              exact h.road x hx
          · intro el' he hat hfl
            dsimp only
            by_cases hx : el'.id = el.id
            · rw [hx, put_same]; simp
            · rw [put_other _ _ hx, e₁]
              rcases List.mem_append.mp he with he | he
              · exact h.got el' he hat hfl
              · rw [List.mem_singleton.mp he] at hx
                exact absurd rfl hx
          · intro ht
            obtain ⟨t₁, t₂, t₃⟩ := k₆ ht
            refine ⟨t₁, fun x hx => ?_, t₃⟩
            dsimp only
            by_cases hxe : x = el.id
            · rw [hxe, put_same]; simp
            · rw [put_other _ _ hxe, e₁]
              exact (t₂ x hx).resolve_right hxe
      cases b with
      | false =>
        refine key L rfl h.nodup ?_ h.ix h.ids h.has ?_
        · intro x
          rw [h.plan]
          constructor
          · rintro ⟨h₁, el', h₂, h₃⟩
            exact ⟨h₁, el', by simp [h₂], h₃⟩
          · rintro ⟨h₁, el', h₂, h₃⟩
            refine ⟨h₁, ?_⟩
            rcases List.mem_append.mp h₂ with he | he
            · exact ⟨el', he, h₃⟩
            · rw [List.mem_singleton.mp he] at h₃
              rw [h₃, h₁] at hf
              cases hf
        · intro ht
          obtain ⟨t₁, t₂, t₃⟩ := h.tidy fun el' he => ht el' (by simp [he])
          exact ⟨t₁, fun x hx => .inl (t₂ x hx), t₃⟩
      | true =>
        have hmem : ∀ x, x ∈ (if el.id ∈ L.planning then L.planning else L.planning ++ [el.id]) ↔
            x ∈ L.planning ∨ x = el.id := by
          intro x
          split
          · rename_i hin
            constructor
            · exact .inl
            · rintro (hx | rfl)
              · exact hx
              · exact hin
          · simp
        refine key _ rfl ?_ ?_ ?_ ?_ ?_ ?_
        · rw [if_pos rfl]
          dsimp only
          split
          · exact h.nodup
          · rename_i hin
            rw [List.nodup_append]
            refine ⟨h.nodup, by simp, fun a ha b hb e => ?_⟩
            rw [List.mem_singleton.mp hb] at e
            exact hin (e ▸ ha)
        · intro x
          rw [if_pos rfl]
          dsimp only
          rw [hmem, h.plan]
          constructor
          · rintro (⟨h₁, el', h₂, h₃⟩ | rfl)
            · exact ⟨h₁, el', by simp [h₂], h₃⟩
            · exact ⟨hf, el, by simp, rfl⟩
          · rintro ⟨h₁, el', h₂, h₃⟩
            rcases List.mem_append.mp h₂ with he | he
            · exact .inl ⟨h₁, el', he, h₃⟩
            · rw [List.mem_singleton.mp he] at h₃
              exact .inr h₃.symm
        · intro x i hi
          rw [if_pos rfl] at hi ⊢
          dsimp only at hi ⊢
          by_cases hx : x = el.id
          · rw [hx, put_same] at hi
            have hi : L.count + 1 = i := by simpa using hi
            rw [← hi, put_same, hx]
          · rw [put_other _ _ hx] at hi
            have := h.ix x i hi
            have hne : i ≠ L.count + 1 := by
              have := (h.ids i x this).2.2; omega
            rw [put_other _ _ hne]
            exact this
        · intro i x hi
          rw [if_pos rfl] at hi ⊢
          dsimp only at hi ⊢
          rw [hmem]
          by_cases hne : i = L.count + 1
          · rw [hne, put_same] at hi
            have hi : el.id = x := by simpa using hi
            exact ⟨.inr hi.symm, by omega, by omega⟩
          · rw [put_other _ _ hne] at hi
            obtain ⟨h₁, h₂, h₃⟩ := h.ids i x hi
            exact ⟨.inl h₁, h₂, by omega⟩
        · intro x hx
          rw [if_pos rfl] at hx ⊢
          dsimp only at hx ⊢
          by_cases hxe : x = el.id
          · rw [hxe, put_same]; simp
          · rw [put_other _ _ hxe]
            exact h.has x (((hmem x).mp hx).resolve_right hxe)
        · intro ht
          obtain ⟨t₁, t₂, t₃⟩ := h.tidy fun el' he => ht el' (by simp [he])
          have hin : el.id ∉ L.planning := fun hin => t₂ _ hin hp'
          rw [if_pos rfl]
          dsimp only
          refine ⟨by rw [if_neg hin, List.length_append, t₁]; rfl, ?_, ?_⟩
          · intro x hx
            rcases (hmem x).mp hx with hx | hx
            · exact .inl (t₂ x hx)
            · exact .inr hx
          · intro i x hi
            by_cases hne : i = L.count + 1
            · rw [hne, put_same] at hi
              have hi : el.id = x := by simpa using hi
              rw [hne, ← hi, put_same]
            · rw [put_other _ _ hne] at hi
              have hx : x ≠ el.id := by
                rintro rfl
                exact hin (h.ids i _ hi).1
              rw [put_other _ _ hx]
              exact t₃ i x hi

theorem loadInv (fl : Id → Option Bool) (els : List NodeEl) : LoadInv fl els (load fl els) := by
  unfold load
  have : ∀ (E D : List NodeEl) (L : Loaded), LoadInv fl D L →
      LoadInv fl (D ++ E) (E.foldl (load1 fl) L) := by
    intro E
    induction E with
    | nil => intro D L h; simpa using h
    | cons el E ih =>
      intro D L h
      rw [List.foldl_cons]
      have := ih (D ++ [el]) _ (loadInv_step h el)
      rw [List.append_assoc] at this
      exact this
  simpa using this els [] _ (loadInv_first fl)

end Verif.Roads
