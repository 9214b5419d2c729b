/-
Convex zones are found to be convex.
-/
import Verif.Visibility.Search
import Verif.Visibility.Convex

namespace Verif.Visibility

/-- Three corners in a row, starting with `a` and `b`. -/
def trip : Pt → Pt → List Pt → List (Pt × Pt × Pt)
  | _, _, [] => []
  | a, b, c :: cs => (a, b, c) :: trip b c cs

/-- The direction changes at the middle one of three corners. -/
def turnsBack (t : Pt × Pt × Pt) : Bool := compare t.2.1 t.2.2 = -compare t.1 t.2.1

theorem triples_spec {τ : Int} (hτ : τ ≠ 0) (ts : List Pt) (s : Scan)
    (hd : s.dir = compare s.first s.second) (ha : s.angle = 0 ∨ s.angle = τ)
    (h : ∀ t ∈ trip s.first s.second ts, whichSide t.1 t.2.1 t.2.2 = τ) :
    ∃ r, s.triples ts = some r ∧
      r.changes = s.changes + (trip s.first s.second ts).countP turnsBack ∧
      r.angle = if ts = [] then s.angle else τ := by
  induction ts generalizing s with
  | nil => exact ⟨s, rfl, by simp [trip], by simp⟩
  | cons p ps ih =>
    have hp : whichSide s.first s.second p = τ := h (s.first, s.second, p) (by simp [trip])
    have ht : s.triple p = some { first := s.second, second := p, dir := compare s.second p
                                  angle := τ
                                  changes := if compare s.second p = -s.dir then s.changes + 1
                                    else s.changes } := by
      unfold Scan.triple
      dsimp only
      rw [hp, if_neg, if_pos hτ]
      rintro ⟨-, e⟩
      rcases ha with a | a <;> rw [a] at e <;> omega
    obtain ⟨r, h₁, h₂, h₃⟩ := ih
      { first := s.second, second := p, dir := compare s.second p, angle := τ
        changes := if compare s.second p = -s.dir then s.changes + 1 else s.changes } rfl (.inr rfl)
      (fun t ht => h t (by rw [trip]; exact List.mem_cons_of_mem _ ht))
    refine ⟨r, ?_, ?_, ?_⟩
    · rw [Scan.triples, ht]; exact h₁
    · rw [h₂, trip, List.countP_cons]
      unfold turnsBack
      rw [hd]
      by_cases e : compare s.second p = -compare s.first s.second
      · simp [e]; omega
      · simp [e]
    · rw [h₃, if_neg (List.cons_ne_nil p ps)]
      by_cases e : ps = []
      · rw [if_pos e]
      · rw [if_neg e]

theorem whichSide_line (p q r : Pt) :
    (p.n - q.n) * (q.e - r.e) - (p.e - q.e) * (q.n - r.n) = lineAt p q r := by
  unfold lineAt
  grind

/-! ### The order of corners -/

/-- The order of `compare`. -/
def Before (p q : Pt) : Prop := p.n < q.n ∨ (p.n = q.n ∧ p.e < q.e)

theorem compare_neg {p q : Pt} : compare p q = -1 ↔ Before p q := by
  unfold compare Before
  grind

theorem compare_pos {p q : Pt} : compare p q = 1 ↔ Before q p := by
  unfold compare Before
  grind

theorem compare_zero {p q : Pt} : compare p q = 0 ↔ p = q := by
  cases p; cases q
  unfold compare
  grind

theorem Before.asymm {p q : Pt} (h : Before p q) : ¬ Before q p := by
  unfold Before at *
  grind

/-- The combination of two things not above zero. -/
theorem combine {D α β a b x : Rat} (hD : 0 < D) (hα : 0 < α) (hβ : 0 < β)
    (e : D * x = α * a + β * b) :
    ((a < 0 ∧ b ≤ 0) ∨ (a ≤ 0 ∧ b < 0) → x < 0) ∧ (a = 0 → b = 0 → x = 0) ∧
    ((0 < a ∧ 0 ≤ b) ∨ (0 ≤ a ∧ 0 < b) → 0 < x) := by
  have up : ∀ y z : Rat, 0 < y → 0 < z → 0 < y * z := fun y z h₁ h₂ => Rat.mul_pos h₁ h₂
  have up' : ∀ y z : Rat, 0 ≤ y → 0 ≤ z → 0 ≤ y * z := fun y z h₁ h₂ => Rat.mul_nonneg h₁ h₂
  have hα' := Rat.le_of_lt hα
  have hβ' := Rat.le_of_lt hβ
  have hD' := Rat.le_of_lt hD
  refine ⟨fun h => ?_, fun h₁ h₂ => ?_, fun h => ?_⟩
  · refine Rat.not_le.mp fun hx => ?_
    have := up' D x hD' hx
    rcases h with ⟨h₁, h₂⟩ | ⟨h₁, h₂⟩
    · have := up α (-a) hα (by grind)
      have := up' β (-b) hβ' (by grind)
      grind
    · have := up' α (-a) hα' (by grind)
      have := up β (-b) hβ (by grind)
      grind
  · rw [h₁, h₂] at e
    by_cases hx : x = 0
    · exact hx
    · exfalso
      rcases (show 0 < x ∨ 0 < -x by grind) with k | k
      · have := up D x hD k
        grind
      · have := up D (-x) hD k
        grind
  · refine Rat.not_le.mp fun hx => ?_
    have := up' D (-x) hD' (by grind)
    rcases h with ⟨h₁, h₂⟩ | ⟨h₁, h₂⟩
    · have := up α a hα h₁
      have := up' β b hβ' h₂
      grind
    · have := up' α a hα' h₁
      have := up β b hβ h₂
      grind

/-- A corner in the angle between two neighbours is on the same side of the
middle one as they are. -/
theorem in_angle {σ : Rat} {u v w x : Pt} (hD : 0 < σ * lineAt u v w)
    (h₁ : 0 < σ * lineAt u v x) (h₂ : 0 < σ * lineAt v w x) :
    (Before u v → Before w v → Before x v) ∧ (Before v u → Before v w → Before v x) := by
  have en : (σ * lineAt u v w) * (x.n - v.n) =
      (σ * lineAt v w x) * (u.n - v.n) + (σ * lineAt u v x) * (w.n - v.n) := by
    unfold lineAt; grind
  have ee : (σ * lineAt u v w) * (x.e - v.e) =
      (σ * lineAt v w x) * (u.e - v.e) + (σ * lineAt u v x) * (w.e - v.e) := by
    unfold lineAt; grind
  obtain ⟨n₁, n₂, n₃⟩ := combine hD h₂ h₁ en
  obtain ⟨e₁, e₂, e₃⟩ := combine hD h₂ h₁ ee
  clear en ee hD h₁ h₂
  unfold Before
  constructor
  · rintro (a | ⟨a, a'⟩) (b | ⟨b, b'⟩)
    · have := n₁ (by grind); grind
    · have := n₁ (by grind); grind
    · have := n₁ (by grind); grind
    · have := n₂ (by grind) (by grind)
      have := e₁ (by grind)
      grind
  · rintro (a | ⟨a, a'⟩) (b | ⟨b, b'⟩)
    · have := n₃ (by grind); grind
    · have := n₃ (by grind); grind
    · have := n₃ (by grind); grind
    · have := n₂ (by grind) (by grind)
      have := e₃ (by grind)
      grind

/-- A corner between two that are both before it is after all others; and one
between two that are both after it is before all others. -/
theorem extreme {σ : Rat} {vs : List Pt} (hc : Convex σ vs) {u v w x : Pt}
    (h₁ : (u, v) ∈ sides vs) (h₂ : (v, w) ∈ sides vs) (hx : x ∈ vs) (hne : x ≠ v) :
    (Before u v → Before w v → Before x v) ∧ (Before v u → Before v w → Before v x) := by
  by_cases a : x = u
  · subst a; exact ⟨fun h _ => h, fun h _ => h⟩
  by_cases b : x = w
  · subst b; exact ⟨fun _ h => h, fun _ h => h⟩
  have k₁ := hc.2.2 _ h₁ x hx a hne
  have k₂ := hc.2.2 _ h₂ x hx hne b
  dsimp only at k₁ k₂
  have hw : w ∈ vs := by
    obtain ⟨i, hi, -, e⟩ := mem_sides h₂
    dsimp only at e
    rw [e]
    exact List.getElem_mem _
  by_cases c : w = u
  · subst c
    have : lineAt v w x = -lineAt w v x := by unfold lineAt; grind
    rw [this] at k₂
    exfalso
    grind
  by_cases d : w = v
  · subst d
    exact ⟨fun _ h => absurd h (h.asymm), fun _ h => absurd h (h.asymm)⟩
  exact in_angle (hc.2.2 _ h₁ w hw c d) k₁ k₂

/-! ### All the triples of a zone -/

theorem legs_sides (a : Pt) (l : List Pt) : legs (a :: l ++ [a]) = sides (a :: l) := by
  have key : ∀ (l : List Pt) (a z : Pt), legs (a :: l ++ [z]) = (a :: l).zip (l ++ [z]) := by
    intro l
    induction l with
    | nil => intro a z; rfl
    | cons b l ih =>
      intro a z
      show (a, b) :: legs (b :: l ++ [z]) = _
      rw [ih]; rfl
  rw [key]
  rfl

theorem trip_legs {a b : Pt} {ts : List Pt} {t : Pt × Pt × Pt} (h : t ∈ trip a b ts) :
    (t.1, t.2.1) ∈ legs (a :: b :: ts) ∧ (t.2.1, t.2.2) ∈ legs (a :: b :: ts) := by
  induction ts generalizing a b with
  | nil => cases h
  | cons c cs ih =>
    rw [trip] at h
    rcases List.mem_cons.mp h with rfl | h
    · simp [legs]
    · obtain ⟨h₁, h₂⟩ := ih h
      exact ⟨List.mem_cons_of_mem _ h₁, List.mem_cons_of_mem _ h₂⟩

theorem trip_middles (a b : Pt) (ts : List Pt) (c : Pt) :
    (trip a b (ts ++ [c])).map (·.2.1) = b :: ts := by
  induction ts generalizing a b with
  | nil => rfl
  | cons d ds ih =>
    show b :: (trip b d (ds ++ [c])).map _ = _
    rw [ih]

theorem trip_sides {a b : Pt} {rest : List Pt} {t : Pt × Pt × Pt}
    (h : t ∈ trip a b (rest ++ [a] ++ [b])) :
    (t.1, t.2.1) ∈ sides (a :: b :: rest) ∧ (t.2.1, t.2.2) ∈ sides (a :: b :: rest) := by
  have e : ∀ x, x ∈ legs (a :: b :: (rest ++ [a] ++ [b])) → x ∈ sides (a :: b :: rest) := by
    intro x hx
    have e₁ : a :: b :: (rest ++ [a] ++ [b]) = (a :: b :: rest) ++ [a, b] := by simp
    rw [e₁, legs_snoc] at hx
    rcases List.mem_append.mp hx with hx | hx
    · exact legs_sides a (b :: rest) ▸ hx
    · rw [List.mem_singleton.mp hx]
      simp [sides]
  obtain ⟨h₁, h₂⟩ := trip_legs h
  exact ⟨e _ h₁, e _ h₂⟩

theorem count_le_one {α : Type} {p : α → Bool} {l : List α}
    (h : l.Pairwise fun x y => ¬ (p x = true ∧ p y = true)) : l.countP p ≤ 1 := by
  induction l with
  | nil => simp
  | cons a l ih =>
    obtain ⟨h₁, h₂⟩ := List.pairwise_cons.mp h
    rw [List.countP_cons]
    by_cases k : p a = true
    · have : l.countP p = 0 := by
        rw [List.countP_eq_zero]
        intro x hx hp
        exact h₁ x hx ⟨k, hp⟩
      rw [this, if_pos k]
      omega
    · rw [if_neg k]
      exact ih h₂

theorem count_or {α : Type} {p q r : α → Bool} {l : List α}
    (h : ∀ x ∈ l, p x = true → q x = true ∨ r x = true) : l.countP p ≤ l.countP q + l.countP r := by
  induction l with
  | nil => simp
  | cons a l ih =>
    have ih := ih fun x hx => h x (List.mem_cons_of_mem _ hx)
    have ha := h a (by simp)
    rw [List.countP_cons, List.countP_cons, List.countP_cons]
    by_cases k : p a = true
    · rcases ha k with k' | k' <;> simp [k, k'] <;> omega
    · simp [k]; omega

/-- **C110.**  A convex zone is classified as convex, with its orientation. -/
theorem C110_convex {σ : Rat} {vs : List Pt} (hc : Convex σ vs) :
    classify vs = if 0 < σ then .convexCCW else .convexCW := by
  match vs, hc with
  | [], hc => exact absurd hc.1 (by simp)
  | [_], hc => exact absurd hc.1 (by simp)
  | [_, _], hc => exact absurd hc.1 (by simp)
  | a :: b :: c :: rest, hc =>
    generalize hr : c :: rest = r at hc
    have hmem : ∀ s ∈ sides (a :: b :: r), s.1 ∈ a :: b :: r ∧ s.2 ∈ a :: b :: r := by
      intro s hs
      obtain ⟨i, hi, e₁, e₂⟩ := mem_sides hs
      rw [e₁, e₂]
      exact ⟨List.getElem_mem _, List.getElem_mem _⟩
    have hne : ∀ s ∈ sides (a :: b :: r), s.1 ≠ s.2 := by
      intro s hs e
      obtain ⟨⟨w, -, h⟩, -⟩ := hc.turns hs
      rw [← e] at h
      have : lineAt w s.1 s.1 = 0 := by unfold lineAt; grind
      rw [this] at h
      grind
    have hclose : compare ((b :: r).getLast (by simp)) a ≠ 0 := by
      intro e
      have e := compare_zero.mp e
      have : a ∈ b :: r := by
        have h := List.getLast_mem (l := b :: r) (by simp)
        rw [e] at h
        exact h
      exact (List.nodup_cons.mp hc.2.1).1 this
    -- all turns go the same way
    have hσ : σ ≠ 0 := by
      rintro rfl
      obtain ⟨⟨w, -, h⟩, -⟩ := hc.turns (s := (a, b)) (by simp [sides])
      grind
    let τ : Int := if 0 < σ then 1 else -1
    have hτ : τ ≠ 0 := by
      show (if 0 < σ then (1 : Int) else -1) ≠ 0
      split <;> decide
    have hside : ∀ t ∈ trip a b (r ++ [a] ++ [b]), whichSide t.1 t.2.1 t.2.2 = τ := by
      intro t ht
      obtain ⟨h₁, h₂⟩ := trip_sides ht
      have hpos : 0 < σ * lineAt t.1 t.2.1 t.2.2 := by
        apply hc.2.2 _ h₁ _ (hmem _ h₂).2
        · intro e
          obtain ⟨-, x, hx, hpos⟩ := hc.turns h₁
          have hxe : x = t.2.2 := by
            obtain ⟨i, hi, e₁, e₂⟩ := mem_sides hx
            obtain ⟨j, hj, e₃, e₄⟩ := mem_sides h₂
            dsimp only at e₁ e₂ e₃ e₄
            have : i = j := (List.getElem_inj hc.2.1).mp (by rw [← e₁, ← e₃])
            subst this
            rw [e₂, e₄]
          rw [hxe, e] at hpos
          dsimp only at hpos
          have : lineAt t.2.1 t.1 t.1 = 0 := by unfold lineAt; grind
          rw [this] at hpos
          grind
        · exact fun e => hne _ h₂ e.symm
      show _ = (if 0 < σ then (1 : Int) else -1)
      unfold whichSide
      dsimp only
      rw [whichSide_line]
      generalize lineAt t.1 t.2.1 t.2.2 = y at hpos
      by_cases k : 0 < σ
      · have hy : 0 < y := Rat.not_le.mp fun hy => by
          have := Rat.mul_nonneg (a := σ) (b := -y) (by grind) (by grind)
          grind
        rw [if_neg (by grind), if_pos hy, if_pos k]
      · have hy : y < 0 := Rat.not_le.mp fun hy => by
          have := Rat.mul_nonneg (a := -σ) (b := y) (by grind) hy
          grind
        rw [if_pos hy, if_neg k]
    -- the direction changes at most twice
    have hnd : ((trip a b (r ++ [a] ++ [b])).map (·.2.1)).Nodup := by
      rw [trip_middles]
      have h := hc.2.1
      have : (b :: (r ++ [a])).Perm (a :: b :: r) := by
        have : (b :: r ++ [a]).Perm ([a] ++ (b :: r)) := List.perm_append_comm
        exact this
      exact this.nodup_iff.mpr h
    let isMax : Pt × Pt × Pt → Bool := fun t =>
      decide (compare t.1 t.2.1 = -1) && decide (compare t.2.1 t.2.2 = 1)
    let isMin : Pt × Pt × Pt → Bool := fun t =>
      decide (compare t.1 t.2.1 = 1) && decide (compare t.2.1 t.2.2 = -1)
    have hcnt : (trip a b (r ++ [a] ++ [b])).countP turnsBack ≤ 2 := by
      have one : ∀ p : Pt × Pt × Pt → Bool,
          (∀ x ∈ trip a b (r ++ [a] ++ [b]), ∀ y ∈ trip a b (r ++ [a] ++ [b]), x.2.1 ≠ y.2.1 →
            ¬ (p x = true ∧ p y = true)) → (trip a b (r ++ [a] ++ [b])).countP p ≤ 1 := by
        intro p hp
        apply count_le_one
        have hpw := List.pairwise_map.mp (List.nodup_iff_pairwise_ne.mp hnd)
        exact List.Pairwise.imp_of_mem (fun hx hy h => hp _ hx _ hy h) hpw
      have hmax := one isMax (by
        intro x hx y hy hxy ⟨h₁, h₂⟩
        have h₁ : compare x.1 x.2.1 = -1 ∧ compare x.2.1 x.2.2 = 1 := by simpa [isMax] using h₁
        have h₂ : compare y.1 y.2.1 = -1 ∧ compare y.2.1 y.2.2 = 1 := by simpa [isMax] using h₂
        obtain ⟨sx₁, sx₂⟩ := trip_sides hx
        obtain ⟨sy₁, sy₂⟩ := trip_sides hy
        have k₁ := (extreme hc sx₁ sx₂ (hmem _ sy₁).2 (fun e => hxy e.symm)).1
          (compare_neg.mp h₁.1) (compare_pos.mp h₁.2)
        have k₂ := (extreme hc sy₁ sy₂ (hmem _ sx₁).2 hxy).1
          (compare_neg.mp h₂.1) (compare_pos.mp h₂.2)
        exact k₁.asymm k₂)
      have hmin := one isMin (by
        intro x hx y hy hxy ⟨h₁, h₂⟩
        have h₁ : compare x.1 x.2.1 = 1 ∧ compare x.2.1 x.2.2 = -1 := by simpa [isMin] using h₁
        have h₂ : compare y.1 y.2.1 = 1 ∧ compare y.2.1 y.2.2 = -1 := by simpa [isMin] using h₂
        obtain ⟨sx₁, sx₂⟩ := trip_sides hx
        obtain ⟨sy₁, sy₂⟩ := trip_sides hy
        have k₁ := (extreme hc sx₁ sx₂ (hmem _ sy₁).2 (fun e => hxy e.symm)).2
          (compare_pos.mp h₁.1) (compare_neg.mp h₁.2)
        have k₂ := (extreme hc sy₁ sy₂ (hmem _ sx₁).2 hxy).2
          (compare_pos.mp h₂.1) (compare_neg.mp h₂.2)
        exact k₁.asymm k₂)
      have := count_or (p := turnsBack) (q := isMax) (r := isMin)
        (l := trip a b (r ++ [a] ++ [b])) (by
          intro t ht h
          have h : compare t.2.1 t.2.2 = -compare t.1 t.2.1 := by simpa [turnsBack] using h
          obtain ⟨h₁, -⟩ := trip_sides ht
          have hn : compare t.1 t.2.1 ≠ 0 := fun e => hne _ h₁ (compare_zero.mp e)
          have hv : compare t.1 t.2.1 = -1 ∨ compare t.1 t.2.1 = 0 ∨ compare t.1 t.2.1 = 1 := by
            unfold compare
            grind
          rcases hv with e | e | e
          · exact .inl (by simp [isMax, h, e])
          · exact absurd e hn
          · exact .inr (by simp [isMin, h, e]))
      omega
    obtain ⟨s, h₁, h₂, h₃⟩ := triples_spec hτ (r ++ [a] ++ [b])
      { first := a, second := b, dir := compare a b : Scan } rfl (.inl rfl) hside
    rw [if_neg (by simp)] at h₃
    rw [classify]
    rw [if_pos hclose, h₁]
    dsimp only
    have h₂ : s.changes = 0 + (trip a b (r ++ [a] ++ [b])).countP turnsBack := h₂
    rw [if_neg (by omega), h₃]
    by_cases k : 0 < σ
    · have e : τ = 1 := if_pos k
      rw [e, if_pos k]; rfl
    · have e : τ = -1 := if_neg k
      rw [e, if_neg k]; rfl

end Verif.Visibility
