/-
A way to compute the tables of distances and parents, and a proof that they are
as `boost::dijkstra_shortest_paths` promises.  The library itself is not
modelled; this shows that what is asked of it can be had for every graph, and
gives tables to compute examples with.
-/
import Verif.Visibility.Search

namespace Verif.Visibility

/-- A vertex whose distance and parent are settled. -/
structure Node where
  v : Nat
  d : Nat
  par : Nat
deriving DecidableEq, Repr

/-- The entry of a vertex. -/
def look (S : List Node) (v : Nat) : Option Node := S.find? fun x => x.v = v

/-- The edge from `u` to `v` leads out of the settled vertices. -/
def oneWay (S : List Node) (u v k : Nat) : List Node :=
  match look S u with
  | some x => if (look S v).isSome then [] else [⟨v, x.d + k, u⟩]
  | none => []

/-- All edges that lead out of the settled vertices, with the distance they give
to the vertex they lead to. -/
def outward (base : List Edge) (S : List Node) : List Node :=
  base.flatMap fun g => oneWay S g.a g.b g.len ++ oneWay S g.b g.a g.len

/-- The first of the nearest. -/
def nearest : List Node → Option Node
  | [] => none
  | x :: xs => match nearest xs with
    | none => some x
    | some y => if x.d ≤ y.d then some x else some y

/-- Settle the nearest vertex again and again. -/
def grow (base : List Edge) : Nat → List Node → List Node
  | 0, S => S
  | n + 1, S => match nearest (outward base S) with
    | none => S
    | some x => grow base n (S ++ [x])

/-- The settled vertices, from `s`. -/
def settled (base : List Edge) (n s : Nat) : List Node := grow base n [⟨s, 0, s⟩]

/-- The tables of all start vertices. -/
def tables (base : List Edge) (n : Nat) : Tables where
  dist s v := match look (settled base n s) v with | some x => x.d | none => intMax
  parent s v := match look (settled base n s) v with | some x => x.par | none => v

theorem nearest_spec {l : List Node} {x : Node} (h : nearest l = some x) :
    x ∈ l ∧ ∀ y ∈ l, x.d ≤ y.d := by
  induction l generalizing x with
  | nil => cases h
  | cons a l ih =>
    rw [nearest] at h
    cases e : nearest l with
    | none =>
      rw [e] at h
      cases h
      refine ⟨by simp, fun y hy => ?_⟩
      rcases List.mem_cons.mp hy with rfl | hy
      · exact Nat.le_refl _
      · cases l with
        | nil => cases hy
        | cons b l =>
          rw [nearest] at e
          split at e
          · cases e
          · split at e <;> cases e
    | some z =>
      rw [e] at h
      dsimp only at h
      obtain ⟨h₁, h₂⟩ := ih e
      by_cases k : a.d ≤ z.d
      · rw [if_pos k] at h
        cases h
        refine ⟨by simp, fun y hy => ?_⟩
        rcases List.mem_cons.mp hy with rfl | hy
        · exact Nat.le_refl _
        · exact Nat.le_trans k (h₂ y hy)
      · rw [if_neg k] at h
        cases h
        refine ⟨List.mem_cons_of_mem _ h₁, fun y hy => ?_⟩
        rcases List.mem_cons.mp hy with rfl | hy
        · omega
        · exact h₂ y hy

theorem nearest_none {l : List Node} (h : nearest l = none) : l = [] := by
  cases l with
  | nil => rfl
  | cons a l =>
    rw [nearest] at h
    split at h
    · cases h
    · split at h <;> cases h

theorem look_some {S : List Node} {v : Nat} {x : Node} (h : look S v = some x) :
    x ∈ S ∧ x.v = v :=
  ⟨List.mem_of_find?_eq_some h, by simpa using List.find?_some h⟩

theorem look_none {S : List Node} {v : Nat} : look S v = none ↔ ∀ x ∈ S, x.v ≠ v := by
  unfold look
  rw [List.find?_eq_none]
  simp

theorem look_mem {S : List Node} (hn : (S.map (·.v)).Nodup) {x : Node} (h : x ∈ S) :
    look S x.v = some x := by
  cases e : look S x.v with
  | none => exact absurd rfl (look_none.mp e x h)
  | some y =>
    obtain ⟨hy, e'⟩ := look_some e
    obtain ⟨i, hi, ei⟩ := List.mem_iff_getElem.mp h
    obtain ⟨j, hj, ej⟩ := List.mem_iff_getElem.mp hy
    have : i = j := by
      refine (List.getElem_inj (h₀ := by simpa using hi) (h₁ := by simpa using hj) hn).mp ?_
      simp only [List.getElem_map]
      rw [ei, ej, e']
    subst this
    rw [← ei, ej]

theorem mem_outward {base : List Edge} {S : List Node} {y : Node} :
    y ∈ outward base S ↔ ∃ x k, look S x.v = some x ∧ Link base x.v y.v k ∧
      look S y.v = none ∧ y.d = x.d + k ∧ y.par = x.v := by
  have one : ∀ u v k, y ∈ oneWay S u v k ↔ ∃ x, look S u = some x ∧ look S v = none ∧
      y = ⟨v, x.d + k, u⟩ := by
    intro u v k
    unfold oneWay
    cases e : look S u with
    | none => simp
    | some x =>
      dsimp only
      cases e' : look S v with
      | none => simp
      | some z => simp
  unfold outward
  simp only [List.mem_flatMap, List.mem_append, one]
  constructor
  · rintro ⟨g, hg, ⟨x, h₁, h₂, rfl⟩ | ⟨x, h₁, h₂, rfl⟩⟩
    · have := (look_some h₁).2
      refine ⟨x, g.len, by rw [this]; exact h₁, ?_, h₂, rfl, this.symm⟩
      rw [this]
      exact ⟨g, hg, rfl, .inl ⟨rfl, rfl⟩⟩
    · have := (look_some h₁).2
      refine ⟨x, g.len, by rw [this]; exact h₁, ?_, h₂, rfl, this.symm⟩
      rw [this]
      exact ⟨g, hg, rfl, .inr ⟨rfl, rfl⟩⟩
  · rintro ⟨x, k, h₁, ⟨g, hg, hk, hab⟩, h₂, h₃, h₄⟩
    refine ⟨g, hg, ?_⟩
    rcases hab with ⟨ha, hb⟩ | ⟨ha, hb⟩
    · refine .inl ⟨x, by rw [ha]; exact h₁, by rw [hb]; exact h₂, ?_⟩
      cases y
      simp only at *
      rw [ha, hb, h₃, h₄, hk]
    · refine .inr ⟨x, by rw [hb]; exact h₁, by rw [ha]; exact h₂, ?_⟩
      cases y
      simp only at *
      rw [ha, hb, h₃, h₄, hk]

/-- What is true of the settled vertices all the time. -/
structure Good (base : List Edge) (n s : Nat) (S : List Node) : Prop where
  nodup : (S.map (·.v)).Nodup
  bound : ∀ x ∈ S, x.v < n
  root : ∃ R, S = ⟨s, 0, s⟩ :: R
  tree : ∀ A x B, S = A ++ x :: B → A ≠ [] →
    ∃ y ∈ A, y.v = x.par ∧ ∃ k, Link base y.v x.v k ∧ x.d = y.d + k
  reach : ∀ x ∈ S, Reach base s x.v
  least : ∀ x ∈ S, ∀ l w, Walk base s x.v l w → x.d ≤ w

/-- A way to a vertex that is not settled leaves the settled vertices. -/
theorem leaves {base : List Edge} {n s : Nat} {S : List Node} (h : Good base n s S)
    {v : Nat} {l : List Nat} {w : Nat} (hw : Walk base s v l w) (hv : look S v = none) :
    ∃ y ∈ outward base S, y.d ≤ w := by
  induction hw with
  | here =>
    obtain ⟨R, e⟩ := h.root
    exact absurd rfl (look_none.mp hv ⟨s, 0, s⟩ (by rw [e]; simp))
  | @step u x k l w hw hl ih =>
    cases e : look S u with
    | none =>
      obtain ⟨y, hy, hd⟩ := ih e
      exact ⟨y, hy, by omega⟩
    | some z =>
      obtain ⟨hz, ez⟩ := look_some e
      refine ⟨⟨x, z.d + k, z.v⟩, mem_outward.mpr ⟨z, k, by rw [ez]; exact e, by rw [ez]; exact hl,
        hv, rfl, rfl⟩, ?_⟩
      have := h.least z hz l w (by rw [ez]; exact hw)
      dsimp only
      omega

theorem good_step {base : List Edge} {n s : Nat} {S : List Node}
    (hb : ∀ g ∈ base, g.a < n ∧ g.b < n) (h : Good base n s S) {x : Node}
    (hx : nearest (outward base S) = some x) : Good base n s (S ++ [x]) := by
  obtain ⟨hm, hmin⟩ := nearest_spec hx
  obtain ⟨y, k, hy, hl, hnew, hd, hp⟩ := mem_outward.mp hm
  obtain ⟨hyS, -⟩ := look_some hy
  refine ⟨?_, ?_, ?_, ?_, ?_, ?_⟩
  · rw [List.map_append, List.nodup_append]
    refine ⟨h.nodup, by simp, fun a ha b hb e => ?_⟩
    obtain ⟨z, hz, rfl⟩ := List.mem_map.mp ha
    have : b = x.v := by simpa using hb
    exact look_none.mp hnew z hz (e.trans this)
  · intro z hz
    rcases List.mem_append.mp hz with hz | hz
    · exact h.bound z hz
    · rw [List.mem_singleton.mp hz]
      obtain ⟨g, hg, -, ⟨-, e⟩ | ⟨e, -⟩⟩ := hl
      · rw [← e]; exact (hb g hg).2
      · rw [← e]; exact (hb g hg).1
  · obtain ⟨R, e⟩ := h.root
    exact ⟨R ++ [x], by rw [e]; rfl⟩
  · intro A z B e hA
    rcases List.eq_nil_or_concat B with rfl | ⟨B', b, rfl⟩
    · have e' : S ++ [x] = A ++ [z] := e
      obtain ⟨rfl, e₂⟩ := List.append_inj' e' rfl
      cases e₂
      exact ⟨y, hyS, hp.symm, k, hl, hd⟩
    · have e' : S ++ [x] = (A ++ z :: B') ++ [b] := by rw [e]; simp
      obtain ⟨e₁, -⟩ := List.append_inj' e' rfl
      exact h.tree A z B' e₁ hA
  · intro z hz
    rcases List.mem_append.mp hz with hz | hz
    · exact h.reach z hz
    · rw [List.mem_singleton.mp hz]
      obtain ⟨l, w, hw⟩ := h.reach y hyS
      exact ⟨_, _, .step hw hl⟩
  · intro z hz l w hw
    rcases List.mem_append.mp hz with hz | hz
    · exact h.least z hz l w hw
    · rw [List.mem_singleton.mp hz] at hw ⊢
      obtain ⟨u, hu, hle⟩ := leaves h hw hnew
      exact Nat.le_trans (hmin u hu) hle

theorem good_length {base : List Edge} {n s : Nat} {S : List Node} (h : Good base n s S) :
    S.length ≤ n := by
  have hs : S.map (·.v) ⊆ List.range n := by
    intro v hv
    obtain ⟨x, hx, rfl⟩ := List.mem_map.mp hv
    exact List.mem_range.mpr (h.bound x hx)
  simpa using List.Nodup.length_le_of_subset h.nodup hs

theorem grow_spec {base : List Edge} {n s : Nat} (hb : ∀ g ∈ base, g.a < n ∧ g.b < n) (f : Nat)
    {S : List Node} (h : Good base n s S) (hf : n < S.length + f) :
    Good base n s (grow base f S) ∧ outward base (grow base f S) = [] := by
  induction f generalizing S with
  | zero => exact absurd (good_length h) (by omega)
  | succ f ih =>
    rw [grow]
    cases e : nearest (outward base S) with
    | none => exact ⟨h, nearest_none e⟩
    | some x =>
      refine ih (good_step hb h e) ?_
      rw [List.length_append, List.length_singleton]
      omega

theorem good_first {base : List Edge} {n s : Nat} (hs : s < n) : Good base n s [⟨s, 0, s⟩] := by
  refine ⟨by simp, by simpa using hs, ⟨[], rfl⟩, ?_, ?_, ?_⟩
  · intro A x B e hA
    cases A with
    | nil => exact absurd rfl hA
    | cons a A =>
      have := congrArg List.length e
      simp at this
  · intro x hx
    rw [List.mem_singleton.mp hx]
    exact ⟨_, _, .here⟩
  · intro x hx l w _
    rw [List.mem_singleton.mp hx]
    exact Nat.zero_le _

theorem settled_spec {base : List Edge} {n s : Nat} (hb : ∀ g ∈ base, g.a < n ∧ g.b < n)
    (hs : s < n) : Good base n s (settled base n s) ∧ outward base (settled base n s) = [] :=
  grow_spec hb n (good_first hs) (by simp)

theorem settled_of_reach {base : List Edge} {n s v : Nat}
    (hb : ∀ g ∈ base, g.a < n ∧ g.b < n) (hs : s < n) (h : Reach base s v) :
    ∃ x ∈ settled base n s, x.v = v ∧ look (settled base n s) v = some x := by
  obtain ⟨hg, ho⟩ := settled_spec hb hs
  obtain ⟨l, w, hw⟩ := h
  cases e : look (settled base n s) v with
  | none =>
    obtain ⟨y, hy, -⟩ := leaves hg hw e
    rw [ho] at hy
    cases hy
  | some x =>
    obtain ⟨h₁, h₂⟩ := look_some e
    exact ⟨x, h₁, h₂, rfl⟩

/-- From any settled vertex the parents lead back to the start. -/
theorem settled_depth {base : List Edge} {n s : Nat} (hb : ∀ g ∈ base, g.a < n ∧ g.b < n)
    (hs : s < n) : ∀ m A x B, A.length ≤ m → settled base n s = A ++ x :: B →
      ∃ k, k ≤ A.length ∧ back ((tables base n).parent s) k x.v = s := by
  obtain ⟨hg, -⟩ := settled_spec hb hs
  intro m
  induction m with
  | zero =>
    intro A x B hA e
    have hA : A = [] := List.length_eq_zero_iff.mp (by omega)
    subst hA
    obtain ⟨R, e'⟩ := hg.root
    rw [e] at e'
    cases e'
    exact ⟨0, Nat.le_refl _, rfl⟩
  | succ m ih =>
    intro A x B hA e
    by_cases hnil : A = []
    · exact ih A x B (by rw [hnil]; exact Nat.zero_le _) e
    · obtain ⟨y, hy, hp, -⟩ := hg.tree A x B e hnil
      obtain ⟨A₁, A₂, rfl⟩ := List.append_of_mem hy
      obtain ⟨k, hk, hb⟩ := ih A₁ y (A₂ ++ x :: B)
        (by simp only [List.length_append, List.length_cons] at hA; omega) (by rw [e]; simp)
      refine ⟨k + 1, by simp only [List.length_append, List.length_cons]; omega, ?_⟩
      have hx : (tables base n).parent s x.v = y.v := by
        unfold tables
        dsimp only
        rw [look_mem hg.nodup (by rw [e]; simp)]
        exact hp.symm
      rw [back, hx]
      exact hb

/-- **The contract can be met.**  For every graph there are tables as
`boost::dijkstra_shortest_paths` is to give. -/
theorem tables_shortest {base : List Edge} {n : Nat} (hb : ∀ g ∈ base, g.a < n ∧ g.b < n) :
    Shortest base n (tables base n) := by
  have entry : ∀ s v x, look (settled base n s) v = some x →
      (tables base n).dist s v = x.d ∧ (tables base n).parent s v = x.par := by
    intro s v x e
    unfold tables
    dsimp only
    rw [e]
    exact ⟨rfl, rfl⟩
  refine ⟨?_, ?_, ?_, ?_, ?_⟩
  · intro s hs
    obtain ⟨hg, -⟩ := settled_spec hb hs
    obtain ⟨R, e⟩ := hg.root
    exact entry s s ⟨s, 0, s⟩ (look_mem (x := ⟨s, 0, s⟩) hg.nodup (by rw [e]; simp))
  · intro s v l w hs hw
    obtain ⟨hg, -⟩ := settled_spec hb hs
    obtain ⟨x, hx, rfl, e⟩ := settled_of_reach hb hs ⟨l, w, hw⟩
    rw [(entry s _ x e).1]
    exact hg.least x hx l w hw
  · intro s v hs _ hr
    obtain ⟨hg, -⟩ := settled_spec hb hs
    have e : look (settled base n s) v = none := look_none.mpr fun x hx e => hr (e ▸ hg.reach x hx)
    unfold tables
    dsimp only
    rw [e]
    exact ⟨rfl, rfl⟩
  · intro s v hs hne hr
    obtain ⟨hg, -⟩ := settled_spec hb hs
    obtain ⟨x, hx, rfl, e⟩ := settled_of_reach hb hs hr
    obtain ⟨A, B, eS⟩ := List.append_of_mem hx
    have hA : A ≠ [] := by
      rintro rfl
      obtain ⟨R, e'⟩ := hg.root
      rw [eS] at e'
      cases e'
      exact hne rfl
    obtain ⟨y, hy, hp, k, hl, hd⟩ := hg.tree A x B eS hA
    have hyS : y ∈ settled base n s := by rw [eS]; simp [hy]
    obtain ⟨e₁, e₂⟩ := entry s _ x e
    obtain ⟨e₃, -⟩ := entry s _ y (look_mem hg.nodup hyS)
    rw [e₁, e₂, ← hp, e₃]
    exact ⟨hg.reach y hyS, k, hl, hd⟩
  · intro s v hs hr
    obtain ⟨hg, -⟩ := settled_spec hb hs
    obtain ⟨x, hx, rfl, e⟩ := settled_of_reach hb hs hr
    obtain ⟨A, B, eS⟩ := List.append_of_mem hx
    obtain ⟨k, hk, hb'⟩ := settled_depth hb hs A.length A x B (Nat.le_refl _) eS
    have := good_length hg
    rw [eS, List.length_append, List.length_cons] at this
    exact ⟨k, by omega, hb'⟩

end Verif.Visibility
