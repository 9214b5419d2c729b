/-
The search for a route between two crossings, as `OsmPlannerService` runs it with
`boost::astar_search`: at every step a vertex with the least sum of the length so
far and the estimated rest is taken from the queue, the search stops when the
goal is taken, and vertices whose length is lowered return to the queue.

The library is not part of the repository; its loop is written out here as its
documentation gives it.  Which of several vertices with the same sum is taken is
left open.
-/
import Verif.Visibility.Search
import Mathlib.Data.Finset.Card
import Mathlib.Data.Fintype.Card
import Mathlib.Algebra.BigOperators.Group.Finset.Basic
import Mathlib.Algebra.Order.BigOperators.Group.Finset

namespace Verif.Roads

open Verif.Visibility (Edge Link Walk Reach back)

/-- `std::numeric_limits<int32_t>::max()`, the length of vertices not yet
reached (OsmPlannerService.cpp 1530: the lengths are `int32_t`). -/
def inf : Nat := 2 ^ 31 - 1

/-- The tables and the queue of the search: `d` and `p` of
OsmPlannerService.cpp 1530-1532, and the vertices in the queue of the library. -/
structure St where
  d : Nat → Nat
  p : Nat → Nat
  wait : List Nat

/-- A function changed at one place. -/
def upd (f : Nat → Nat) (v x : Nat) : Nat → Nat := fun y => if y = v then x else f y

theorem upd_same (f : Nat → Nat) (v x : Nat) : upd f v x v = x := if_pos rfl

theorem upd_other (f : Nat → Nat) {v y : Nat} (x : Nat) (h : y ≠ v) : upd f v x y = f y := if_neg h

/-- How the queue chooses: one of the waiting vertices with the least sum.  Among
several the library's heap takes one or the other; all choices are covered. -/
structure Chooser where
  pick : (Nat → Nat) → List Nat → Nat
  mem : ∀ (f : Nat → Nat) (l : List Nat), l ≠ [] → pick f l ∈ l
  least : ∀ (f : Nat → Nat) (l : List Nat) (x : Nat), x ∈ l → f (pick f l) ≤ f x

/-- The edges at a vertex, with the vertex at their other end: OsmPlannerService.h
143, an undirected graph. -/
def beside (E : List Edge) (u : Nat) : List (Nat × Nat) :=
  E.flatMap fun g => (if g.a = u then [(g.b, g.len)] else []) ++
    (if g.b = u then [(g.a, g.len)] else [])

/-- `boost::astar_search`: an edge from `u` to `v` is examined; when it shortens the
way to `v` the length and the parent of `v` are set anew and `v` is (again) in the
queue.  Lengths are taken to add up without overflow. -/
def relax (u : Nat) (s : St) (vk : Nat × Nat) : St :=
  if s.d u + vk.2 < s.d vk.1 then
    { d := upd s.d vk.1 (s.d u + vk.2), p := upd s.p vk.1 u
      wait := if vk.1 ∈ s.wait then s.wait else vk.1 :: s.wait }
  else s

/-- All edges at `u` are examined. -/
def expand (E : List Edge) (u : Nat) (s : St) : St :=
  (beside E u).foldl (relax u) { s with wait := s.wait.erase u }

/-- How a search ends: the goal is taken from the queue
(OsmPlannerService.h 363-367), the queue is empty, or (it is shown that this does
not happen) the steps allowed are used up. -/
inductive End
  | found (s : St)
  | empty (s : St)
  | spent

/-- The loop of the search. -/
def loop (E : List Edge) (c : Chooser) (h : Nat → Nat) (goal : Nat) : Nat → St → End
  | 0, _ => .spent
  | k + 1, s =>
    if s.wait = [] then .empty s
    else
      let u := c.pick (fun v => s.d v + h v) s.wait
      if u = goal then .found s else loop E c h goal k (expand E u s)

/-- The start of the search. -/
def begin₀ (start : Nat) : St := ⟨fun v => if v = start then 0 else inf, fun v => v, [start]⟩

/-- `boost::astar_search` as called in OsmPlannerService.cpp 1536-1542, in a graph
of `n` vertices.  The number of steps allowed is more than can be taken. -/
def astar (E : List Edge) (c : Chooser) (h : Nat → Nat) (n start goal : Nat) : End :=
  loop E c h goal (n * inf * (n + 1) + 2) (begin₀ start)

/-! ### What is true all the time -/

/-- What is true of the tables between two steps. -/
structure Inv (E : List Edge) (n start : Nat) (s : St) : Prop where
  ds : s.d start = 0
  ps : s.p start = start
  top : ∀ v, s.d v ≤ inf
  fin : ∀ v ∈ s.wait, s.d v < inf
  bound : ∀ v, s.d v < inf → v < n
  nodup : s.wait.Nodup
  tree : ∀ v, s.d v < inf → v ≠ start →
    s.d (s.p v) < inf ∧ ∃ k, Link E (s.p v) v k ∧ s.d (s.p v) + k ≤ s.d v
  root : ∀ v, s.d v < inf → ∃ k, back s.p k v = start

/-- The edges at `u` have been examined. -/
def Done (E : List Edge) (s : St) (u : Nat) : Prop :=
  ∀ v k, Link E u v k → s.d u + k < inf → s.d v ≤ s.d u + k

theorem mem_beside {E : List Edge} {u v k : Nat} : (v, k) ∈ beside E u ↔ Link E u v k := by
  unfold beside Link
  simp only [List.mem_flatMap, List.mem_append]
  constructor
  · rintro ⟨g, hg, h | h⟩
    · split at h
      · rename_i e
        rw [List.mem_singleton, Prod.mk.injEq] at h
        exact ⟨g, hg, h.2.symm, .inl ⟨e, h.1.symm⟩⟩
      · cases h
    · split at h
      · rename_i e
        rw [List.mem_singleton, Prod.mk.injEq] at h
        exact ⟨g, hg, h.2.symm, .inr ⟨h.1.symm, e⟩⟩
      · cases h
  · rintro ⟨g, hg, hk, ⟨ha, hb⟩ | ⟨ha, hb⟩⟩
    · exact ⟨g, hg, .inl (by rw [if_pos ha, hk, hb]; simp)⟩
    · exact ⟨g, hg, .inr (by rw [if_pos hb, hk, ha]; simp)⟩

theorem back_succ (p : Nat → Nat) (k v : Nat) : back p (k + 1) v = back p k (p v) := rfl

/-- Back along the parents lengths do not grow. -/
theorem Inv.back_le {E : List Edge} {n start : Nat} {s : St} (h : Inv E n start s) :
    ∀ j v, s.d v < inf → s.d (back s.p j v) ≤ s.d v := by
  intro j
  induction j with
  | zero => intro v _; exact Nat.le_refl _
  | succ j ih =>
    intro v hv
    rw [back_succ]
    by_cases e : v = start
    · rw [e, h.ps]; exact ih start (by rw [h.ds]; decide)
    · obtain ⟨h₁, k, -, h₂⟩ := h.tree v hv e
      exact Nat.le_trans (ih _ h₁) (by omega)

/-- A way back that does not meet `v` is the same after the parent of `v` is set. -/
theorem back_upd {p : Nat → Nat} {v u : Nat} : ∀ j x, (∀ i, i < j → back p i x ≠ v) →
    back (upd p v u) j x = back p j x := by
  intro j
  induction j with
  | zero => intro x _; rfl
  | succ j ih =>
    intro x hx
    have h₀ : x ≠ v := hx 0 (by omega)
    rw [back_succ, back_succ, upd_other _ _ h₀]
    exact ih (p x) fun i hi => hx (i + 1) (by omega)

theorem inv_relax {E : List Edge} {n start u : Nat} {s : St} {vk : Nat × Nat}
    (hE : ∀ g ∈ E, g.a < n ∧ g.b < n) (h : Inv E n start s) (hu : s.d u < inf)
    (hl : vk ∈ beside E u) :
    Inv E n start (relax u s vk) ∧ (relax u s vk).d u = s.d u ∧
      (∀ x, (relax u s vk).d x ≤ s.d x) ∧
      (∀ x, x ∈ s.wait → x ∈ (relax u s vk).wait) ∧
      (∀ x, x ∈ (relax u s vk).wait → x ∈ s.wait ∨ s.d u + vk.2 < s.d x) ∧
      (∀ x, x ∉ (relax u s vk).wait → (relax u s vk).d x = s.d x) ∧
      (s.d u + vk.2 < inf → (relax u s vk).d vk.1 ≤ s.d u + vk.2) := by
  obtain ⟨v, k⟩ := vk
  have hl : Link E u v k := mem_beside.mp hl
  unfold relax
  dsimp only
  by_cases c : s.d u + k < s.d v
  · rw [if_pos c]
    have huv : u ≠ v := by rintro rfl; omega
    have hvs : v ≠ start := by rintro rfl; rw [h.ds] at c; omega
    have htop := h.top v
    have hvn : v < n := by
      obtain ⟨g, hg, -, ⟨-, e⟩ | ⟨e, -⟩⟩ := hl
      · rw [← e]; exact (hE g hg).2
      · rw [← e]; exact (hE g hg).1
    have hnot : ∀ i, back s.p i u ≠ v := by
      intro i e
      have := h.back_le i u hu
      rw [e] at this
      omega
    have hle : ∀ x, upd s.d v (s.d u + k) x ≤ s.d x := by
      intro x
      by_cases e : x = v
      · rw [e, upd_same]; omega
      · rw [upd_other _ _ e]
    have hmem : ∀ x, x ∈ (if v ∈ s.wait then s.wait else v :: s.wait) ↔ x ∈ s.wait ∨ x = v := by
      intro x
      split
      · rename_i hv
        constructor
        · exact .inl
        · rintro (hx | rfl)
          · exact hx
          · exact hv
      · rw [List.mem_cons]; exact or_comm
    refine ⟨⟨?_, ?_, ?_, ?_, ?_, ?_, ?_, ?_⟩, ?_, hle, ?_, ?_, ?_, ?_⟩
    · dsimp only; rw [upd_other _ _ (Ne.symm hvs), h.ds]
    · dsimp only; rw [upd_other _ _ (Ne.symm hvs), h.ps]
    · intro x; exact Nat.le_trans (hle x) (h.top x)
    · intro x hx
      dsimp only at hx ⊢
      rcases (hmem x).mp hx with hx | rfl
      · exact Nat.lt_of_le_of_lt (hle x) (h.fin x hx)
      · rw [upd_same]; omega
    · intro x hx
      dsimp only at hx
      by_cases e : x = v
      · rw [e]; exact hvn
      · rw [upd_other _ _ e] at hx; exact h.bound x hx
    · dsimp only
      split
      · exact h.nodup
      · rename_i hv; exact List.nodup_cons.mpr ⟨hv, h.nodup⟩
    · intro x hx hxs
      dsimp only at hx ⊢
      by_cases e : x = v
      · rw [e, upd_same, upd_other _ _ huv, upd_same]
        exact ⟨hu, k, hl, Nat.le_refl _⟩
      · rw [upd_other _ _ e] at hx
        rw [upd_other s.p _ e, upd_other s.d _ e]
        obtain ⟨h₁, j, h₂, h₃⟩ := h.tree x hx hxs
        have := hle (s.p x)
        exact ⟨by omega, j, h₂, by omega⟩
    · obtain ⟨ku, eu⟩ := h.root u hu
      have hv : ∃ j, back (upd s.p v u) j v = start := by
        refine ⟨ku + 1, ?_⟩
        rw [back_succ, upd_same, back_upd ku u fun i _ => hnot i]
        exact eu
      have main : ∀ j x, s.d x < inf → back s.p j x = start →
          ∃ i, back (upd s.p v u) i x = start := by
        intro j
        induction j with
        | zero => intro x _ e; exact ⟨0, e⟩
        | succ j ih =>
          intro x hx e
          by_cases ex : x = v
          · rw [ex]; exact hv
          · by_cases es : x = start
            · exact ⟨0, es⟩
            · obtain ⟨i, ei⟩ := ih (s.p x) (h.tree x hx es).1 e
              exact ⟨i + 1, by rw [back_succ, upd_other _ _ ex]; exact ei⟩
      intro x hx
      dsimp only at hx ⊢
      by_cases ex : x = v
      · rw [ex]; exact hv
      · rw [upd_other _ _ ex] at hx
        obtain ⟨j, ej⟩ := h.root x hx
        exact main j x hx ej
    · dsimp only; rw [upd_other _ _ huv]
    · intro x hx; exact (hmem x).mpr (.inl hx)
    · intro x hx
      rcases (hmem x).mp hx with hx | rfl
      · exact .inl hx
      · exact .inr c
    · intro x hx
      dsimp only at hx ⊢
      refine upd_other _ _ fun e => hx ((hmem x).mpr (.inr e))
    · intro _; dsimp only; rw [upd_same]
  · rw [if_neg c]
    exact ⟨h, rfl, fun _ => Nat.le_refl _, fun _ => id, fun _ => .inl, fun _ _ => rfl,
      fun _ => by omega⟩

/-- The edges at `u` are examined one after the other. -/
theorem inv_fold {E : List Edge} {n start u : Nat} (hE : ∀ g ∈ E, g.a < n ∧ g.b < n) :
    ∀ (l : List (Nat × Nat)) (s : St), (∀ vk ∈ l, vk ∈ beside E u) → Inv E n start s →
      s.d u < inf →
      Inv E n start (l.foldl (relax u) s) ∧ (l.foldl (relax u) s).d u = s.d u ∧
        (∀ x, (l.foldl (relax u) s).d x ≤ s.d x) ∧
        (∀ x, x ∈ s.wait → x ∈ (l.foldl (relax u) s).wait) ∧
        (∀ x, x ∈ (l.foldl (relax u) s).wait → x ∈ s.wait ∨ s.d u < s.d x) ∧
        (∀ x, x ∉ (l.foldl (relax u) s).wait → (l.foldl (relax u) s).d x = s.d x) ∧
        (∀ vk ∈ l, s.d u + vk.2 < inf → (l.foldl (relax u) s).d vk.1 ≤ s.d u + vk.2) := by
  intro l
  induction l with
  | nil =>
    intro s _ h _
    exact ⟨h, rfl, fun _ => Nat.le_refl _, fun _ => id, fun _ => .inl, fun _ _ => rfl, by simp⟩
  | cons a l ih =>
    intro s hl h hu
    obtain ⟨a₁, a₂, a₃, a₄, a₅, a₆, a₇⟩ := inv_relax hE h hu (hl a (by simp))
    obtain ⟨b₁, b₂, b₃, b₄, b₅, b₆, b₇⟩ := ih (relax u s a) (fun vk hvk => hl vk (by simp [hvk])) a₁
      (by rw [a₂]; exact hu)
    rw [List.foldl_cons]
    refine ⟨b₁, b₂.trans a₂, fun x => Nat.le_trans (b₃ x) (a₃ x), fun x hx => b₄ x (a₄ x hx), ?_,
      ?_, ?_⟩
    · intro x hx
      rcases b₅ x hx with hx | hx
      · rcases a₅ x hx with hx | hx
        · exact .inl hx
        · exact .inr (by omega)
      · have := a₃ x
        rw [a₂] at hx
        exact .inr (by omega)
    · intro x hx
      rw [b₆ x hx]
      exact a₆ x fun hx' => hx (b₄ x hx')
    · intro vk hvk hlt
      rcases List.mem_cons.mp hvk with rfl | hvk
      · exact Nat.le_trans (b₃ _) (a₇ hlt)
      · have := b₇ vk hvk (by rw [a₂]; exact hlt)
        rw [a₂] at this
        exact this

/-- What is true between two steps, with the queue: vertices reached that do not wait
have had their edges examined, and the goal waits once it is reached. -/
structure Ready (E : List Edge) (n start goal : Nat) (s : St) : Prop extends
    Inv E n start s where
  done : ∀ u, s.d u < inf → u ∉ s.wait → Done E s u
  goal : s.d goal < inf → goal ∈ s.wait

theorem ready_first {E : List Edge} {n start goal : Nat} (hs : start < n) :
    Ready E n start goal (begin₀ start) := by
  have hd : ∀ v, (begin₀ start).d v < inf → v = start := by
    intro v hv
    by_contra e
    have : (begin₀ start).d v = inf := if_neg e
    omega
  have hs' : (begin₀ start).d start = 0 := if_pos rfl
  refine ⟨⟨hs', rfl, ?_, ?_, ?_, by simp [begin₀], ?_, ?_⟩, ?_, ?_⟩
  · intro v
    show (if v = start then 0 else inf) ≤ inf
    split <;> simp
  · intro v hv
    rw [List.mem_singleton.mp hv, hs']; decide
  · intro v hv; rw [hd v hv]; exact hs
  · intro v hv e; exact absurd (hd v hv) e
  · intro v hv; exact ⟨0, hd v hv⟩
  · intro u hu hw
    rw [hd u hu] at hw
    exact absurd (List.mem_singleton.mpr rfl) hw
  · intro hg; rw [hd goal hg]; exact List.mem_singleton.mpr rfl

theorem ready_expand {E : List Edge} {n start goal u : Nat} {s : St}
    (hE : ∀ g ∈ E, g.a < n ∧ g.b < n) (h : Ready E n start goal s) (hu : u ∈ s.wait)
    (hg : u ≠ goal) : Ready E n start goal (expand E u s) := by
  have hfin := h.fin u hu
  have h₀ : Inv E n start { s with wait := s.wait.erase u } :=
    ⟨h.ds, h.ps, h.top, fun v hv => h.fin v (List.mem_of_mem_erase hv), h.bound,
      h.nodup.erase u, h.tree, h.root⟩
  obtain ⟨b₁, b₂, b₃, b₄, b₅, b₆, b₇⟩ := inv_fold hE (beside E u) { s with wait := s.wait.erase u }
    (fun _ h => h) h₀ hfin
  change Inv E n start (expand E u s) at b₁
  change (expand E u s).d u = s.d u at b₂
  change ∀ x, (expand E u s).d x ≤ s.d x at b₃
  change ∀ x, x ∈ s.wait.erase u → x ∈ (expand E u s).wait at b₄
  change ∀ x, x ∈ (expand E u s).wait → x ∈ s.wait.erase u ∨ s.d u < s.d x at b₅
  change ∀ x, x ∉ (expand E u s).wait → (expand E u s).d x = s.d x at b₆
  change ∀ vk ∈ beside E u, s.d u + vk.2 < inf → (expand E u s).d vk.1 ≤ s.d u + vk.2 at b₇
  refine ⟨b₁, ?_, ?_⟩
  · intro x hx hw v k hl hlt
    rw [b₆ x hw] at hx hlt ⊢
    by_cases e : x = u
    · subst e
      exact b₇ (v, k) (mem_beside.mpr hl) hlt
    · have : x ∉ s.wait := fun hx' => hw (b₄ x ((List.mem_erase_of_ne e).mpr hx'))
      exact Nat.le_trans (b₃ v) (h.done x hx this v k hl hlt)
  · intro hx
    by_contra hw
    rw [b₆ goal hw] at hx
    exact hw (b₄ goal ((List.mem_erase_of_ne (Ne.symm hg)).mpr (h.goal hx)))

/-! ### The search ends -/

/-- What gets less at every step. -/
def burden (n : Nat) (s : St) : Nat :=
  (Finset.range n).sum s.d * (n + 1) + s.wait.length

theorem burden_relax {E : List Edge} {n start u : Nat} {s : St} {vk : Nat × Nat}
    (hE : ∀ g ∈ E, g.a < n ∧ g.b < n) (hl : vk ∈ beside E u) :
    burden n (relax u s vk) ≤ burden n s := by
  obtain ⟨v, k⟩ := vk
  have hl : Link E u v k := mem_beside.mp hl
  have hvn : v < n := by
    obtain ⟨g, hg, -, ⟨-, e⟩ | ⟨e, -⟩⟩ := hl
    · rw [← e]; exact (hE g hg).2
    · rw [← e]; exact (hE g hg).1
  unfold relax burden
  dsimp only
  by_cases c : s.d u + k < s.d v
  · rw [if_pos c]
    dsimp only
    have hsum : (Finset.range n).sum (upd s.d v (s.d u + k)) + 1 ≤ (Finset.range n).sum s.d := by
      refine Nat.succ_le_of_lt (Finset.sum_lt_sum (fun i _ => ?_) ⟨v, Finset.mem_range.mpr hvn, ?_⟩)
      · by_cases e : i = v
        · rw [e, upd_same]; omega
        · rw [upd_other _ _ e]
      · rw [upd_same]; exact c
    have hlen : (if v ∈ s.wait then s.wait else v :: s.wait).length ≤ s.wait.length + 1 := by
      split
      · omega
      · simp
    have := Nat.mul_le_mul_right (n + 1) hsum
    rw [Nat.add_mul] at this
    omega
  · rw [if_neg c]

theorem burden_expand {E : List Edge} {n u : Nat} {s : St}
    (hE : ∀ g ∈ E, g.a < n ∧ g.b < n) (hu : u ∈ s.wait) :
    burden n (expand E u s) < burden n s := by
  have h₀ : burden n { s with wait := s.wait.erase u } < burden n s := by
    unfold burden
    dsimp only
    have := List.length_erase_of_mem hu
    have := List.length_pos_of_mem hu
    omega
  have : ∀ (l : List (Nat × Nat)) (t : St), (∀ vk ∈ l, vk ∈ beside E u) →
      burden n (l.foldl (relax u) t) ≤ burden n t := by
    intro l
    induction l with
    | nil => intro t _; exact Nat.le_refl _
    | cons a l ih =>
      intro t hl
      rw [List.foldl_cons]
      exact Nat.le_trans (ih _ fun vk hvk => hl vk (by simp [hvk]))
        (burden_relax (start := 0) hE (hl a (by simp)))
  exact Nat.lt_of_le_of_lt (this _ _ fun _ h => h) h₀

theorem loop_not_spent {E : List Edge} {c : Chooser} {h : Nat → Nat} {n goal : Nat}
    (hE : ∀ g ∈ E, g.a < n ∧ g.b < n) :
    ∀ k s, burden n s < k → loop E c h goal k s ≠ .spent := by
  intro k
  induction k with
  | zero => intro s hk; omega
  | succ k ih =>
    intro s hk
    rw [loop]
    split
    · intro e; cases e
    · rename_i hw
      dsimp only
      split
      · intro e; cases e
      · have := burden_expand (n := n) hE (c.mem (fun v => s.d v + h v) s.wait hw)
        exact ih _ (by omega)

theorem astar_not_spent {E : List Edge} {c : Chooser} {h : Nat → Nat} {n start goal : Nat}
    (hE : ∀ g ∈ E, g.a < n ∧ g.b < n) : astar E c h n start goal ≠ .spent := by
  refine loop_not_spent hE _ _ ?_
  unfold burden
  have : (Finset.range n).sum (begin₀ start).d ≤ n * inf := by
    have := Finset.sum_le_card_nsmul (Finset.range n) (begin₀ start).d inf
      (fun v _ => by show (if v = start then 0 else inf) ≤ inf; split <;> simp)
    simpa using this
  have := Nat.mul_le_mul_right (n + 1) this
  have e : (begin₀ start).wait.length = 1 := rfl
  rw [e]
  omega

/-! ### How the search ends -/

theorem loop_end {E : List Edge} {c : Chooser} {h : Nat → Nat} {n start goal : Nat}
    (hE : ∀ g ∈ E, g.a < n ∧ g.b < n) :
    ∀ k s, Ready E n start goal s →
      (∀ t, loop E c h goal k s = .found t → Ready E n start goal t ∧
        goal ∈ t.wait ∧ ∀ x ∈ t.wait, t.d goal + h goal ≤ t.d x + h x) ∧
      (∀ t, loop E c h goal k s = .empty t → Ready E n start goal t ∧ t.wait = []) := by
  intro k
  induction k with
  | zero => intro s _; exact ⟨fun t e => (by cases e), fun t e => (by cases e)⟩
  | succ k ih =>
    intro s hs
    rw [loop]
    by_cases hw : s.wait = []
    · rw [if_pos hw]
      refine ⟨fun t e => (by cases e), fun t e => ?_⟩
      cases e
      exact ⟨hs, hw⟩
    · rw [if_neg hw]
      dsimp only
      have hm := c.mem (fun v => s.d v + h v) s.wait hw
      have hmin := c.least (fun v => s.d v + h v) s.wait
      by_cases e : c.pick (fun v => s.d v + h v) s.wait = goal
      · rw [if_pos e]
        refine ⟨fun t e' => ?_, fun t e' => (by cases e')⟩
        cases e'
        rw [e] at hm hmin
        exact ⟨hs, hm, hmin⟩
      · rw [if_neg e]
        exact ih _ (ready_expand hE hs hm e)

/-- Along any way, some vertex waits that has been reached on the way or sooner, as
long as the end of the way has not been dealt with. -/
theorem waits {E : List Edge} {n start goal : Nat} {s : St} (h : Ready E n start goal s) :
    ∀ {v : Nat} {l : List Nat} {w : Nat}, Walk E start v l w → w < inf →
      (s.d v ≤ w ∨ ∃ x lx wx, x ∈ s.wait ∧ Walk E start x lx wx ∧ s.d x ≤ wx ∧
        wx ≤ w ∧ ∃ ly, Walk E x v ly (w - wx) ∧
          lx.length + ly.length = l.length + 1) := by
  intro v l w hw
  induction hw with
  | here => intro _; exact .inl (Nat.le_of_eq h.ds)
  | @step u x k l w hw hl ih =>
    intro hlt
    rcases ih (by omega) with hd | ⟨y, ly, wy, h₁, h₂, h₃, h₅, lz, h₆, h₇⟩
    · by_cases hwt : u ∈ s.wait
      · refine .inr ⟨u, l, w, hwt, hw, hd, by omega, [u, x], ?_, by simp⟩
        have : w + k - w = 0 + k := by omega
        rw [this]
        exact .step (l := [u]) .here hl
      · have := h.done u (by omega) hwt x k hl (by omega)
        exact .inl (by omega)
    · refine .inr ⟨y, ly, wy, h₁, h₂, h₃, by omega, lz ++ [x], ?_, by simp; omega⟩
      have : w + k - wy = (w - wy) + k := by omega
      rw [this]
      exact .step h₆ hl

theorem walk_length {E : List Edge} {u v : Nat} {l : List Nat} {w : Nat} (h : Walk E u v l w) :
    1 ≤ l.length := by
  cases h <;> simp

/-- When the goal is found: the tables, and how much longer than any other way the
length found can be if the estimate exceeds the length of a way by less than a metre
for each of its pieces. -/
theorem astar_found {E : List Edge} {c : Chooser} {h : Nat → Nat} {n start goal : Nat} {t : St}
    (hE : ∀ g ∈ E, g.a < n ∧ g.b < n) (hs : start < n)
    (he : astar E c h n start goal = .found t) :
    Ready E n start goal t ∧ t.d goal < inf ∧
      ((∀ x l w, Walk E x goal l w → h x ≤ w + (l.length - 2)) →
        ∀ l w, Walk E start goal l w → w < inf → t.d goal ≤ w + (l.length - 2)) := by
  obtain ⟨h₁, h₂, h₃⟩ := (loop_end hE _ _ (ready_first hs)).1 t he
  refine ⟨h₁, h₁.fin _ h₂, fun hh l w hw hlt => ?_⟩
  rcases waits h₁ hw hlt with hd | ⟨x, lx, wx, hx, hwx, hdx, hle, ly, hwy, hlen⟩
  · omega
  · have a := h₃ x hx
    have b := hh x ly _ hwy
    have := walk_length hwx
    omega

/-- When the queue runs empty there is no way (shorter than the largest length). -/
theorem astar_empty {E : List Edge} {c : Chooser} {h : Nat → Nat} {n start goal : Nat} {t : St}
    (hE : ∀ g ∈ E, g.a < n ∧ g.b < n) (hs : start < n)
    (he : astar E c h n start goal = .empty t) :
    ∀ l w, Walk E start goal l w → inf ≤ w := by
  obtain ⟨h₁, h₂⟩ := (loop_end hE _ _ (ready_first hs)).2 t he
  intro l w hw
  by_contra hlt
  rcases waits h₁ hw (by omega) with hd | ⟨x, -, -, hx, -⟩
  · have := h₁.goal (by omega)
    rw [h₂] at this
    cases this
  · rw [h₂] at hx
    cases hx

/-! ### The way back from the goal -/

theorem back_add (p : Nat → Nat) : ∀ a b v, back p (a + b) v = back p b (back p a v) := by
  intro a
  induction a with
  | zero => intro b v; rw [Nat.zero_add]; rfl
  | succ a ih => intro b v; rw [Nat.succ_add_eq_add_succ, Nat.add_succ, back_succ, ih, back_succ]

/-- The way back has fewer steps than there are vertices. -/
theorem Inv.depth {E : List Edge} {n start : Nat} {s : St} (h : Inv E n start s) {v : Nat}
    (hv : s.d v < inf) : ∃ k, k < n ∧ back s.p k v = start := by
  classical
  have hex := h.root v hv
  refine ⟨Nat.find hex, ?_, Nat.find_spec hex⟩
  have hmin := fun {m} => Nat.find_min (m := m) hex
  have hk := Nat.find_spec hex
  generalize Nat.find hex = k at hmin hk
  have := Finset.card_le_card_of_injOn (s := Finset.range (k + 1)) (t := Finset.range n)
    (fun j => back s.p j v) (fun j _ => by
      have := h.bound _ (Nat.lt_of_le_of_lt (h.back_le j v hv) hv)
      simpa using this) (by
      have key : ∀ i j, i < j → j ≤ k → back s.p i v ≠ back s.p j v := by
        intro i j hij hjk e
        refine hmin (m := i + (k - j)) (by omega) ?_
        rw [back_add, e, ← back_add]
        have : j + (k - j) = k := by omega
        rw [this]; exact hk
      intro i hi j hj e
      have hi : i < k + 1 := by simpa using hi
      have hj : j < k + 1 := by simpa using hj
      rcases Nat.lt_trichotomy i j with c | c | c
      · exact absurd e (key i j c (by omega))
      · exact c
      · exact absurd e.symm (key j i c (by omega)))
  have : k + 1 ≤ n := by simpa using this
  omega

/-- OsmPlannerService.cpp 1548-1567: from the goal back along the parents; the ids
of the vertices are put in front of the path; a vertex without an id ends it without
success.  (`left` bounds the number of steps; it is shown not to be reached.) -/
def trace (ids : Nat → Option Int) (p : Nat → Nat) : Nat → Nat → List Int → Bool × List Int
  | 0, _, acc => (false, acc)
  | left + 1, v, acc =>
    match ids v with
    | none => (false, acc)
    | some i => if p v = v then (true, i :: acc) else trace ids p left (p v) (i :: acc)

theorem trace_walk {E : List Edge} {n start : Nat} {s : St} {ids : Nat → Option Int}
    (h : Inv E n start s) (hid : ∀ v, s.d v < inf → (ids v).isSome) :
    ∀ k v left acc, s.d v < inf → back s.p k v = start → k < left →
      ∃ l w m, Walk E start v l w ∧ w ≤ s.d v ∧ l.map ids = m.map some ∧
        trace ids s.p left v acc = (true, m ++ acc) := by
  have atStart : ∀ left acc, 0 < left → ∃ l w m, Walk E start start l w ∧ w ≤ s.d start ∧
      l.map ids = m.map some ∧ trace ids s.p left start acc = (true, m ++ acc) := by
    intro left acc hl
    obtain ⟨left, rfl⟩ := Nat.exists_eq_succ_of_ne_zero (Nat.pos_iff_ne_zero.mp hl)
    obtain ⟨i, hi⟩ := Option.isSome_iff_exists.mp (hid start (by rw [h.ds]; decide))
    refine ⟨[start], 0, [i], .here, Nat.zero_le _, by simp [hi], ?_⟩
    rw [trace, hi]
    dsimp only
    rw [if_pos h.ps]; rfl
  intro k
  induction k with
  | zero =>
    intro v left acc _ e hl
    have e : v = start := e
    subst e
    exact atStart left acc hl
  | succ k ih =>
    intro v left acc hv e hl
    by_cases es : v = start
    · subst es; exact atStart left acc (by omega)
    · obtain ⟨left, rfl⟩ := Nat.exists_eq_succ_of_ne_zero (n := left) (by omega)
      obtain ⟨h₁, j, hj, h₂⟩ := h.tree v hv es
      obtain ⟨i, hi⟩ := Option.isSome_iff_exists.mp (hid v hv)
      obtain ⟨l, w, m, a₁, a₂, a₃, a₄⟩ := ih (s.p v) left (i :: acc) h₁ e (by omega)
      refine ⟨l ++ [v], w + j, m ++ [i], .step a₁ hj, by omega, by simp [a₃, hi], ?_⟩
      have hp : s.p v ≠ v := by
        intro hp
        have : ∀ q, back s.p q v = v := by
          intro q
          induction q with
          | zero => rfl
          | succ q ihq => rw [back_succ, hp]; exact ihq
        exact es ((this (k + 1)).symm.trans e)
      rw [trace, hi]
      dsimp only
      rw [if_neg hp, a₄]
      simp

end Verif.Roads
