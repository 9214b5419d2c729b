/-
C122: the search for a shortest path: the invariant of the main loop.
-/
import Verif.Visilib.PathModel

namespace Verif.Visilib

open Verif.Visibility (Pt)

/-- What a distance is. -/
structure Metric (d : Pt → Pt → Rat) : Prop where
  nonneg : ∀ a b, 0 ≤ d a b
  self : ∀ a, d a a = 0
  symm : ∀ a b, d a b = d b a
  zero : ∀ {a b}, d a b = 0 → a = b
  tri : ∀ a b c, d a c ≤ d a b + d b c

namespace Graph

variable {g : Graph}

/-- Steps of a way: from the start to a corner seen from it, from a corner to another that
it sees, from a corner seen from the finish to it. -/
inductive Edge (g : Graph) : Nat → Nat → Prop
  | start {i : Nat} : i < g.n → g.fromStart i = true → Edge g g.n i
  | step {i j : Nat} : i < g.n → j < g.n → i ≠ j → g.see i j = true → Edge g i j
  | finish {i : Nat} : i < g.n → g.toFinish i = true → Edge g i (g.n + 1)

/-- Each step of a way is an edge. -/
def Linked (g : Graph) : List Nat → Prop
  | a :: b :: l => g.Edge a b ∧ Linked g (b :: l)
  | _ => True

/-- The length of a way. -/
def len (g : Graph) : List Nat → Rat
  | a :: b :: l => g.dist (g.pos a) (g.pos b) + len g (b :: l)
  | _ => 0

/-- A way from the start to the finish. -/
def Way (g : Graph) (w : List Nat) : Prop :=
  w.head? = some g.n ∧ w.getLast? = some (g.n + 1) ∧ g.Linked w

theorem Edge.inv {u v : Nat} (h : g.Edge u v) : (u = g.n ∧ v < g.n ∧ g.fromStart v = true) ∨
    (u < g.n ∧ v < g.n ∧ g.see u v = true) ∨ (u < g.n ∧ v = g.n + 1 ∧ g.toFinish u = true) := by
  cases h with
  | start h₁ h₂ => exact .inl ⟨rfl, h₁, h₂⟩
  | step h₁ h₂ _ h₃ => exact .inr (.inl ⟨h₁, h₂, h₃⟩)
  | finish h₁ h₂ => exact .inr (.inr ⟨h₁, rfl, h₂⟩)

theorem Edge.lt {u v : Nat} (h : g.Edge u v) : u ≤ g.n ∧ v ≤ g.n + 1 ∧ v ≠ g.n := by
  cases h <;> omega

/-- The node of a child. -/
def Par (g : Graph) (p k : Node) : Prop :=
  k.par = p.v ∧ g.Edge p.v k.v ∧ k.cost = p.cost + g.dist (g.pos p.v) (g.pos k.v)

theorem mem_children {c k : Node} (hc : c.v ≤ g.n) (h₀ : c.v = g.n → c.cost = 0) :
    k ∈ g.children c ↔ g.Par c k := by
  unfold children Par
  by_cases h : c.v = g.n
  · rw [if_pos h, List.mem_map]
    constructor
    · rintro ⟨i, hi, rfl⟩
      rw [List.mem_filter, List.mem_range] at hi
      exact ⟨rfl, by rw [h]; exact .start hi.1 hi.2, by dsimp only; rw [h, h₀ h]; grind⟩
    · rintro ⟨hp, he, hk⟩
      rw [h] at he
      have : k.v < g.n ∧ g.fromStart k.v = true := by
        generalize hv : k.v = v at he
        generalize hn : g.n = m at he
        cases he with
        | start h₁ h₂ => rw [hn]; exact ⟨h₁, h₂⟩
        | step h₁ => omega
        | finish h₁ => omega
      refine ⟨k.v, List.mem_filter.mpr ⟨List.mem_range.mpr this.1, this.2⟩, ?_⟩
      rw [h, h₀ h] at hk
      cases k
      simp only [Node.mk.injEq, true_and]
      dsimp only at hp hk
      exact ⟨hp.symm, by rw [hk]; grind⟩
  · rw [if_neg h, List.mem_append, List.mem_map]
    constructor
    · rintro (⟨i, hi, rfl⟩ | hk)
      · rw [List.mem_filter, List.mem_range] at hi
        obtain ⟨h₁, h₂⟩ := hi
        rw [Bool.and_eq_true, bne_iff_ne] at h₂
        exact ⟨rfl, .step (by omega) h₁ h₂.1 h₂.2, rfl⟩
      · split at hk
        · rename_i ht
          rw [List.mem_singleton] at hk
          subst hk
          exact ⟨rfl, .finish (by omega) ht, rfl⟩
        · cases hk
    · rintro ⟨hp, he, hk⟩
      cases k with
      | mk v par cost =>
        dsimp only at hp he hk
        subst hp hk
        generalize hu : c.v = u at he
        cases he with
        | start => omega
        | step h₁ h₂ h₃ h₄ =>
          left
          exact ⟨v, List.mem_filter.mpr ⟨List.mem_range.mpr h₂, by simp [h₃, h₄]⟩, rfl⟩
        | finish h₁ h₂ =>
          right
          rw [if_pos h₂, List.mem_singleton]

/-- The estimate is consistent. -/
theorem est_le (m : Metric g.dist) {u v : Nat} (hu : u ≠ g.n + 1) :
    g.est u ≤ g.dist (g.pos u) (g.pos v) + g.est v := by
  unfold est
  rw [if_neg hu]
  split
  · rename_i h
    rw [h]; grind
  · exact m.tri _ _ _

theorem est_fin : g.est (g.n + 1) = 0 := if_pos rfl

theorem Par.f_le (m : Metric g.dist) {p k : Node} (h : g.Par p k) : g.f p ≤ g.f k := by
  obtain ⟨-, he, hk⟩ := h
  have := est_le m (v := k.v) (show p.v ≠ g.n + 1 by have := he.lt; omega)
  unfold f
  rw [hk]
  grind

/-! ### The queue and the tree -/

theorem least_mem (a : Node) (l : List Node) : g.least a l ∈ a :: l := by
  induction l generalizing a with
  | nil => simp [least]
  | cons b l ih =>
    unfold least
    split
    · exact List.mem_cons_of_mem _ (ih b)
    · rcases List.mem_cons.mp (ih a) with h | h
      · rw [h]; simp
      · exact List.mem_cons_of_mem _ (List.mem_cons_of_mem _ h)

theorem least_le (a : Node) (l : List Node) : ∀ x ∈ a :: l, g.f (g.least a l) ≤ g.f x := by
  induction l generalizing a with
  | nil => intro x hx; rw [List.mem_singleton] at hx; subst hx; exact Rat.le_refl
  | cons b l ih =>
    intro x hx
    unfold least
    have hb : g.before b a = true → g.f b ≤ g.f a := by
      intro h; simp [before] at h; grind
    have hb' : g.before b a ≠ true → g.f a ≤ g.f b := by
      intro h; simp [before] at h; grind
    split
    · rename_i h
      rcases List.mem_cons.mp hx with rfl | hx
      · exact Rat.le_trans (ih b b List.mem_cons_self) (hb h)
      · exact ih b x hx
    · rename_i h
      rcases List.mem_cons.mp hx with rfl | hx
      · exact ih x x List.mem_cons_self
      · rcases List.mem_cons.mp hx with rfl | hx
        · exact Rat.le_trans (ih a a List.mem_cons_self) (hb' h)
        · exact ih a x (List.mem_cons_of_mem _ hx)

theorem insert_new {c : Node} {q : List Node} (h : ∀ d ∈ q, d.v ≠ c.v) : g.insert c q = c :: q := by
  unfold insert
  rw [if_neg]
  rw [List.any_eq_true]
  rintro ⟨d, hd, k⟩
  simp only [Bool.and_eq_true, beq_iff_eq] at k
  exact h d hd k.1.1

theorem insert_old {c : Node} {q : List Node} : g.insert c (c :: q) = c :: q := by
  unfold insert
  rw [if_pos]
  simp

theorem redirect_map (c : Node) (l : List Node) : (redirect c l).map (·.v) = l.map (·.v) := by
  induction l with
  | nil => rfl
  | cons t l ih =>
    unfold redirect
    split
    · rename_i h; simp [h]
    · simp [ih]

theorem mem_redirect {c : Node} {l : List Node} (hn : (l.map (·.v)).Nodup) (hc : ∃ t ∈ l, t.v = c.v)
    {x : Node} : x ∈ redirect c l ↔ x = c ∨ (x ∈ l ∧ x.v ≠ c.v) := by
  induction l with
  | nil => obtain ⟨t, ht, -⟩ := hc; cases ht
  | cons t l ih =>
    rw [List.map_cons, List.nodup_cons] at hn
    unfold redirect
    by_cases h : t.v = c.v
    · rw [if_pos h, List.mem_cons, List.mem_cons]
      constructor
      · rintro (rfl | hx)
        · exact .inl rfl
        · refine .inr ⟨.inr hx, fun k => hn.1 ?_⟩
          rw [h, ← k]
          exact List.mem_map_of_mem hx
      · rintro (rfl | ⟨rfl | hx, k⟩)
        · exact .inl rfl
        · exact absurd h k
        · exact .inr hx
    · rw [if_neg h, List.mem_cons, ih hn.2, List.mem_cons]
      · constructor
        · rintro (rfl | rfl | ⟨h₁, h₂⟩)
          · exact .inr ⟨.inl rfl, h⟩
          · exact .inl rfl
          · exact .inr ⟨.inr h₁, h₂⟩
        · rintro (rfl | ⟨rfl | h₁, h₂⟩)
          · exact .inr (.inl rfl)
          · exact .inl rfl
          · exact .inr (.inr ⟨h₁, h₂⟩)
      · obtain ⟨u, hu, k⟩ := hc
        rcases List.mem_cons.mp hu with rfl | hu
        · exact absurd k h
        · exact ⟨u, hu, k⟩

theorem mem_eraseP {v : Nat} {l : List Node} (hn : (l.map (·.v)).Nodup) {x : Node} :
    x ∈ l.eraseP (·.v == v) ↔ x ∈ l ∧ x.v ≠ v := by
  induction l with
  | nil => simp
  | cons t l ih =>
    rw [List.map_cons, List.nodup_cons] at hn
    by_cases h : t.v = v
    · rw [List.eraseP_cons_of_pos (by simpa using h), List.mem_cons]
      constructor
      · intro hx
        refine ⟨.inr hx, fun k => hn.1 ?_⟩
        rw [h, ← k]
        exact List.mem_map_of_mem hx
      · rintro ⟨rfl | hx, k⟩
        · exact absurd h k
        · exact hx
    · rw [List.eraseP_cons_of_neg (by simpa using h), List.mem_cons, ih hn.2, List.mem_cons]
      constructor
      · rintro (rfl | ⟨h₁, h₂⟩)
        · exact ⟨.inl rfl, h⟩
        · exact ⟨.inr h₁, h₂⟩
      · rintro ⟨rfl | h₁, h₂⟩
        · exact .inl rfl
        · exact .inr ⟨h₁, h₂⟩

theorem nodup_eraseP {v : Nat} {l : List Node} (hn : (l.map (·.v)).Nodup) :
    ((l.eraseP (·.v == v)).map (·.v)).Nodup :=
  hn.sublist (List.eraseP_sublist.map _)

theorem same_node {l : List Node} (hn : (l.map (·.v)).Nodup) {a b : Node} (ha : a ∈ l) (hb : b ∈ l)
    (h : a.v = b.v) : a = b := by
  induction l with
  | nil => cases ha
  | cons t l ih =>
    rw [List.map_cons, List.nodup_cons] at hn
    rcases List.mem_cons.mp ha with e₁ | ha <;> rcases List.mem_cons.mp hb with e₂ | hb
    · rw [e₁, e₂]
    · exact absurd (by rw [← e₁, h]; exact List.mem_map_of_mem hb) hn.1
    · exact absurd (by rw [← e₂, ← h]; exact List.mem_map_of_mem ha) hn.1
    · exact ih hn.2 ha hb

/-! ### The invariant -/

/-- The nodes taken off the queue, the last one first: the parent of each was taken off
before it. -/
def Good (g : Graph) : List Node → Prop
  | [] => True
  | c :: l => (c = g.root ∨ ∃ p ∈ l, g.Par p c) ∧ Good g l

/-- The tree `t` consists of the queue `q` and the nodes `c` taken off it; the children
`k` are still to be taken in. -/
structure Inv (g : Graph) (t q c k : List Node) : Prop where
  tree : ∀ x, x ∈ t ↔ x ∈ q ∨ x ∈ c
  nodup : (t.map (·.v)).Nodup
  qnodup : (q.map (·.v)).Nodup
  cnodup : (c.map (·.v)).Nodup
  apart : ∀ x ∈ q, ∀ y ∈ c, x.v ≠ y.v
  root : g.root ∈ t
  good : g.Good c
  opened : ∀ x ∈ q, x = g.root ∨ ∃ p ∈ c, g.Par p x
  edges : ∀ x ∈ c, ∀ v, g.Edge x.v v → (∃ y ∈ t, y.v = v ∧
      y.cost ≤ x.cost + g.dist (g.pos x.v) (g.pos v)) ∨
    ∃ y ∈ k, y.v = v ∧ y.cost = x.cost + g.dist (g.pos x.v) (g.pos v)
  mono : ∀ x ∈ c, ∀ y ∈ q, g.f x ≤ g.f y
  fin : ∀ x ∈ c, x.v ≠ g.n + 1
  pend : ∀ y ∈ k, ∃ p ∈ c, g.Par p y ∧ ∀ x ∈ c, g.f x ≤ g.f p

theorem find_none {t : List Node} {v : Nat} (h : t.find? (·.v == v) = none) : ∀ x ∈ t, x.v ≠ v := by
  intro x hx
  have := List.find?_eq_none.mp h x hx
  simpa using this

theorem find_some {t : List Node} {v : Nat} {y : Node} (h : t.find? (·.v == v) = some y) :
    y ∈ t ∧ y.v = v :=
  ⟨List.mem_of_find?_eq_some h, by have := List.find?_some h; simpa using this⟩

theorem root_par {p : Node} (h : g.Par p g.root) : False := by
  have := h.2.1.lt
  exact this.2.2 rfl

/-- A child is taken in. -/
theorem Inv.put {t q c k t' q' : List Node} {y : Node} (h : g.Inv t q c (y :: k))
    (ht : ∀ x, x ∈ t' ↔ x = y ∨ (x ∈ t ∧ x.v ≠ y.v)) (hq : ∀ x, x ∈ q' ↔ x = y ∨ (x ∈ q ∧ x.v ≠ y.v))
    (nt : (t'.map (·.v)).Nodup) (nq : (q'.map (·.v)).Nodup) (hc : ∀ x ∈ c, x.v ≠ y.v)
    (hl : ∀ x ∈ t, x.v = y.v → y.cost ≤ x.cost) (m : Metric g.dist) : g.Inv t' q' c k := by
  obtain ⟨p, hp, hpar, hmax⟩ := h.pend y List.mem_cons_self
  refine ⟨?_, nt, nq, h.cnodup, ?_, ?_, h.good, ?_, ?_, ?_, h.fin, ?_⟩
  · intro x
    rw [ht, hq, h.tree]
    constructor
    · rintro (rfl | ⟨h₁ | h₁, h₂⟩)
      · exact .inl (.inl rfl)
      · exact .inl (.inr ⟨h₁, h₂⟩)
      · exact .inr h₁
    · rintro ((rfl | ⟨h₁, h₂⟩) | h₁)
      · exact .inl rfl
      · exact .inr ⟨.inl h₁, h₂⟩
      · exact .inr ⟨.inr h₁, hc x h₁⟩
  · intro x hx z hz
    rcases (hq x).mp hx with rfl | ⟨h₁, -⟩
    · exact fun e => hc z hz e.symm
    · exact h.apart x h₁ z hz
  · rw [ht]
    refine .inr ⟨h.root, ?_⟩
    have := hpar.2.1.lt
    exact fun e => this.2.2 e.symm
  · intro x hx
    rcases (hq x).mp hx with rfl | ⟨h₁, -⟩
    · exact .inr ⟨p, hp, hpar⟩
    · exact h.opened x h₁
  · intro x hx v hv
    rcases h.edges x hx v hv with ⟨z, hz, e, hle⟩ | ⟨z, hz, e, hle⟩
    · left
      by_cases k : z.v = y.v
      · exact ⟨y, (ht y).mpr (.inl rfl), k ▸ e, Rat.le_trans (hl z hz k) hle⟩
      · exact ⟨z, (ht z).mpr (.inr ⟨hz, k⟩), e, hle⟩
    · rcases List.mem_cons.mp hz with rfl | hz
      · exact .inl ⟨z, (ht z).mpr (.inl rfl), e, by rw [hle]; exact Rat.le_refl⟩
      · exact .inr ⟨z, hz, e, hle⟩
  · intro x hx z hz
    rcases (hq z).mp hz with rfl | ⟨h₁, -⟩
    · exact Rat.le_trans (hmax x hx) (hpar.f_le m)
    · exact h.mono x hx z h₁
  · exact fun z hz => h.pend z (List.mem_cons_of_mem _ hz)

theorem Inv.process {t q c k : List Node} {y : Node} (h : g.Inv t q c (y :: k)) (m : Metric g.dist) :
    g.Inv (g.process (t, q) y).1 (g.process (t, q) y).2 c k := by
  obtain ⟨p, hp, hpar, hmax⟩ := h.pend y List.mem_cons_self
  unfold Graph.process
  dsimp only
  cases e : t.find? (·.v == y.v) with
  | none =>
    have ht := find_none e
    have hq : ∀ x ∈ q, x.v ≠ y.v := fun x hx => ht x ((h.tree x).mpr (.inl hx))
    dsimp only
    rw [insert_new hq, insert_old]
    refine h.put (y := y) ?_ ?_ ?_ ?_ (fun x hx => ht x ((h.tree x).mpr (.inr hx)))
      (fun x hx k => absurd k (ht x hx)) m
    · intro x
      rw [List.mem_append, List.mem_singleton]
      constructor
      · rintro (h₁ | h₁)
        · exact .inr ⟨h₁, ht x h₁⟩
        · exact .inl h₁
      · rintro (h₁ | ⟨h₁, -⟩)
        · exact .inr h₁
        · exact .inl h₁
    · intro x
      rw [List.mem_cons]
      constructor
      · rintro (h₁ | h₁)
        · exact .inl h₁
        · exact .inr ⟨h₁, hq x h₁⟩
      · rintro (h₁ | ⟨h₁, -⟩)
        · exact .inl h₁
        · exact .inr h₁
    · rw [List.map_append, List.nodup_append]
      refine ⟨h.nodup, by simp, ?_⟩
      rintro a ha b hb rfl
      obtain ⟨x, hx, rfl⟩ := List.mem_map.mp ha
      simp only [List.map_cons, List.map_nil, List.mem_singleton] at hb
      exact ht x hx hb
    · rw [List.map_cons, List.nodup_cons]
      refine ⟨?_, h.qnodup⟩
      intro k
      obtain ⟨x, hx, e⟩ := List.mem_map.mp k
      exact hq x hx e
  | some z =>
    obtain ⟨hz, hv⟩ := find_some e
    dsimp only
    split
    · rename_i hlt
      have hc : ∀ x ∈ c, x.v ≠ y.v := by
        intro x hx k
        have : x = z := same_node h.nodup ((h.tree x).mpr (.inr hx)) hz (by rw [k, hv])
        subst this
        have h₁ := Rat.le_trans (hmax x hx) (hpar.f_le m)
        unfold f at h₁
        rw [k] at h₁
        grind
      have hq' : ∀ x ∈ q.eraseP (·.v == y.v), x.v ≠ y.v := fun x hx => ((mem_eraseP h.qnodup).mp hx).2
      rw [insert_new hq']
      refine h.put (y := y) ?_ ?_ ?_ ?_ hc ?_ m
      · intro x
        exact mem_redirect h.nodup ⟨z, hz, hv⟩
      · intro x
        rw [List.mem_cons, mem_eraseP h.qnodup]
      · rw [redirect_map]; exact h.nodup
      · rw [List.map_cons, List.nodup_cons]
        refine ⟨?_, nodup_eraseP h.qnodup⟩
        intro k
        obtain ⟨x, hx, e⟩ := List.mem_map.mp k
        exact hq' x hx e
      · intro x hx k
        have : x = z := same_node h.nodup hx hz (by rw [k, hv])
        subst this
        grind
    · rename_i hge
      refine ⟨h.tree, h.nodup, h.qnodup, h.cnodup, h.apart, h.root, h.good, h.opened, ?_, h.mono,
        h.fin, fun z hz => h.pend z (List.mem_cons_of_mem _ hz)⟩
      intro x hx v hv'
      rcases h.edges x hx v hv' with k | ⟨w, hw, e', hle⟩
      · exact .inl k
      · rcases List.mem_cons.mp hw with rfl | hw
        · exact .inl ⟨z, hz, by rw [hv, e'], by rw [← hle]; grind⟩
        · exact .inr ⟨w, hw, e', hle⟩

theorem Inv.all {c : List Node} (m : Metric g.dist) (k : List Node) : ∀ {t q : List Node},
    g.Inv t q c k → g.Inv (k.foldl g.process (t, q)).1 (k.foldl g.process (t, q)).2 c [] := by
  induction k with
  | nil => intro t q h; exact h
  | cons y k ih =>
    intro t q h
    rw [List.foldl_cons]
    exact ih (h.process m)

theorem erase_mem {q : List Node} (hn : (q.map (·.v)).Nodup) {a x : Node} :
    x ∈ q.erase a ↔ x ∈ q ∧ x ≠ a := by
  have : q.Nodup := by
    rw [List.nodup_iff_pairwise_ne] at *
    rw [List.pairwise_map] at hn
    exact hn.imp fun h e => h (by rw [e])
  rw [this.mem_erase_iff, and_comm]

/-- The first of the queue is taken off. -/
theorem Inv.pop {t q c : List Node} {a : Node} (h : g.Inv t q c []) (ha : a ∈ q)
    (hl : ∀ x ∈ q, g.f a ≤ g.f x) (hf : a.v ≠ g.n + 1) :
    g.Inv t (q.erase a) (a :: c) (g.children a) := by
  have hav : a.v ≤ g.n := by
    rcases h.opened a ha with rfl | ⟨p, -, hp⟩
    · exact Nat.le_refl _
    · have := hp.2.1.lt; omega
  have ha₀ : a.v = g.n → a.cost = 0 := by
    intro k
    rcases h.opened a ha with rfl | ⟨p, -, hp⟩
    · rfl
    · have := hp.2.1.lt; omega
  have hmem : ∀ {y}, y ∈ g.children a ↔ g.Par a y := mem_children hav ha₀
  refine ⟨?_, h.nodup, h.qnodup.sublist (List.erase_sublist.map _), ?_, ?_, h.root, ?_, ?_, ?_, ?_, ?_, ?_⟩
  · intro x
    rw [h.tree, erase_mem h.qnodup, List.mem_cons]
    by_cases e : x = a
    · subst e; simp [ha]
    · simp [e]
  · rw [List.map_cons, List.nodup_cons]
    refine ⟨fun k => ?_, h.cnodup⟩
    obtain ⟨x, hx, e⟩ := List.mem_map.mp k
    exact h.apart a ha x hx e.symm
  · intro x hx y hy
    rw [erase_mem h.qnodup] at hx
    rcases List.mem_cons.mp hy with rfl | hy
    · exact fun e => hx.2 (same_node h.qnodup hx.1 ha e)
    · exact h.apart x hx.1 y hy
  · exact ⟨h.opened a ha, h.good⟩
  · intro x hx
    rw [erase_mem h.qnodup] at hx
    rcases h.opened x hx.1 with k | ⟨p, hp, k⟩
    · exact .inl k
    · exact .inr ⟨p, List.mem_cons_of_mem _ hp, k⟩
  · intro x hx v hv
    rcases List.mem_cons.mp hx with rfl | hx
    · right
      exact ⟨⟨v, x.v, x.cost + g.dist (g.pos x.v) (g.pos v)⟩, hmem.mpr ⟨rfl, hv, rfl⟩, rfl, rfl⟩
    · rcases h.edges x hx v hv with k | ⟨y, hy, -⟩
      · exact .inl k
      · cases hy
  · intro x hx y hy
    rw [erase_mem h.qnodup] at hy
    rcases List.mem_cons.mp hx with rfl | hx
    · exact hl y hy.1
    · exact h.mono x hx y hy.1
  · intro x hx
    rcases List.mem_cons.mp hx with rfl | hx
    · exact hf
    · exact h.fin x hx
  · intro y hy
    refine ⟨a, List.mem_cons_self, hmem.mp hy, ?_⟩
    intro x hx
    rcases List.mem_cons.mp hx with rfl | hx
    · exact Rat.le_refl
    · exact h.mono x hx a ha

theorem Good.le {c : List Node} (h : g.Good c) : ∀ x ∈ c, x.v ≤ g.n + 1 := by
  induction c with
  | nil => intro x hx; cases hx
  | cons a c ih =>
    intro x hx
    rcases List.mem_cons.mp hx with rfl | hx
    · rcases h.1 with rfl | ⟨p, -, hp⟩
      · exact Nat.le_succ _
      · exact hp.2.1.lt.2.1
    · exact ih h.2 x hx

theorem Inv.bound {t q c k : List Node} (h : g.Inv t q c k) : c.length ≤ g.n + 1 := by
  have : (c.map (·.v)).length ≤ (List.range (g.n + 1)).length := by
    apply h.cnodup.length_le_of_subset
    intro v hv
    obtain ⟨x, hx, rfl⟩ := List.mem_map.mp hv
    have := h.good.le x hx
    have := h.fin x hx
    rw [List.mem_range]
    omega
  simpa using this

theorem loop_spec (m : Metric g.dist) : ∀ (fuel : Nat) {t q c : List Node}, g.Inv t q c [] →
    g.n + 3 ≤ fuel + c.length → ∃ r t', g.loop fuel t q = some (r, t') ∧ ∃ q' c', g.Inv t' q' c' [] ∧
      (r = none → q' = []) ∧ ∀ a, r = some a → a ∈ q' ∧ a.v = g.n + 1 ∧ ∀ x ∈ q', g.f a ≤ g.f x := by
  intro fuel
  induction fuel with
  | zero =>
    intro t q c h hf
    have := h.bound
    omega
  | succ fuel ih =>
    intro t q c h hf
    cases q with
    | nil => exact ⟨none, t, rfl, [], c, h, fun _ => rfl, by simp⟩
    | cons a l =>
      unfold loop
      dsimp only
      have hm := g.least_mem a l
      have hl := g.least_le a l
      generalize g.least a l = b at hm hl
      split
      · rename_i hv
        exact ⟨some b, t, rfl, a :: l, c, h, by simp, fun x e => by
          cases e; exact ⟨hm, hv, hl⟩⟩
      · rename_i hv
        exact ih ((h.pop hm hl hv).all m) (by rw [List.length_cons]; omega)

theorem inv_init : g.Inv [g.root] [g.root] [] [] where
  tree := by simp
  nodup := by simp
  qnodup := by simp
  cnodup := by simp
  apart := by simp
  root := by simp
  good := trivial
  opened := by intro x hx; exact .inl (List.mem_singleton.mp hx)
  edges := by simp
  mono := by simp
  fin := by simp
  pend := by simp

/-! ### No way is shorter -/

theorem len_nonneg (m : Metric g.dist) (w : List Nat) : 0 ≤ g.len w := by
  induction w with
  | nil => exact Rat.le_refl
  | cons a w ih =>
    cases w with
    | nil => exact Rat.le_refl
    | cons b w =>
      have := m.nonneg (g.pos a) (g.pos b)
      unfold len
      grind

theorem est_le_len (m : Metric g.dist) {w : List Nat} {u : Nat} (hl : g.Linked (u :: w))
    (hw : (u :: w).getLast? = some (g.n + 1)) : g.est u ≤ g.len (u :: w) := by
  induction w generalizing u with
  | nil =>
    simp at hw
    rw [hw, est_fin]
    exact Rat.le_refl
  | cons v w ih =>
    have h₁ := ih hl.2 (by simpa using hw)
    have h₂ := est_le m (u := u) (v := v) (by have := hl.1.lt; omega)
    unfold len
    grind

theorem frontier (m : Metric g.dist) {t q c : List Node} (h : g.Inv t q c []) {w : List Nat} {x : Node}
    (hx : x ∈ c) (hl : g.Linked (x.v :: w)) (hw : (x.v :: w).getLast? = some (g.n + 1)) :
    ∃ y ∈ q, g.f y ≤ x.cost + g.len (x.v :: w) := by
  induction w generalizing x with
  | nil => simp at hw; exact absurd hw (h.fin x hx)
  | cons v w ih =>
    rcases h.edges x hx v hl.1 with ⟨y, hy, e, hle⟩ | ⟨y, hy, -⟩
    · subst e
      have hlen : g.len (x.v :: y.v :: w) = g.dist (g.pos x.v) (g.pos y.v) + g.len (y.v :: w) := rfl
      rcases (h.tree y).mp hy with hy | hy
      · refine ⟨y, hy, ?_⟩
        have := est_le_len m hl.2 (by simpa using hw)
        unfold f
        rw [hlen]
        grind
      · obtain ⟨z, hz, k⟩ := ih hy hl.2 (by simpa using hw)
        refine ⟨z, hz, ?_⟩
        rw [hlen]
        grind
    · cases hy

theorem frontier_way (m : Metric g.dist) {t q c : List Node} (h : g.Inv t q c []) {w : List Nat}
    (hw : g.Way w) : ∃ y ∈ q, g.f y ≤ g.len w := by
  obtain ⟨h₁, h₂, h₃⟩ := hw
  cases w with
  | nil => cases h₁
  | cons a w =>
    cases h₁
    rcases (h.tree _).mp h.root with k | k
    · refine ⟨g.root, k, ?_⟩
      have := est_le_len m h₃ h₂
      unfold f
      show 0 + g.est g.n ≤ _
      grind
    · have := frontier m h k (w := w) h₃ h₂
      have e : (g.root).cost = 0 := rfl
      rw [e] at this
      obtain ⟨y, hy, hle⟩ := this
      exact ⟨y, hy, by have : (0 : Rat) + g.len (g.root.v :: w) = g.len (g.n :: w) := by
                         show (0 : Rat) + g.len (g.n :: w) = _
                         grind
                       rw [this] at hle; exact hle⟩

end Graph

end Verif.Visilib
