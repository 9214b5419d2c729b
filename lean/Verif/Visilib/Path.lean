/-
C122: the path found is a shortest one.
-/
import Verif.Visilib.Search

namespace Verif.Visilib

open Verif.Visibility (Pt)

namespace Graph

variable {g : Graph}

/-- The length of a path. -/
def plen (g : Graph) (l : List Pt) : Rat := pathLength g.dist l

/-- A leg of a path: it leads from a vertex to a place within `eps` of one that can be
gone to from it. -/
def Leg (g : Graph) (eps : Rat) (a b : Pt) : Prop :=
  ∃ u v, (g.Edge u v ∨ (g.direct = true ∧ u = g.n ∧ v = g.n + 1)) ∧ g.pos u = a ∧
    g.dist b (g.pos v) ≤ eps

theorem plen_cons (a b : Pt) (l : List Pt) : g.plen (a :: b :: l) = g.dist a b + g.plen (b :: l) := rfl

/-- All legs of a path are legs. -/
def Legs (g : Graph) (eps : Rat) : List Pt → Prop
  | a :: b :: l => g.Leg eps a b ∧ Legs g eps (b :: l)
  | _ => True

/-- A node with no cost is at the start. -/
theorem Good.at_start (m : Metric g.dist) {c : List Node} (h : g.Good c) :
    ∀ x ∈ c, 0 ≤ x.cost ∧ (x.cost = 0 → g.pos x.v = g.pos g.n) := by
  induction c with
  | nil => intro x hx; cases hx
  | cons a c ih =>
    intro x hx
    rcases List.mem_cons.mp hx with rfl | hx
    · rcases h.1 with rfl | ⟨p, hp, -, -, hk⟩
      · exact ⟨Rat.le_refl, fun _ => rfl⟩
      · obtain ⟨h₁, h₂⟩ := ih h.2 p hp
        have h₃ := m.nonneg (g.pos p.v) (g.pos x.v)
        refine ⟨by rw [hk]; grind, fun h₀ => ?_⟩
        have e₁ : p.cost = 0 := by grind
        have e₂ : g.dist (g.pos p.v) (g.pos x.v) = 0 := by grind
        rw [← h₂ e₁, m.zero e₂]
    · exact ih h.2 x hx

theorem find_node {t : List Node} (hn : (t.map (·.v)).Nodup) {x : Node} (hx : x ∈ t) :
    t.find? (·.v == x.v) = some x := by
  cases e : t.find? (·.v == x.v) with
  | none => exact absurd rfl (find_none e x hx)
  | some y =>
    obtain ⟨hy, hv⟩ := find_some e
    rw [same_node hn hy hx hv]

theorem trace_spec (m : Metric g.dist) {eps : Rat} (he : 0 ≤ eps) {t : List Node}
    (hn : (t.map (·.v)).Nodup) (c : List Node) : ∀ {fuel : Nat} {x : Node} {v : Nat} {p : Pt} {r : List Pt},
    g.Good c → (∀ y ∈ c, y ∈ t) → c.length ≤ fuel → x ∈ c → g.Edge x.v v → g.dist p (g.pos v) ≤ eps →
    g.Legs eps (p :: r) →
    ∃ a l, g.trace eps t fuel x.v (p :: r) = some (a :: l) ∧ g.dist a (g.pos g.n) ≤ eps ∧
      g.Legs eps (a :: l) ∧ (a :: l).getLast? = (p :: r).getLast? ∧
      g.plen (a :: l) ≤ x.cost + g.dist (g.pos x.v) (g.pos v) + (g.dist (g.pos v) p + g.plen (p :: r)) := by
  induction c with
  | nil => intro fuel x v p r _ _ _ hx; cases hx
  | cons b c ih =>
    intro fuel x v p r hg ht hf hx hv hp hl
    rw [List.length_cons] at hf
    rcases List.mem_cons.mp hx with rfl | hx'
    · cases fuel with
      | zero => omega
      | succ fuel =>
        unfold trace
        rw [find_node hn (ht x hx)]
        dsimp only
        -- what is traced so far
        have key : ∃ a l, (if eps < g.dist p (g.pos x.v) then g.pos x.v :: p :: r else p :: r) = a :: l ∧
            g.dist a (g.pos x.v) ≤ eps ∧ g.Legs eps (a :: l) ∧
            (a :: l).getLast? = (p :: r).getLast? ∧
            g.dist (g.pos x.v) a + g.plen (a :: l) ≤
              g.dist (g.pos x.v) (g.pos v) + (g.dist (g.pos v) p + g.plen (p :: r)) := by
          have htri := m.tri (g.pos x.v) (g.pos v) p
          by_cases k : eps < g.dist p (g.pos x.v)
          · rw [if_pos k]
            refine ⟨_, _, rfl, by rw [m.self]; exact he, ⟨⟨x.v, v, .inl hv, rfl, hp⟩, hl⟩, by simp, ?_⟩
            show _ + (_ + g.plen (p :: r)) ≤ _
            rw [m.self]
            grind
          · rw [if_neg k]
            exact ⟨_, _, rfl, Rat.not_lt.mp k, hl, rfl, by grind⟩
        obtain ⟨a, l, e, h₁, h₂, h₃, h₄⟩ := key
        rw [e]
        obtain ⟨hc, hs⟩ := hg.at_start m x List.mem_cons_self
        split
        · rename_i h₀
          refine ⟨a, l, rfl, by rw [← hs h₀]; exact h₁, h₂, h₃, ?_⟩
          have := m.nonneg (g.pos x.v) a
          grind
        · rename_i h₀
          rcases hg.1 with rfl | ⟨q, hq, hpar, hedge, hcost⟩
          · exact absurd rfl h₀
          · rw [hpar]
            obtain ⟨a', l', h₅, h₆, h₇, h₈, h₉⟩ := ih (fuel := fuel) (x := q) (v := x.v) (p := a) (r := l)
              hg.2 (fun y hy => ht y (List.mem_cons_of_mem _ hy)) (by omega) hq hedge h₁ h₂
            refine ⟨a', l', h₅, h₆, h₇, h₈.trans h₃, ?_⟩
            rw [hcost]
            grind
    · exact ih hg.2 (fun y hy => ht y (List.mem_cons_of_mem _ hy)) (by omega) hx' hv hp hl

theorem linked_snoc {u v : Nat} (h : g.Edge u v) (w : List Nat) :
    g.Linked (w ++ [u]) → g.Linked (w ++ [u, v]) := by
  induction w with
  | nil => intro _; exact ⟨h, trivial⟩
  | cons a w ih =>
    cases w with
    | nil => intro k; exact ⟨k.1, h, trivial⟩
    | cons b w => intro k; exact ⟨k.1, ih k.2⟩

/-- There is a way to each node taken off the queue. -/
theorem Good.way {c : List Node} (h : g.Good c) :
    ∀ x ∈ c, ∃ w, (w ++ [x.v]).head? = some g.n ∧ g.Linked (w ++ [x.v]) := by
  induction c with
  | nil => intro x hx; cases hx
  | cons a c ih =>
    intro x hx
    rcases List.mem_cons.mp hx with rfl | hx
    · rcases h.1 with rfl | ⟨p, hp, -, he, -⟩
      · exact ⟨[], rfl, trivial⟩
      · obtain ⟨w, h₁, h₂⟩ := ih h.2 p hp
        refine ⟨w ++ [p.v], ?_, ?_⟩
        · rw [List.head?_append, h₁]; rfl
        · rw [List.append_assoc]
          exact linked_snoc he w h₂
    · exact ih h.2 x hx

/-- What the search gives if neither trivial case applies. -/
theorem search_spec {eps : Rat} (m : Metric g.dist) (he : 0 ≤ eps) {fuel : Nat} (hf : g.n + 3 ≤ fuel)
    (far : eps < g.dist (g.pos g.n) (g.pos (g.n + 1))) (hd : g.direct = false) :
    (g.shortest eps fuel = some [] ∧ ∀ w, ¬ g.Way w) ∨
    ∃ a l, g.shortest eps fuel = some (a :: l) ∧ g.dist a (g.pos g.n) ≤ eps ∧ g.Legs eps (a :: l) ∧
      (a :: l).getLast? = some (g.pos (g.n + 1)) ∧ (∃ w, g.Way w) ∧
      ∀ w, g.Way w → g.plen (a :: l) ≤ g.len w := by
  unfold shortest
  dsimp only
  rw [if_neg (Rat.not_le.mpr far), if_neg (by rw [hd]; simp)]
  obtain ⟨r, t, e, q, c, hi, h₀, h₁⟩ := loop_spec m fuel (g.inv_init) (by simpa using hf)
  rw [e]
  cases r with
  | none =>
    refine .inl ⟨rfl, fun w hw => ?_⟩
    obtain ⟨y, hy, -⟩ := frontier_way m hi hw
    rw [h₀ rfl] at hy
    cases hy
  | some a =>
    right
    obtain ⟨ha, hv, hl⟩ := h₁ a rfl
    rcases hi.opened a ha with rfl | ⟨p, hp, hpar, hedge, hcost⟩
    · exact absurd hv (by show g.n ≠ _; omega)
    dsimp only
    rw [hpar]
    rw [hv] at hedge hcost
    obtain ⟨b, l, k, k₁, k₂, k₃, k₄⟩ := trace_spec m he hi.nodup c (fuel := fuel) (v := g.n + 1)
      (p := g.pos (g.n + 1)) (r := [])
      hi.good (fun y hy => (hi.tree y).mpr (.inr hy)) (by have := hi.bound; omega) hp hedge
      (by rw [m.self]; exact he) trivial
    refine ⟨b, l, k, k₁, k₂, by rw [k₃]; rfl, ?_, ?_⟩
    · obtain ⟨w, h₁, h₂⟩ := hi.good.way p hp
      refine ⟨w ++ [p.v, g.n + 1], ?_, by simp, linked_snoc hedge w h₂⟩
      rw [show w ++ [p.v, g.n + 1] = (w ++ [p.v]) ++ [g.n + 1] by simp, List.head?_append, h₁]
      rfl
    · intro w hw
      obtain ⟨y, hy, hle⟩ := frontier_way m hi hw
      have h₂ := hl y hy
      have h₃ : g.f a = a.cost := by
        unfold f
        rw [hv, est_fin]; grind
      rw [m.self] at k₄
      have h₄ : g.plen [g.pos (g.n + 1)] = 0 := rfl
      rw [h₄] at k₄
      grind

/-- **C122.**  The search always ends, after at most as many rounds of each loop as there
are corners and three more. -/
theorem C122_ends {eps : Rat} (m : Metric g.dist) (he : 0 ≤ eps) {fuel : Nat} (hf : g.n + 3 ≤ fuel) :
    ∃ P, g.shortest eps fuel = some P := by
  by_cases far : eps < g.dist (g.pos g.n) (g.pos (g.n + 1))
  · cases hd : g.direct with
    | true =>
      refine ⟨[g.pos g.n, g.pos (g.n + 1)], ?_⟩
      unfold shortest
      dsimp only
      rw [if_neg (Rat.not_le.mpr far), if_pos hd]
    | false =>
      rcases search_spec m he hf far hd with h | ⟨a, l, h, -⟩
      · exact ⟨_, h.1⟩
      · exact ⟨_, h⟩
  · refine ⟨[g.pos g.n], ?_⟩
    unfold shortest
    dsimp only
    rw [if_pos (Rat.not_lt.mp far)]

/-- **C122.**  The path is empty exactly if there is no way: the finish is further than
`eps` from the start, is not seen from it, and cannot be reached from corner to corner. -/
theorem C122_none {eps : Rat} (m : Metric g.dist) (he : 0 ≤ eps) {fuel : Nat} (hf : g.n + 3 ≤ fuel) :
    g.shortest eps fuel = some [] ↔
      eps < g.dist (g.pos g.n) (g.pos (g.n + 1)) ∧ g.direct = false ∧ ∀ w, ¬ g.Way w := by
  by_cases far : eps < g.dist (g.pos g.n) (g.pos (g.n + 1))
  · cases hd : g.direct with
    | true =>
      unfold shortest
      dsimp only
      rw [if_neg (Rat.not_le.mpr far), if_pos hd]
      simp
    | false =>
      rcases search_spec m he hf far hd with h | ⟨a, l, h, -, -, -, ⟨w, hw⟩, -⟩
      · exact ⟨fun _ => ⟨far, rfl, h.2⟩, fun _ => h.1⟩
      · rw [h]
        exact ⟨fun k => by simp at k, fun k => absurd hw (k.2.2 w)⟩
  · unfold shortest
    dsimp only
    rw [if_pos (Rat.not_lt.mp far)]
    simp [far]

/-- **C122.**  A path that is not empty begins within `eps` of the start and ends at the
finish, or at the start if that is within `eps` of the finish; each leg leads from a vertex
to a place within `eps` of one that can be gone to from it; and it is no longer than any
way from the start to the finish. -/
theorem C122_path {eps : Rat} (m : Metric g.dist) (he : 0 ≤ eps) {fuel : Nat} (hf : g.n + 3 ≤ fuel)
    {a : Pt} {l : List Pt} (h : g.shortest eps fuel = some (a :: l)) :
    g.dist a (g.pos g.n) ≤ eps ∧ (∃ b, (a :: l).getLast? = some b ∧ g.dist b (g.pos (g.n + 1)) ≤ eps ∧
      (eps < g.dist (g.pos g.n) (g.pos (g.n + 1)) → b = g.pos (g.n + 1))) ∧ g.Legs eps (a :: l) ∧
    ∀ w, g.Way w → g.plen (a :: l) ≤ g.len w := by
  by_cases far : eps < g.dist (g.pos g.n) (g.pos (g.n + 1))
  · cases hd : g.direct with
    | true =>
      unfold shortest at h
      dsimp only at h
      rw [if_neg (Rat.not_le.mpr far), if_pos hd] at h
      cases h
      refine ⟨by rw [m.self]; exact he, ⟨g.pos (g.n + 1), rfl, by rw [m.self]; exact he, fun _ => rfl⟩, ?_, ?_⟩
      · exact ⟨⟨g.n, g.n + 1, .inr ⟨hd, rfl, rfl⟩, rfl, by rw [m.self]; exact he⟩, trivial⟩
      · rintro w ⟨h₁, h₂, h₃⟩
        cases w with
        | nil => cases h₁
        | cons b w =>
          cases h₁
          have := est_le_len m h₃ h₂
          unfold est at this
          rw [if_neg (by omega)] at this
          show _ + 0 ≤ _
          grind
    | false =>
      rcases search_spec m he hf far hd with k | ⟨b, r, k, k₁, k₂, k₃, -, k₄⟩
      · rw [k.1] at h; cases h
      · rw [k] at h
        cases h
        exact ⟨k₁, ⟨_, k₃, by rw [m.self]; exact he, fun _ => rfl⟩, k₂, k₄⟩
  · unfold shortest at h
    dsimp only at h
    have far' := Rat.not_lt.mp far
    rw [if_pos far'] at h
    cases h
    exact ⟨by rw [m.self]; exact he, ⟨_, rfl, far', fun k => absurd k far⟩, trivial,
      fun w _ => g.len_nonneg m w⟩

/-- The way along the streets, as a distance. -/
def streets (a b : Pt) : Rat :=
  (if a.n ≤ b.n then b.n - a.n else a.n - b.n) + (if a.e ≤ b.e then b.e - a.e else a.e - b.e)

theorem streets_metric : Metric streets where
  nonneg a b := by unfold streets; grind
  self a := by unfold streets; grind
  symm a b := by unfold streets; grind
  zero {a b} h := by
    unfold streets at h
    have h₁ : a.n = b.n := by grind
    have h₂ : a.e = b.e := by grind
    cases a; cases b
    simp only [Pt.mk.injEq]
    exact ⟨h₁, h₂⟩
  tri a b c := by unfold streets; grind

/-- Four corners, two on either side of an obstacle. -/
def demo : Graph where
  n := 4
  pos i := [⟨0, 1⟩, ⟨3, 1⟩, ⟨0, -5⟩, ⟨3, -5⟩, ⟨-1, 0⟩, ⟨4, 0⟩].getD i ⟨0, 0⟩
  see i j := (i, j) ∈ [(0, 1), (1, 0), (2, 3), (3, 2)]
  fromStart i := i == 0 || i == 2
  toFinish i := i == 1 || i == 3
  direct := false
  dist := streets

example : demo.shortest (1 / 10) 7 = some [⟨-1, 0⟩, ⟨0, 1⟩, ⟨3, 1⟩, ⟨4, 0⟩] := by decide +kernel
example : Metric demo.dist := streets_metric
example : demo.Way [4, 2, 3, 5] :=
  ⟨rfl, rfl, .start (by decide) rfl, .step (by decide) (by decide) (by decide) (by decide),
    .finish (by decide) rfl, trivial⟩
/-- Without the sight between them nothing is found. -/
example : { demo with see := fun _ _ => false }.shortest (1 / 10) 7 = some [] := by decide +kernel

/-- The start is close to the first corner. -/
def close : Graph := { demo with pos := fun i => if i = 4 then ⟨-1/20, 1⟩ else demo.pos i }

/-- **C122.**  The path does not begin at the start if that is within `eps` of the corner
it would lead to next. -/
theorem C122_start_violated : ∃ (g : Graph) (a : Pt) (l : List Pt), Metric g.dist ∧
    g.shortest (1 / 10) (g.n + 3) = some (a :: l) ∧ a ≠ g.pos g.n :=
  ⟨close, ⟨0, 1⟩, [⟨3, 1⟩, ⟨4, 0⟩], streets_metric, by decide +kernel, by decide +kernel⟩

end Graph

end Verif.Visilib
