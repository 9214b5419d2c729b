/-
The search for a route: the vertices it goes over, its length, and that there is
no shorter one in the graph.
-/
import Verif.Visibility.Build

namespace Verif.Visibility

/-! ### Ways through the base graph -/

/-- An edge of length `k` joins `u` and `v` (the graph is undirected,
VisibilityGraph.h 73). -/
def Link (base : List Edge) (u v k : Nat) : Prop :=
  ∃ g ∈ base, g.len = k ∧ ((g.a = u ∧ g.b = v) ∨ (g.a = v ∧ g.b = u))

/-- A way from `u` over the vertices of the list, with the sum of the lengths of
its edges. -/
inductive Walk (base : List Edge) (u : Nat) : Nat → List Nat → Nat → Prop
  | here : Walk base u u [u] 0
  | step {v x k : Nat} {l : List Nat} {w : Nat} :
      Walk base u v l w → Link base v x k → Walk base u x (l ++ [x]) (w + k)

/-- There is a way from `u` to `v`. -/
def Reach (base : List Edge) (u v : Nat) : Prop := ∃ l w, Walk base u v l w

/-- `k` steps back along the parents. -/
def back (par : Nat → Nat) : Nat → Nat → Nat
  | 0, v => v
  | k + 1, v => back par k (par v)

/-- What `boost::dijkstra_shortest_paths` promises
(VisibilityGraph.cpp 587-595, called for each of the `n` vertices): distances are
least, vertices that cannot be reached are at `int` maximum and are their own
parents, and the parents of the others lead back to the start along shortest
ways.  Lengths are taken to add up without overflow. -/
structure Shortest (base : List Edge) (n : Nat) (t : Tables) : Prop where
  self : ∀ s, s < n → t.dist s s = 0 ∧ t.parent s s = s
  least : ∀ s v l w, s < n → Walk base s v l w → t.dist s v ≤ w
  apart : ∀ s v, s < n → v < n → ¬ Reach base s v → t.dist s v = intMax ∧ t.parent s v = v
  tree : ∀ s v, s < n → v ≠ s → Reach base s v →
    Reach base s (t.parent s v) ∧
      ∃ k, Link base (t.parent s v) v k ∧ t.dist s v = t.dist s (t.parent s v) + k
  depth : ∀ s v, s < n → Reach base s v → ∃ k, k < n ∧ back (t.parent s) k v = s

/-- Back along the parents, the positions of a shortest way are found. -/
theorem walkBack_spec {base : List Edge} {n : Nat} {t : Tables} (h : Shortest base n t)
    (pts : List Pt) {s : Nat} (hs : s < n) (k : Nat) :
    ∀ (v left : Nat) (acc : List Pt), k ≤ left → Reach base s v → back (t.parent s) k v = s →
      ∃ l, Walk base s v l (t.dist s v) ∧
        walkBack pts (t.parent s) s left v acc = some (l.map (pt pts) ++ acc) := by
  induction k with
  | zero =>
    intro v left acc _ _ hk
    have e : v = s := hk
    refine ⟨[s], ?_, ?_⟩
    · rw [e, (h.self s hs).1]; exact .here
    · unfold walkBack; rw [if_pos e]; rfl
  | succ k ih =>
    intro v left acc hl hr hk
    by_cases e : v = s
    · refine ⟨[s], ?_, ?_⟩
      · rw [e, (h.self s hs).1]; exact .here
      · unfold walkBack; rw [if_pos e]; rfl
    · obtain ⟨hr', j, hj, hd⟩ := h.tree s v hs e hr
      cases left with
      | zero => omega
      | succ left =>
        obtain ⟨l, hw, he⟩ := ih (t.parent s v) left (pt pts v :: acc) (by omega) hr' hk
        refine ⟨l ++ [v], ?_, ?_⟩
        · rw [hd]; exact .step hw hj
        · unfold walkBack
          rw [if_neg e]
          show walkBack pts (t.parent s) s left (t.parent s v) (pt pts v :: acc) = _
          rw [he, List.map_append, List.append_assoc]; rfl

/-! ### The choice of the way -/

theorem pick_spec {cs : List Cand} {best : Option Cand} {c : Option Cand}
    (h : pick best cs = .ok c) :
    (c = none → best = none ∧ cs = []) ∧
      ∀ x, c = some x → (best = some x ∨ (x ∈ cs ∧ x.total ≤ intMax)) ∧
        (∀ y ∈ cs, x.total ≤ y.total) ∧ ∀ y, best = some y → x.total ≤ y.total := by
  induction cs generalizing best with
  | nil =>
    have e : best = c := by simpa [pick] using h
    subst e
    refine ⟨fun e => ⟨e, rfl⟩, fun x hx => ⟨.inl hx, by simp, fun y hy => ?_⟩⟩
    rw [hx] at hy
    cases hy
    exact Nat.le_refl _
  | cons a cs ih =>
    rw [pick.eq_def] at h
    dsimp only at h
    cases best with
    | none =>
      rw [if_pos rfl] at h
      by_cases k : a.total ≤ intMax
      · rw [if_pos k] at h
        obtain ⟨h₁, h₂⟩ := ih h
        refine ⟨fun e => absurd (h₁ e).1 (by simp), fun x hx => ?_⟩
        obtain ⟨p₁, p₂, p₃⟩ := h₂ x hx
        refine ⟨.inr ?_, ?_, by simp⟩
        · rcases p₁ with p | p
          · cases p; exact ⟨by simp, k⟩
          · exact ⟨List.mem_cons_of_mem _ p.1, p.2⟩
        · intro y hy
          rcases List.mem_cons.mp hy with rfl | hy
          · exact p₃ _ rfl
          · exact p₂ y hy
      · rw [if_neg k] at h; cases h
    | some b =>
      dsimp only at h
      by_cases q : a.total < b.total
      · rw [if_pos (decide_eq_true q)] at h
        by_cases k : a.total ≤ intMax
        · rw [if_pos k] at h
          obtain ⟨h₁, h₂⟩ := ih h
          refine ⟨fun e => absurd (h₁ e).1 (by simp), fun x hx => ?_⟩
          obtain ⟨p₁, p₂, p₃⟩ := h₂ x hx
          have pa := p₃ _ rfl
          refine ⟨.inr ?_, ?_, ?_⟩
          · rcases p₁ with p | p
            · cases p; exact ⟨by simp, k⟩
            · exact ⟨List.mem_cons_of_mem _ p.1, p.2⟩
          · intro y hy
            rcases List.mem_cons.mp hy with rfl | hy
            · exact pa
            · exact p₂ y hy
          · intro y hy
            cases hy
            omega
        · rw [if_neg k] at h; cases h
      · rw [if_neg (by simpa using q)] at h
        obtain ⟨h₁, h₂⟩ := ih h
        refine ⟨fun e => absurd (h₁ e).1 (by simp), fun x hx => ?_⟩
        obtain ⟨p₁, p₂, p₃⟩ := h₂ x hx
        have pb := p₃ _ rfl
        refine ⟨?_, ?_, ?_⟩
        · rcases p₁ with p | p
          · exact .inl p
          · exact .inr ⟨List.mem_cons_of_mem _ p.1, p.2⟩
        · intro y hy
          rcases List.mem_cons.mp hy with rfl | hy
          · omega
          · exact p₂ y hy
        · intro y hy
          cases hy
          omega

/-- All ways fit: the choice is made. -/
theorem pick_ok {cs : List Cand} (h : ∀ c ∈ cs, c.total ≤ intMax) (best : Option Cand) :
    ∃ c, pick best cs = .ok c := by
  induction cs generalizing best with
  | nil => exact ⟨best, rfl⟩
  | cons a cs ih =>
    have ih := ih fun c hc => h c (List.mem_cons_of_mem _ hc)
    rw [pick.eq_def]
    dsimp only
    cases best with
    | none => rw [if_pos rfl, if_pos (h a (by simp))]; exact ih _
    | some b =>
      dsimp only
      by_cases k : a.total < b.total
      · rw [if_pos (decide_eq_true k), if_pos (h a (by simp))]; exact ih _
      · rw [if_neg (by simpa using k)]; exact ih _

/-! ### Which vertices can be seen -/

/-- Vertex `v` can be seen from `p`. -/
def Sees (g : Graph) (p : Pt) (v : Nat) : Prop :=
  v < g.pts.length ∧ (∃ z ∈ g.polys, ∃ x ∈ z.edges, x.a = v) ∧
    blocked g.pts g.polys p (pt g.pts v) none (some v) = false

/-- `q` can be seen from vertex `v`. -/
def Seen (g : Graph) (v : Nat) (q : Pt) : Prop :=
  v < g.pts.length ∧ (∃ z ∈ g.polys, ∃ x ∈ z.edges, x.a = v) ∧
    blocked g.pts g.polys (pt g.pts v) q (some v) none = false

theorem mem_fromStart {geo : Geo} {g : Graph} {p : Pt} {s : Nat × Nat} :
    s ∈ fromStart geo g p ↔ Sees g p s.1 ∧ s.2 = geo.len p (pt g.pts s.1) := by
  unfold fromStart Sees
  simp only [List.mem_map, List.mem_filter, List.mem_range, Bool.and_eq_true, Bool.not_eq_true',
    List.any_eq_true, decide_eq_true_eq]
  constructor
  · rintro ⟨v, ⟨h₁, h₂, h₃⟩, rfl⟩
    exact ⟨⟨h₁, h₂, h₃⟩, rfl⟩
  · rintro ⟨⟨h₁, h₂, h₃⟩, e⟩
    exact ⟨s.1, ⟨h₁, h₂, h₃⟩, by rw [← e]⟩

theorem mem_toEnd {geo : Geo} {g : Graph} {q : Pt} {s : Nat × Nat} :
    s ∈ toEnd geo g q ↔ Seen g s.1 q ∧ s.2 = geo.len q (pt g.pts s.1) := by
  unfold toEnd Seen
  simp only [List.mem_map, List.mem_filter, List.mem_range, Bool.and_eq_true, Bool.not_eq_true',
    List.any_eq_true, decide_eq_true_eq]
  constructor
  · rintro ⟨v, ⟨h₁, h₂, h₃⟩, rfl⟩
    exact ⟨⟨h₁, h₂, h₃⟩, rfl⟩
  · rintro ⟨⟨h₁, h₂, h₃⟩, e⟩
    exact ⟨s.1, ⟨h₁, h₂, h₃⟩, by rw [← e]⟩

theorem mem_candidates {geo : Geo} {g : Graph} {t : Tables} {p q : Pt} {c : Cand} :
    c ∈ candidates t (fromStart geo g p) (toEnd geo g q) ↔
      Sees g p c.u ∧ Seen g c.v q ∧
        c.total = geo.len p (pt g.pts c.u) + t.dist c.u c.v + geo.len q (pt g.pts c.v) := by
  unfold candidates
  simp only [List.mem_flatMap, List.mem_map]
  constructor
  · rintro ⟨s, hs, e, he, rfl⟩
    rw [mem_fromStart] at hs
    rw [mem_toEnd] at he
    exact ⟨hs.1, he.1, by rw [← hs.2, ← he.2]⟩
  · rintro ⟨h₁, h₂, h₃⟩
    refine ⟨(c.u, geo.len p (pt g.pts c.u)), mem_fromStart.mpr ⟨h₁, rfl⟩,
      (c.v, geo.len q (pt g.pts c.v)), mem_toEnd.mpr ⟨h₂, rfl⟩, ?_⟩
    dsimp only
    rw [← h₃]

/-- The result of the search when the straight way is blocked. -/
theorem findPath_blocked {geo : Geo} {g : Graph} {t : Tables} {p q : Pt} {r : Path}
    (hb : blocked g.pts g.polys p q none none = true) (h : findPath geo g t p q = .ok r) :
    (r = {} ∧ ∀ u v, Sees g p u → ¬ Seen g v q) ∨
      ∃ c : Cand, r = { first := c.u, last := c.v, len := c.total, start := p, stop := q } ∧
        Sees g p c.u ∧ Seen g c.v q ∧ c.total ≤ intMax ∧
        c.total = geo.len p (pt g.pts c.u) + t.dist c.u c.v + geo.len q (pt g.pts c.v) ∧
        ∀ u v, Sees g p u → Seen g v q →
          c.total ≤ geo.len p (pt g.pts u) + t.dist u v + geo.len q (pt g.pts v) := by
  unfold findPath at h
  rw [hb, Bool.not_true, if_neg (by simp)] at h
  cases e : pick none (candidates t (fromStart geo g p) (toEnd geo g q)) with
  | throws => rw [e] at h; cases h
  | ub => rw [e] at h; cases h
  | ok c =>
    obtain ⟨h₁, h₂⟩ := pick_spec e
    cases c with
    | none =>
      rw [e] at h
      cases h
      refine .inl ⟨rfl, fun u v hu hv => ?_⟩
      have hm := mem_candidates (geo := geo) (g := g) (t := t) (p := p) (q := q)
        (c := ⟨u, v, geo.len p (pt g.pts u) + t.dist u v + geo.len q (pt g.pts v)⟩)
      rw [(h₁ rfl).2] at hm
      exact absurd (hm.mpr ⟨hu, hv, rfl⟩) (by simp)
    | some c =>
      rw [e] at h
      cases h
      obtain ⟨p₁, p₂, -⟩ := h₂ c rfl
      rcases p₁ with p₁ | ⟨p₁, p₁'⟩
      · cases p₁
      obtain ⟨a, b, d⟩ := mem_candidates.mp p₁
      refine .inr ⟨c, rfl, a, b, p₁', d, fun u v hu hv => ?_⟩
      exact p₂ ⟨u, v, _⟩ (mem_candidates.mpr ⟨hu, hv, rfl⟩)

/-! ### The positions of the route -/

/-- The legs of a route: each position with the next. -/
def legs : List Pt → List (Pt × Pt)
  | a :: b :: l => (a, b) :: legs (b :: l)
  | _ => []

/-- The length of a route, each leg in whole metres. -/
def routeLen (geo : Geo) (l : List Pt) : Nat := ((legs l).map fun p => geo.len p.1 p.2).sum

theorem legs_snoc (l : List Pt) (a b : Pt) : legs (l ++ [a, b]) = legs (l ++ [a]) ++ [(a, b)] := by
  induction l with
  | nil => rfl
  | cons x l ih =>
    cases l with
    | nil => rfl
    | cons y l =>
      show (x, y) :: legs (y :: l ++ [a, b]) = (x, y) :: legs (y :: l ++ [a]) ++ [(a, b)]
      rw [ih]; rfl

theorem routeLen_snoc (geo : Geo) (l : List Pt) (a b : Pt) :
    routeLen geo (l ++ [a, b]) = routeLen geo (l ++ [a]) + geo.len a b := by
  unfold routeLen
  rw [legs_snoc]
  simp

/-- A way through the graph, as positions: its legs are edges. -/
theorem walk_legs {geo : Geo} {g : Graph}
    (hsym : ∀ p q, geo.len p q = geo.len q p)
    (hlen : ∀ x ∈ g.base, x.len = geo.len (pt g.pts x.a) (pt g.pts x.b))
    {u v : Nat} {l : List Nat} {w : Nat} (h : Walk g.base u v l w) :
    ∃ m, l = m ++ [v] ∧ (∃ m', l = u :: m') ∧ routeLen geo (l.map (pt g.pts)) = w ∧
      ∀ x ∈ legs (l.map (pt g.pts)), ∃ e ∈ g.base,
        x = (pt g.pts e.a, pt g.pts e.b) ∨ x = (pt g.pts e.b, pt g.pts e.a) := by
  induction h with
  | here => exact ⟨[], rfl, ⟨[], rfl⟩, rfl, by simp [legs]⟩
  | @step v x k l w hw hl ih =>
    obtain ⟨m, e, ⟨m', e'⟩, hr, hx⟩ := ih
    obtain ⟨d, hd, hk, hab⟩ := hl
    refine ⟨l, rfl, ⟨m' ++ [x], by rw [e']; rfl⟩, ?_, ?_⟩
    · rw [e, List.map_append, List.map_append, List.append_assoc]
      show routeLen geo (m.map (pt g.pts) ++ [pt g.pts v, pt g.pts x]) = w + k
      rw [routeLen_snoc, show m.map (pt g.pts) ++ [pt g.pts v] = l.map (pt g.pts) by rw [e]; simp, hr]
      congr 1
      rw [← hk, hlen d hd]
      rcases hab with ⟨rfl, rfl⟩ | ⟨rfl, rfl⟩
      · rfl
      · exact hsym _ _
    · rw [e, List.map_append, List.map_append, List.append_assoc]
      show ∀ y ∈ legs (m.map (pt g.pts) ++ [pt g.pts v, pt g.pts x]), _
      rw [legs_snoc, show m.map (pt g.pts) ++ [pt g.pts v] = l.map (pt g.pts) by rw [e]; simp]
      intro y hy
      rcases List.mem_append.mp hy with hy | hy
      · exact hx y hy
      · rw [List.mem_singleton.mp hy]
        refine ⟨d, hd, ?_⟩
        rcases hab with ⟨rfl, rfl⟩ | ⟨rfl, rfl⟩
        · exact .inl rfl
        · exact .inr rfl

/-- The positions found for a path over the graph: those of a shortest way
between its first and its last vertex. -/
theorem positions_spec {g : Graph} {t : Tables} (h : Shortest g.base g.pts.length t)
    {u v : Nat} (hu : u < g.pts.length) (hr : Reach g.base u v) (k : Int) (p q : Pt) :
    ∃ l, Walk g.base u v l (t.dist u v) ∧
      (positions g t { first := u, last := v, len := k, start := p, stop := q } =
          some (p :: (l.map (pt g.pts) ++ [q])) ∨
        (u = v ∧ positions g t { first := u, last := v, len := k, start := p, stop := q } =
          some [p, pt g.pts v, pt g.pts v, q])) := by
  have hpos : positions g t { first := u, last := v, len := k, start := p, stop := q } =
      (walkBack g.pts (t.parent u) u (g.pts.length + 1) (t.parent u v)
        [pt g.pts v, q]).map fun ps => p :: ps := by
    unfold positions
    rw [if_neg (by simp)]
    rfl
  by_cases e : v = u
  · subst e
    refine ⟨[v], ?_, .inr ⟨rfl, ?_⟩⟩
    · rw [(h.self v hu).1]; exact .here
    · rw [hpos, (h.self v hu).2]
      unfold walkBack
      rw [if_pos rfl]; rfl
  · obtain ⟨hr', j, hj, hd⟩ := h.tree u v hu e hr
    obtain ⟨d, hd', hb⟩ := h.depth u v hu hr
    cases d with
    | zero => exact absurd hb e
    | succ d =>
      obtain ⟨l, hw, he⟩ := walkBack_spec h g.pts hu d (t.parent u v) (g.pts.length + 1)
        [pt g.pts v, q] (by omega) hr' hb
      refine ⟨l ++ [v], ?_, .inl ?_⟩
      · rw [hd]; exact .step hw hj
      · rw [hpos, he]
        simp

end Verif.Visibility
