/-
The base graph of a region: what its edges are, and that the straight legs of
the graph do not pass through convex zones that are to be kept out of.
-/
import Verif.Visibility.Convex

namespace Verif.Visibility

variable (geo : Geo)

/-! ### Numbering -/

theorem flat_get (pre : List Pt) (vs : List Pt) (post : List Pt) :
    (List.range' pre.length vs.length).map (pt (pre ++ vs ++ post)) = vs := by
  apply List.ext_getElem
  · simp
  · intro i h₁ h₂
    simp only [List.length_map, List.length_range'] at h₁
    rw [List.getElem_map, List.getElem_range']
    unfold pt
    rw [List.getD_eq_getElem?_getD, List.append_assoc, List.getElem?_append_right (by omega),
      List.getElem?_append_left (by omega), show pre.length + 1 * i - pre.length = i by omega,
      List.getElem?_eq_getElem h₁]
    rfl

theorem mem_number {k : Nat} {zs : List (Bool × List Pt)} {x : Bool × List Nat}
    (h : x ∈ number k zs) :
    ∃ zs₁ z zs₂, zs = zs₁ ++ z :: zs₂ ∧ x.1 = z.1 ∧
      x.2 = List.range' (k + (zs₁.flatMap (·.2)).length) z.2.length := by
  induction zs generalizing k with
  | nil => cases h
  | cons z zs ih =>
    rcases List.mem_cons.mp h with rfl | h
    · exact ⟨[], z, zs, rfl, rfl, by simp⟩
    · obtain ⟨zs₁, y, zs₂, e, e₁, e₂⟩ := ih h
      refine ⟨z :: zs₁, y, zs₂, by rw [e]; rfl, e₁, ?_⟩
      rw [e₂, List.flatMap_cons, List.length_append]
      congr 1
      omega

theorem number_mem {k : Nat} {zs : List (Bool × List Pt)} {z : Bool × List Pt} (h : z ∈ zs) :
    ∃ x ∈ number k zs, x.1 = z.1 ∧ ∃ zs₁ zs₂, zs = zs₁ ++ z :: zs₂ ∧
      x.2 = List.range' (k + (zs₁.flatMap (·.2)).length) z.2.length := by
  induction zs generalizing k with
  | nil => cases h
  | cons y zs ih =>
    rcases List.mem_cons.mp h with rfl | h
    · exact ⟨_, List.mem_cons_self, rfl, [], zs, rfl, by simp⟩
    · obtain ⟨x, hx, e, zs₁, zs₂, e₁, e₂⟩ := ih (k := k + y.2.length) h
      refine ⟨x, List.mem_cons_of_mem _ hx, e, y :: zs₁, zs₂, by rw [e₁]; rfl, ?_⟩
      rw [e₂, List.flatMap_cons, List.length_append]
      congr 1
      omega

theorem number_apart (k : Nat) (zs : List (Bool × List Pt)) :
    (number k zs).Pairwise fun x y => ∀ i ∈ x.2, i ∉ y.2 := by
  induction zs generalizing k with
  | nil => exact .nil
  | cons z zs ih =>
    refine List.pairwise_cons.mpr ⟨fun y hy i hi hy' => ?_, ih _⟩
    obtain ⟨zs₁, w, zs₂, -, -, e⟩ := mem_number hy
    rw [e, List.mem_range'_1] at hy'
    rw [List.mem_range'_1] at hi
    omega

/-- The zones of the graph are those given, with the corners given. -/
theorem zone_of_poly {zs : List (Bool × List Pt)} {z : Poly} (h : z ∈ (build geo zs).polys) :
    ∃ y ∈ zs, z.keepIn = y.1 ∧ z.verts.map (pt (build geo zs).pts) = y.2 ∧
      z.edges = ring geo (build geo zs).pts z.verts := by
  obtain ⟨x, hx, rfl⟩ := List.mem_map.mp h
  obtain ⟨zs₁, y, zs₂, e, e₁, e₂⟩ := mem_number hx
  refine ⟨y, by rw [e]; simp, e₁, ?_, rfl⟩
  show x.2.map (pt (zs.flatMap (·.2))) = y.2
  rw [e₂, e, List.flatMap_append, List.flatMap_cons, ← List.append_assoc, Nat.zero_add]
  exact flat_get _ _ _

theorem poly_of_zone {zs : List (Bool × List Pt)} {y : Bool × List Pt} (h : y ∈ zs) :
    ∃ z ∈ (build geo zs).polys, z.keepIn = y.1 ∧ z.verts.map (pt (build geo zs).pts) = y.2 ∧
      z.edges = ring geo (build geo zs).pts z.verts := by
  obtain ⟨x, hx, e, zs₁, zs₂, e₁, e₂⟩ := number_mem (k := 0) h
  refine ⟨_, List.mem_map_of_mem hx, e, ?_, rfl⟩
  show x.2.map (pt (zs.flatMap (·.2))) = y.2
  rw [e₂, e₁, List.flatMap_append, List.flatMap_cons, ← List.append_assoc, Nat.zero_add]
  exact flat_get _ _ _

/-- Vertex numbers are below the number of positions. -/
theorem verts_bound {zs : List (Bool × List Pt)} {z : Poly} (h : z ∈ (build geo zs).polys) {i : Nat}
    (hi : i ∈ z.verts) : i < (build geo zs).pts.length := by
  obtain ⟨x, hx, rfl⟩ := List.mem_map.mp h
  obtain ⟨zs₁, y, zs₂, e, e₁, e₂⟩ := mem_number hx
  replace hi : i ∈ x.2 := hi
  show i < (zs.flatMap (·.2)).length
  rw [e₂, List.mem_range'_1] at hi
  rw [e, List.flatMap_append, List.flatMap_cons, List.length_append, List.length_append]
  omega

theorem polys_apart (zs : List (Bool × List Pt)) :
    (build geo zs).polys.Pairwise fun x y => ∀ i ∈ x.verts, i ∉ y.verts := by
  show ((number 0 zs).map _).Pairwise _
  rw [List.pairwise_map]
  exact number_apart 0 zs

/-- No vertex is on two zones. -/
theorem same_zone {l : List Poly} (h : l.Pairwise fun x y => ∀ i ∈ x.verts, i ∉ y.verts)
    {y w : Poly} (hy : y ∈ l) (hw : w ∈ l) {i : Nat} (h₁ : i ∈ y.verts) (h₂ : i ∈ w.verts) :
    y = w := by
  induction l with
  | nil => cases hy
  | cons a l ih =>
    obtain ⟨h₀, h⟩ := List.pairwise_cons.mp h
    rcases List.mem_cons.mp hy with e | hy' <;> rcases List.mem_cons.mp hw with e' | hw'
    · rw [e, e']
    · exact absurd h₂ (h₀ _ hw' _ (e ▸ h₁))
    · exact absurd h₁ (h₀ _ hy' _ (e' ▸ h₂))
    · exact ih h hy' hw'

/-! ### The edges of a zone -/

theorem zip_map_both {α β : Type} (f : α → β) (l m : List α) :
    (l.zip m).map (fun p => (f p.1, f p.2)) = (l.map f).zip (m.map f) := by
  induction l generalizing m with
  | nil => rfl
  | cons a l ih =>
    cases m with
    | nil => rfl
    | cons b m => simp [ih]

/-- The edges of a zone are its sides. -/
theorem ring_sides (pts : List Pt) (vs : List Nat) :
    (ring geo pts vs).map (fun g => (pt pts g.a, pt pts g.b)) = sides (vs.map (pt pts)) := by
  unfold ring sides
  rw [List.map_map, ← List.map_drop, ← List.map_take, ← List.map_append, ← zip_map_both]
  rfl

theorem mem_ring {pts : List Pt} {vs : List Nat} {g : Edge} (h : g ∈ ring geo pts vs) :
    g.a ∈ vs ∧ g.b ∈ vs ∧ g.len = geo.len (pt pts g.a) (pt pts g.b) ∧
      (pt pts g.a, pt pts g.b) ∈ sides (vs.map (pt pts)) := by
  have hs : (pt pts g.a, pt pts g.b) ∈ sides (vs.map (pt pts)) := by
    rw [← ring_sides geo]
    exact List.mem_map.mpr ⟨g, h, rfl⟩
  obtain ⟨p, hp, rfl⟩ := List.mem_map.mp h
  have hb := (List.of_mem_zip hp).2
  refine ⟨(List.of_mem_zip hp).1, ?_, rfl, hs⟩
  rcases List.mem_append.mp hb with h | h
  · exact List.mem_of_mem_drop h
  · exact List.mem_of_mem_take h

theorem ring_of_side {pts : List Pt} {vs : List Nat} {s : Pt × Pt}
    (h : s ∈ sides (vs.map (pt pts))) :
    ∃ g ∈ ring geo pts vs, pt pts g.a = s.1 ∧ pt pts g.b = s.2 := by
  rw [← ring_sides geo] at h
  obtain ⟨g, hg, e⟩ := List.mem_map.mp h
  exact ⟨g, hg, by rw [← e], by rw [← e]⟩

/-! ### Legs -/

theorem not_blocked {pts : List Pt} {polys : List Poly} {p q : Pt} {i j : Option Nat}
    (h : blocked pts polys p q i j = false) {z : Poly} (hz : z ∈ polys) {g : Edge}
    (hg : g ∈ z.edges) : g.hits pts p q i j = false := by
  unfold blocked at h
  rw [List.any_eq_false] at h
  have := h z hz
  rw [Bool.not_eq_true, List.any_eq_false] at this
  exact Bool.not_eq_true _ ▸ this g hg

theorem hits_rev (pts : List Pt) (g : Edge) (p q : Pt) (i j : Option Nat) :
    g.hits pts p q i j = g.hits pts q p j i := by
  unfold Edge.hits
  rw [crosses_rev]
  by_cases h : some g.a = i ∨ some g.a = j ∨ some g.b = i ∨ some g.b = j
  · rw [if_pos h, if_pos (by grind)]
  · rw [if_neg h, if_neg (by grind)]

theorem blocked_rev (pts : List Pt) (polys : List Poly) (p q : Pt) (i j : Option Nat) :
    blocked pts polys p q i j = blocked pts polys q p j i := by
  unfold blocked
  congr 1
  funext z
  congr 1
  funext g
  exact hits_rev pts g p q i j

/-- **A clear leg does not pass through a convex zone.**  A leg that is not
blocked, that begins outside the zone, does not come from a vertex of the zone
and ends where it says has no point strictly inside the zone. -/
theorem clear_leg {pts : List Pt} {polys : List Poly} {z : Poly} (hz : z ∈ polys)
    (hr : z.edges = ring geo pts z.verts) {σ : Rat} (hc : Convex σ (z.verts.map (pt pts)))
    {p q : Pt} {i j : Option Nat} (hb : blocked pts polys p q i j = false)
    (hi : ∀ u, i = some u → u ∉ z.verts) (hj : ∀ v, j = some v → pt pts v = q)
    (hp : ¬ Inside σ (z.verts.map (pt pts)) p) {t : Rat} (t₀ : 0 ≤ t) (t₁ : t ≤ 1) :
    ¬ Inside σ (z.verts.map (pt pts)) (along p q t) := by
  intro h
  obtain ⟨s, hs, hpos, hx⟩ := enters hc hp t₀ t₁ h
  obtain ⟨g, hg, e₁, e₂⟩ := ring_of_side geo hs
  obtain ⟨ha, hb', -, -⟩ := mem_ring geo hg
  have hh := not_blocked hb hz (hr ▸ hg)
  unfold Edge.hits at hh
  rw [e₁, e₂] at hh
  by_cases k : some g.a = i ∨ some g.a = j ∨ some g.b = i ∨ some g.b = j
  · rcases k with k | k | k | k
    · exact hi _ k.symm ha
    · have := hj _ k.symm
      rw [e₁] at this
      rw [← this, lineAt_left] at hpos
      grind
    · exact hi _ k.symm hb'
    · have := hj _ k.symm
      rw [e₂] at this
      rw [← this, lineAt_right] at hpos
      grind
  · rw [if_neg k] at hh
    rw [hx] at hh
    cases hh

/-! ### The edges of the base graph -/

/-- `g` is an edge of the boundary of a zone. -/
def OfBoundary (polys : List Poly) (g : Edge) : Prop := ∃ z ∈ polys, g ∈ z.edges

/-- `g` leads from a vertex of one zone to one of another, and is not blocked. -/
def Across (pts : List Pt) (polys : List Poly) (g : Edge) : Prop :=
  blocked pts polys (pt pts g.a) (pt pts g.b) (some g.a) (some g.b) = false ∧
    ∃ y ∈ polys, ∃ z ∈ polys, g.a ∈ y.verts ∧ g.b ∈ z.verts ∧ ∀ i ∈ y.verts, i ∉ z.verts

/-- `g` joins two vertices of a concave zone, and is not blocked. -/
def Within (pts : List Pt) (polys : List Poly) (g : Edge) : Prop :=
  blocked pts polys (pt pts g.a) (pt pts g.b) (some g.a) (some g.b) = false ∧
    ∃ z ∈ polys, g.a ∈ z.verts ∧ g.b ∈ z.verts ∧ classify (z.verts.map (pt pts)) = .notConvex

theorem mem_visibleEdges {pts : List Pt} {polys : List Poly} {y z : Poly} {g : Edge}
    (h : g ∈ visibleEdges geo pts polys y z) :
    g.a ∈ y.verts ∧ g.b ∈ z.verts ∧ g.len = geo.len (pt pts g.a) (pt pts g.b) ∧
      blocked pts polys (pt pts g.a) (pt pts g.b) (some g.a) (some g.b) = false := by
  unfold visibleEdges at h
  obtain ⟨u, hu, h⟩ := List.mem_flatMap.mp h
  obtain ⟨v, hv, h⟩ := List.mem_filterMap.mp h
  by_cases k₁ : (y.keepIn && !within geo pts y (mid (pt pts u) (pt pts v))) = true
  · rw [if_pos k₁] at h; cases h
  · rw [if_neg k₁] at h
    by_cases k₂ : blocked pts polys (pt pts u) (pt pts v) (some u) (some v) = true
    · rw [if_pos k₂] at h; cases h
    · rw [if_neg k₂, Option.some.injEq] at h
      subst h
      exact ⟨hu, hv, rfl, by simpa using k₂⟩

theorem mem_pairEdges {pts : List Pt} {polys l : List Poly} {g : Edge}
    (hl : l.Pairwise fun x y => ∀ i ∈ x.verts, i ∉ y.verts)
    (h : g ∈ pairEdges geo pts polys l) :
    g.len = geo.len (pt pts g.a) (pt pts g.b) ∧
      blocked pts polys (pt pts g.a) (pt pts g.b) (some g.a) (some g.b) = false ∧
      ∃ y ∈ l, ∃ z ∈ l, g.a ∈ y.verts ∧ g.b ∈ z.verts ∧ ∀ i ∈ y.verts, i ∉ z.verts := by
  induction l with
  | nil => cases h
  | cons y zs ih =>
    obtain ⟨h₀, hl⟩ := List.pairwise_cons.mp hl
    rcases List.mem_append.mp h with h | h
    · obtain ⟨z, hz, h⟩ := List.mem_flatMap.mp h
      obtain ⟨a, b, c, d⟩ := mem_visibleEdges geo h
      exact ⟨c, d, y, by simp, z, by simp [hz], a, b, h₀ z hz⟩
    · obtain ⟨c, d, y', hy, z, hz, r⟩ := ih hl h
      exact ⟨c, d, y', by simp [hy], z, by simp [hz], r⟩

theorem mem_laterPairs {l : List Nat} {p : Nat × Nat} (h : p ∈ laterPairs l) : p.1 ∈ l ∧ p.2 ∈ l := by
  induction l with
  | nil => cases h
  | cons u us ih =>
    rcases List.mem_append.mp h with h | h
    · obtain ⟨v, hv, rfl⟩ := List.mem_map.mp h
      exact ⟨by simp, by simp [hv]⟩
    · exact ⟨List.mem_cons_of_mem _ (ih h).1, List.mem_cons_of_mem _ (ih h).2⟩

theorem mem_selfEdges {pts : List Pt} {z : Poly} {g : Edge} (h : g ∈ selfEdges geo pts z) :
    g.a ∈ z.verts ∧ g.b ∈ z.verts ∧ g.len = geo.len (pt pts g.a) (pt pts g.b) ∧
      classify (z.verts.map (pt pts)) = .notConvex := by
  unfold selfEdges at h
  by_cases k : classify (z.verts.map (pt pts)) = .notConvex
  · rw [if_pos k] at h
    obtain ⟨p, hp, h⟩ := List.mem_filterMap.mp h
    obtain ⟨h₁, h₂⟩ := mem_laterPairs hp
    split at h
    · cases h
    split at h
    · cases h
    split at h
    · cases h
    cases h
    exact ⟨h₁, h₂, rfl, k⟩
  · rw [if_neg k] at h
    cases h

/-- **What the base graph is made of.**  Every edge has the length of the
segment it stands for, and is an edge of a zone, or joins vertices of two zones,
or of one concave zone, without crossing an edge of a zone. -/
theorem mem_base {zs : List (Bool × List Pt)} {g : Edge} (h : g ∈ (build geo zs).base) :
    g.len = geo.len (pt (build geo zs).pts g.a) (pt (build geo zs).pts g.b) ∧
      (OfBoundary (build geo zs).polys g ∨ Across (build geo zs).pts (build geo zs).polys g ∨
        Within (build geo zs).pts (build geo zs).polys g) := by
  replace h : g ∈ boundaryEdges geo (build geo zs).pts (build geo zs).polys ++
    pairEdges geo (build geo zs).pts (build geo zs).polys (build geo zs).polys ++
    (build geo zs).polys.flatMap (extraEdges geo (build geo zs).pts (build geo zs).polys) := h
  rcases List.mem_append.mp h with h | h
  · rcases List.mem_append.mp h with h | h
    · obtain ⟨z, hz, h⟩ := List.mem_flatMap.mp h
      have hg : g ∈ z.edges := by
        split at h
        · exact h
        · exact (List.mem_filter.mp h).1
      obtain ⟨y, -, -, -, e⟩ := zone_of_poly geo hz
      exact ⟨(mem_ring geo (e ▸ hg)).2.2.1, .inl ⟨z, hz, hg⟩⟩
    · obtain ⟨a, b, y, hy, z, hz, r⟩ := mem_pairEdges geo (polys_apart geo zs) h
      exact ⟨a, .inr (.inl ⟨b, y, hy, z, hz, r⟩)⟩
  · obtain ⟨z, hz, h⟩ := List.mem_flatMap.mp h
    obtain ⟨h₁, h₂⟩ := List.mem_filter.mp h
    obtain ⟨a, b, c, d⟩ := mem_selfEdges geo h₁
    rw [Bool.and_eq_true] at h₂
    exact ⟨c, .inr (.inr ⟨by simpa using h₂.2, z, hz, a, b, d⟩)⟩

/-- The ends of every edge are vertices. -/
theorem base_bound {zs : List (Bool × List Pt)} {g : Edge} (h : g ∈ (build geo zs).base) :
    g.a < (build geo zs).pts.length ∧ g.b < (build geo zs).pts.length := by
  rcases (mem_base geo h).2 with ⟨z, hz, hg⟩ | ⟨-, y, hy, z, hz, a, b, -⟩ | ⟨-, z, hz, a, b, -⟩
  · obtain ⟨y, -, -, -, e⟩ := zone_of_poly geo hz
    obtain ⟨a, b, -, -⟩ := mem_ring geo (e ▸ hg)
    exact ⟨verts_bound geo hz a, verts_bound geo hz b⟩
  · exact ⟨verts_bound geo hy a, verts_bound geo hz b⟩
  · exact ⟨verts_bound geo hz a, verts_bound geo hz b⟩

end Verif.Visibility
