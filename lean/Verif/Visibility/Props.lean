/-
What routes the visibility planner finds (C107), and that they keep out of the
zones they are to keep out of (C108).
-/
import Verif.Visibility.Build
import Verif.Visibility.Dijkstra
import Verif.Visibility.Classify

namespace Verif.Visibility

/-! ### The meaning of the statements -/

/-- The straight way from `p` to `q` crosses no side of a zone.  (A way that runs
along a side does not count as crossing it.) -/
def Clear (zs : List (Bool × List Pt)) (p q : Pt) : Prop :=
  ∀ y ∈ zs, ∀ s ∈ sides y.2, ¬ (Share s.1 s.2 p q ∧ ¬ Parallel s.1 s.2 p q)

/-- No point of the route is strictly inside the zone with corners `vs`. -/
def Avoids (σ : Rat) (vs : List Pt) (l : List Pt) : Prop :=
  ∀ x ∈ legs l, ∀ t : Rat, 0 ≤ t → t ≤ 1 → ¬ Inside σ vs (along x.1 x.2 t)

section
variable (geo : Geo)

theorem clear_iff (zs : List (Bool × List Pt)) (p q : Pt) :
    blocked (build geo zs).pts (build geo zs).polys p q none none = false ↔ Clear zs p q := by
  have hits : ∀ g : Edge, g.hits (build geo zs).pts p q none none = true ↔
      Share (pt (build geo zs).pts g.a) (pt (build geo zs).pts g.b) p q ∧
        ¬ Parallel (pt (build geo zs).pts g.a) (pt (build geo zs).pts g.b) p q := by
    intro g
    unfold Edge.hits
    rw [if_neg (by simp), crosses_iff]
    exact And.comm
  constructor
  · intro h y hy s hs
    obtain ⟨z, hz, -, e, er⟩ := poly_of_zone geo hy
    rw [← e] at hs
    obtain ⟨g, hg, e₁, e₂⟩ := ring_of_side geo hs
    have := not_blocked h hz (er ▸ hg)
    rw [← Bool.not_eq_true, hits, e₁, e₂] at this
    exact this
  · intro h
    unfold blocked
    rw [List.any_eq_false]
    intro z hz
    rw [Bool.not_eq_true, List.any_eq_false]
    intro g hg
    obtain ⟨y, hy, -, e, er⟩ := zone_of_poly geo hz
    obtain ⟨-, -, -, hs⟩ := mem_ring geo (er ▸ hg)
    rw [hits]
    exact h y hy _ (e ▸ hs)

theorem routeLen_cons (a b : Pt) (l : List Pt) :
    routeLen geo (a :: b :: l) = geo.len a b + routeLen geo (b :: l) := by
  unfold routeLen
  simp [legs]

theorem routeLen_ends (p q : Pt) {m m' : List Pt} {a b : Pt} {l : List Pt} (h₁ : l = a :: m)
    (h₂ : l = m' ++ [b]) :
    routeLen geo (p :: (l ++ [q])) = geo.len p a + routeLen geo l + geo.len b q := by
  have e : routeLen geo (l ++ [q]) = routeLen geo l + geo.len b q := by
    rw [h₂, List.append_assoc]
    exact routeLen_snoc geo m' b q
  have e' : routeLen geo (p :: (l ++ [q])) = geo.len p a + routeLen geo (l ++ [q]) := by
    rw [h₁, List.cons_append, routeLen_cons]
  rw [e', e]
  omega

/-- A vertex that an edge begins at is a corner of a zone. -/
theorem corner_of_edge {zs : List (Bool × List Pt)} {v : Nat}
    (h : ∃ z ∈ (build geo zs).polys, ∃ x ∈ z.edges, x.a = v) :
    ∃ y ∈ zs, pt (build geo zs).pts v ∈ y.2 := by
  obtain ⟨z, hz, x, hx, rfl⟩ := h
  obtain ⟨y, hy, -, e, er⟩ := zone_of_poly geo hz
  obtain ⟨ha, -⟩ := mem_ring geo (er ▸ hx)
  exact ⟨y, hy, by rw [← e]; exact List.mem_map_of_mem ha⟩

theorem corner_of_base {zs : List (Bool × List Pt)} {g : Edge} (h : g ∈ (build geo zs).base) :
    (∃ y ∈ zs, pt (build geo zs).pts g.a ∈ y.2) ∧ ∃ y ∈ zs, pt (build geo zs).pts g.b ∈ y.2 := by
  have key : ∀ z ∈ (build geo zs).polys, ∀ i ∈ z.verts, ∃ y ∈ zs, pt (build geo zs).pts i ∈ y.2 := by
    intro z hz i hi
    obtain ⟨y, hy, -, e, -⟩ := zone_of_poly geo hz
    exact ⟨y, hy, by rw [← e]; exact List.mem_map_of_mem hi⟩
  rcases (mem_base geo h).2 with ⟨z, hz, hg⟩ | ⟨-, y, hy, z, hz, a, b, -⟩ | ⟨-, z, hz, a, b, -⟩
  · obtain ⟨y, -, -, -, e⟩ := zone_of_poly geo hz
    obtain ⟨a, b, -, -⟩ := mem_ring geo (e ▸ hg)
    exact ⟨key z hz _ a, key z hz _ b⟩
  · exact ⟨key y hy _ a, key z hz _ b⟩
  · exact ⟨key z hz _ a, key z hz _ b⟩

end

theorem walk_corners {geo : Geo} {zs : List (Bool × List Pt)} {u v : Nat} {l : List Nat} {w : Nat}
    (h : Walk (build geo zs).base u v l w)
    (hu : ∃ y ∈ zs, pt (build geo zs).pts u ∈ y.2) :
    ∀ c ∈ l.map (pt (build geo zs).pts), ∃ y ∈ zs, c ∈ y.2 := by
  induction h with
  | here => simpa using hu
  | @step v x k l w hw hl ih =>
    intro c hc
    rw [List.map_append] at hc
    rcases List.mem_append.mp hc with hc | hc
    · exact ih c hc
    · obtain ⟨g, hg, -, ⟨-, e⟩ | ⟨e, -⟩⟩ := hl
      · have := (corner_of_base geo hg).2
        rw [e] at this
        simpa [List.mem_singleton.mp hc] using this
      · have := (corner_of_base geo hg).1
        rw [e] at this
        simpa [List.mem_singleton.mp hc] using this

/-- What is known of a path found when the straight way is blocked: it leads over
vertices of the graph that can be reached. -/
theorem found {geo : Geo} {zs : List (Bool × List Pt)} {t : Tables}
    (ht : Shortest (build geo zs).base (build geo zs).pts.length t) {p q : Pt} {r : Path}
    (hb : ¬ Clear zs p q) (h : findPath geo (build geo zs) t p q = .ok r)
    (h₀ : 0 ≤ r.len) (h₁ : r.len < intMax) :
    ∃ u v l, Sees (build geo zs) p u ∧ Seen (build geo zs) v q ∧
      r = { first := u, last := v, len := r.len, start := p, stop := q } ∧
      Walk (build geo zs).base u v l (t.dist u v) ∧
      r.len = ((geo.len p (pt (build geo zs).pts u) + t.dist u v +
        geo.len q (pt (build geo zs).pts v) : Nat) : Int) ∧
      (positions (build geo zs) t r = some (p :: (l.map (pt (build geo zs).pts) ++ [q])) ∨
        (u = v ∧ positions (build geo zs) t r =
          some [p, pt (build geo zs).pts v, pt (build geo zs).pts v, q])) ∧
      ∀ u' v', Sees (build geo zs) p u' → Seen (build geo zs) v' q →
        r.len ≤ ((geo.len p (pt (build geo zs).pts u') + t.dist u' v' +
          geo.len q (pt (build geo zs).pts v') : Nat) : Int) := by
  have hb' : blocked (build geo zs).pts (build geo zs).polys p q none none = true := by
    rw [← Bool.not_eq_false, clear_iff]; exact hb
  rcases findPath_blocked hb' h with ⟨rfl, -⟩ | ⟨c, rfl, hu, hv, -, hc, hmin⟩
  · exact absurd h₀ (by decide)
  · have hr : Reach (build geo zs).base c.u c.v := by
      apply Classical.byContradiction
      intro hn
      have := (ht.apart c.u c.v hu.1 hv.1 hn).1
      have h₁ : (c.total : Int) < intMax := h₁
      omega
    obtain ⟨l, hw, hp⟩ := positions_spec ht hu.1 hr c.total p q
    exact ⟨c.u, c.v, l, hu, hv, rfl, hw, by rw [← hc], hp,
      fun u' v' h₁ h₂ => Int.ofNat_le.mpr (hmin u' v' h₁ h₂)⟩

/-! ### C107: the route found is a shortest one -/

/-- **C107.**  When no side of a zone is in the way, the route is the straight
line, and its length is reported. -/
theorem C107_straight (geo : Geo) (zs : List (Bool × List Pt)) (t : Tables) (p q : Pt)
    (h : Clear zs p q) :
    ∃ r, findPath geo (build geo zs) t p q = .ok r ∧ r.len = geo.len p q ∧
      positions (build geo zs) t r = some [p, q] := by
  refine ⟨{ len := geo.len p q, start := p, stop := q }, ?_, rfl, ?_⟩
  · unfold findPath
    rw [(clear_iff geo zs p q).mpr h]
    rfl
  · unfold positions
    rw [if_pos (show ((-1 : Int) < 0) by decide)]

/-- **C107.**  Otherwise the route leads from the start over corners of zones to
the end; the length reported is the sum of the lengths of its legs; and no other
way over the edges of the visibility graph is shorter. -/
theorem C107_shortest {geo : Geo} (hsym : ∀ p q, geo.len p q = geo.len q p)
    (hself : ∀ p, geo.len p p = 0) {zs : List (Bool × List Pt)} {t : Tables}
    (ht : Shortest (build geo zs).base (build geo zs).pts.length t) {p q : Pt} {r : Path}
    (hb : ¬ Clear zs p q) (h : findPath geo (build geo zs) t p q = .ok r)
    (h₀ : 0 ≤ r.len) (h₁ : r.len < intMax) :
    ∃ m, positions (build geo zs) t r = some (p :: (m ++ [q])) ∧
      m ≠ [] ∧ (∀ c ∈ m, ∃ y ∈ zs, c ∈ y.2) ∧
      r.len = (routeLen geo (p :: (m ++ [q])) : Nat) ∧
      ∀ u v l w, Sees (build geo zs) p u → Walk (build geo zs).base u v l w →
        Seen (build geo zs) v q →
        r.len ≤ (routeLen geo (p :: (l.map (pt (build geo zs).pts) ++ [q])) : Nat) := by
  obtain ⟨u, v, l, hu, hv, -, hw, hlen, hpos, hmin⟩ := found ht hb h h₀ h₁
  have hedge : ∀ x ∈ (build geo zs).base,
      x.len = geo.len (pt (build geo zs).pts x.a) (pt (build geo zs).pts x.b) :=
    fun x hx => (mem_base geo hx).1
  have total : ∀ u v l w, Walk (build geo zs).base u v l w →
      routeLen geo (p :: (l.map (pt (build geo zs).pts) ++ [q])) =
        geo.len p (pt (build geo zs).pts u) + w + geo.len q (pt (build geo zs).pts v) := by
    intro u v l w hw
    obtain ⟨m, e, ⟨m', e'⟩, hr, -⟩ := walk_legs hsym hedge hw
    rw [routeLen_ends geo p q (a := pt (build geo zs).pts u) (b := pt (build geo zs).pts v)
      (m := m'.map (pt (build geo zs).pts)) (m' := m.map (pt (build geo zs).pts))
      (by rw [e']; rfl) (by rw [e]; simp), hr, hsym q]
  have short : ∀ u v l w, Sees (build geo zs) p u → Walk (build geo zs).base u v l w →
      Seen (build geo zs) v q →
      r.len ≤ (routeLen geo (p :: (l.map (pt (build geo zs).pts) ++ [q])) : Nat) := by
    intro u' v' l' w' hu' hw' hv'
    rw [total u' v' l' w' hw']
    have := hmin u' v' hu' hv'
    have := ht.least u' v' l' w' hu'.1 hw'
    omega
  rcases hpos with hpos | ⟨rfl, hpos⟩
  · refine ⟨l.map (pt (build geo zs).pts), hpos, ?_, walk_corners hw (corner_of_edge geo hu.2.1), ?_, short⟩
    · obtain ⟨m, e, -⟩ := walk_legs hsym hedge hw
      rw [e]; simp
    · rw [hlen, total u v l _ hw]
  · refine ⟨[pt (build geo zs).pts u, pt (build geo zs).pts u], hpos, by simp, ?_, ?_, short⟩
    · intro c hc
      have : c = pt (build geo zs).pts u := by simpa using hc
      rw [this]
      exact corner_of_edge geo hu.2.1
    · rw [hlen, (ht.self u hu.1).1, List.cons_append, List.cons_append, List.nil_append,
        routeLen_cons, routeLen_cons, routeLen_cons, hself, hsym q]
      simp only [routeLen, legs, List.map_nil, List.sum_nil]
      omega

/-- **C107.**  The search succeeds when every corner that can be seen from the
start is joined to every corner from which the end can be seen by a way short
enough. -/
theorem C107_found {geo : Geo} {zs : List (Bool × List Pt)} {t : Tables}
    (ht : Shortest (build geo zs).base (build geo zs).pts.length t) {p q : Pt}
    (hc : ∀ u v, Sees (build geo zs) p u → Seen (build geo zs) v q →
      ∃ l w, Walk (build geo zs).base u v l w ∧
        geo.len p (pt (build geo zs).pts u) + w + geo.len q (pt (build geo zs).pts v) ≤ intMax) :
    ∃ r, findPath geo (build geo zs) t p q = .ok r := by
  unfold findPath
  by_cases hb : blocked (build geo zs).pts (build geo zs).polys p q none none = true
  · rw [hb, Bool.not_true, if_neg (by simp)]
    obtain ⟨c, e⟩ := pick_ok (cs := candidates t (fromStart geo (build geo zs) p)
      (toEnd geo (build geo zs) q)) (fun c hc' => by
        obtain ⟨h₁, h₂, h₃⟩ := mem_candidates.mp hc'
        obtain ⟨l, w, hw, hle⟩ := hc c.u c.v h₁ h₂
        have := ht.least c.u c.v l w h₁.1 hw
        omega) none
    rw [e]
    cases c with
    | none => exact ⟨_, rfl⟩
    | some c => exact ⟨_, rfl⟩
  · rw [Bool.not_eq_true] at hb
    rw [hb]
    exact ⟨_, rfl⟩

/-! ### C108: the route keeps out of zones -/

section
variable {geo : Geo} {zs : List (Bool × List Pt)} {w : Bool × List Pt} {σ : Rat}

theorem along_same (a : Pt) (t : Rat) : along a a t = a := by
  unfold along
  cases a
  congr 1 <;> grind

theorem along_zero (a b : Pt) : along a b 0 = a := by
  unfold along
  cases a
  congr 1 <;> grind

/-- No side of a zone enters the zone `w`. -/
def Apart (zs : List (Bool × List Pt)) (σ : Rat) (w : Bool × List Pt) : Prop :=
  ∀ y ∈ zs, y ≠ w → ∀ s ∈ sides y.2, ∀ t : Rat, 0 ≤ t → t ≤ 1 →
    ¬ Inside σ w.2 (along s.1 s.2 t)

theorem side_avoids (ha : Apart zs σ w) {y : Bool × List Pt} (hy : y ∈ zs) {s : Pt × Pt}
    (hs : s ∈ sides y.2) {t : Rat} (t₀ : 0 ≤ t) (t₁ : t ≤ 1) :
    ¬ Inside σ w.2 (along s.1 s.2 t) := by
  by_cases e : y = w
  · subst e
    intro h
    have := h s hs
    rw [lineAt_self] at this
    grind
  · exact ha y hy e s hs t t₀ t₁

theorem corner_avoids (ha : Apart zs σ w) {y : Bool × List Pt} (hy : y ∈ zs) {c : Pt}
    (hc : c ∈ y.2) : ¬ Inside σ w.2 c := by
  obtain ⟨i, hi, e⟩ := List.mem_iff_getElem.mp hc
  have := side_avoids ha hy (side_mem y.2 i hi) (t := 0) (by decide) (by decide)
  rw [along_zero] at this
  rw [← e]
  exact this

theorem base_avoids (hw : w ∈ zs) (hc : Convex σ w.2)
    (ha : Apart zs σ w) {g : Edge} (hg : g ∈ (build geo zs).base) {t : Rat} (t₀ : 0 ≤ t)
    (t₁ : t ≤ 1) :
    ¬ Inside σ w.2 (along (pt (build geo zs).pts g.a) (pt (build geo zs).pts g.b) t) := by
  obtain ⟨P, hP, -, eP, er⟩ := poly_of_zone geo hw
  have vert : ∀ z ∈ (build geo zs).polys, ∀ i ∈ z.verts, ¬ Inside σ w.2 (pt (build geo zs).pts i) := by
    intro z hz i hi
    obtain ⟨y, hy, -, e, -⟩ := zone_of_poly geo hz
    exact corner_avoids ha hy (by rw [← e]; exact List.mem_map_of_mem hi)
  have leg : ∀ i j, i ∉ P.verts → ¬ Inside σ w.2 (pt (build geo zs).pts i) →
      blocked (build geo zs).pts (build geo zs).polys (pt (build geo zs).pts i)
        (pt (build geo zs).pts j) (some i) (some j) = false →
      ∀ t : Rat, 0 ≤ t → t ≤ 1 →
        ¬ Inside σ w.2 (along (pt (build geo zs).pts i) (pt (build geo zs).pts j) t) := by
    intro i j hi hin hb t t₀ t₁
    rw [← eP] at hc hin ⊢
    exact clear_leg geo hP er hc hb (fun u e => by cases e; exact hi) (fun v e => by cases e; rfl)
      hin t₀ t₁
  rcases (mem_base geo hg).2 with ⟨z, hz, hgz⟩ | ⟨hb, y, hy, z, hz, ma, mb, hd⟩ | ⟨hb, z, hz, ma, mb, hz'⟩
  · obtain ⟨y, hy, -, e, er'⟩ := zone_of_poly geo hz
    obtain ⟨-, -, -, hs⟩ := mem_ring geo (er' ▸ hgz)
    rw [e] at hs
    exact side_avoids ha hy hs t₀ t₁
  · by_cases m : g.a ∈ P.verts
    · have e : y = P := same_zone (polys_apart geo zs) hy hP ma m
      have hnb : g.b ∉ P.verts := fun h =>
        have e' : z = P := same_zone (polys_apart geo zs) hz hP mb h
        hd _ ma (by rw [e', ← e]; exact ma)
      rw [← along_rev]
      rw [blocked_rev] at hb
      exact leg _ _ hnb (vert z hz _ mb) hb _ (by grind) (by grind)
    · exact leg _ _ m (vert y hy _ ma) hb _ t₀ t₁
  · by_cases m : g.a ∈ P.verts
    · have e : z = P := same_zone (polys_apart geo zs) hz hP ma m
      rw [e, eP, C110_convex hc] at hz'
      split at hz' <;> cases hz'
    · exact leg _ _ m (vert z hz _ ma) hb _ t₀ t₁

theorem mem_legs_cons {a b : Pt} {l : List Pt} {x : Pt × Pt} (h : x ∈ legs (a :: b :: l)) :
    x = (a, b) ∨ x ∈ legs (b :: l) := by
  simpa [legs] using h

/-- **C108.**  No point of the route found is strictly inside a convex zone,
provided neither end is and no side of another zone enters it. -/
theorem C108_keeps_out (hsym : ∀ p q, geo.len p q = geo.len q p) {t : Tables}
    (ht : Shortest (build geo zs).base (build geo zs).pts.length t)
    (hw : w ∈ zs) (hc : Convex σ w.2) (ha : Apart zs σ w)
    {p q : Pt} (hp : ¬ Inside σ w.2 p) (hq : ¬ Inside σ w.2 q) {r : Path}
    (h : findPath geo (build geo zs) t p q = .ok r) (h₀ : 0 ≤ r.len) (h₁ : r.len < intMax)
    {l : List Pt} (hl : positions (build geo zs) t r = some l) : Avoids σ w.2 l := by
  obtain ⟨P, hP, -, eP, er⟩ := poly_of_zone geo hw
  have leg : ∀ a b j, ¬ Inside σ w.2 a → (∀ v, j = some v → pt (build geo zs).pts v = b) →
      blocked (build geo zs).pts (build geo zs).polys a b none j = false →
      ∀ t : Rat, 0 ≤ t → t ≤ 1 → ¬ Inside σ w.2 (along a b t) := by
    intro a b j hin hj hb t t₀ t₁
    rw [← eP] at hc hin ⊢
    exact clear_leg geo hP er hc hb (fun u e => by cases e) hj hin t₀ t₁
  by_cases hcl : Clear zs p q
  · obtain ⟨r', e, -, hpos⟩ := C107_straight geo zs t p q hcl
    rw [h] at e
    cases e
    rw [hl] at hpos
    cases hpos
    intro x hx t t₀ t₁
    have : x = (p, q) := by simpa [legs] using hx
    rw [this]
    exact leg p q none hp (fun v e => by cases e) ((clear_iff geo zs p q).mpr hcl) t t₀ t₁
  · obtain ⟨u, v, m, hu, hv, -, hwalk, -, hpos, -⟩ := found ht hcl h h₀ h₁
    have first : ∀ t : Rat, 0 ≤ t → t ≤ 1 →
        ¬ Inside σ w.2 (along p (pt (build geo zs).pts u) t) :=
      leg p _ (some u) hp (fun v e => by cases e; rfl) hu.2.2
    have last : ∀ t : Rat, 0 ≤ t → t ≤ 1 →
        ¬ Inside σ w.2 (along (pt (build geo zs).pts v) q t) := by
      intro t t₀ t₁
      rw [← along_rev]
      exact leg q _ (some v) hq (fun v e => by cases e; rfl)
        (by rw [blocked_rev]; exact hv.2.2) _ (by grind) (by grind)
    have hedge : ∀ x ∈ (build geo zs).base,
        x.len = geo.len (pt (build geo zs).pts x.a) (pt (build geo zs).pts x.b) :=
      fun x hx => (mem_base geo hx).1
    obtain ⟨n, e, ⟨n', e'⟩, -, hlegs⟩ := walk_legs hsym hedge hwalk
    have inner : ∀ x ∈ legs (m.map (pt (build geo zs).pts)), ∀ t : Rat, 0 ≤ t → t ≤ 1 →
        ¬ Inside σ w.2 (along x.1 x.2 t) := by
      intro x hx t t₀ t₁
      obtain ⟨g, hg, rfl | rfl⟩ := hlegs x hx
      · exact base_avoids hw hc ha hg t₀ t₁
      · rw [← along_rev]
        exact base_avoids hw hc ha hg (by grind) (by grind)
    rcases hpos with hpos | ⟨rfl, hpos⟩
    · rw [hl] at hpos
      cases hpos
      intro x hx
      have key : legs (p :: (m.map (pt (build geo zs).pts) ++ [q])) =
          (p, pt (build geo zs).pts u) :: legs (m.map (pt (build geo zs).pts)) ++
            [(pt (build geo zs).pts v, q)] := by
        have e₁ : legs (m.map (pt (build geo zs).pts) ++ [q]) =
            legs (m.map (pt (build geo zs).pts)) ++ [(pt (build geo zs).pts v, q)] := by
          rw [e, List.map_append, List.append_assoc]
          exact legs_snoc _ _ _
        rw [List.cons_append, ← e₁, e']
        rfl
      rw [key] at hx
      rcases List.mem_append.mp hx with hx | hx
      · rcases List.mem_cons.mp hx with rfl | hx
        · exact first
        · exact inner x hx
      · rw [List.mem_singleton.mp hx]
        exact last
    · rw [hl] at hpos
      cases hpos
      intro x hx
      have : x = (p, pt (build geo zs).pts u) ∨
          x = (pt (build geo zs).pts u, pt (build geo zs).pts u) ∨
          x = (pt (build geo zs).pts u, q) := by simpa [legs] using hx
      rcases this with rfl | rfl | rfl
      · exact first
      · intro t _ _
        dsimp only
        rw [along_same]
        obtain ⟨y, hy, hcy⟩ := corner_of_edge geo hu.2.1
        exact corner_avoids ha hy hcy
      · exact last

end

end Verif.Visibility
