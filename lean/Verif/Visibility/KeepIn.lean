/-
C108: routes stay in a convex zone that is to be kept in.
-/
import Verif.Visibility.Examples

namespace Verif.Visibility

/-- On the inner side of every side, or on it. -/
def Closed (σ : Rat) (vs : List Pt) (p : Pt) : Prop :=
  ∀ s ∈ sides vs, 0 ≤ σ * lineAt s.1 s.2 p

theorem Inside.closed {σ : Rat} {vs : List Pt} {p : Pt} (h : Inside σ vs p) : Closed σ vs p :=
  fun s hs => Rat.le_of_lt (h s hs)

theorem Convex.corner {σ : Rat} {vs : List Pt} (h : Convex σ vs) {p : Pt} (hp : p ∈ vs) :
    Closed σ vs p := by
  intro s hs
  by_cases h₁ : p = s.1
  · rw [h₁, lineAt_left]; grind
  · by_cases h₂ : p = s.2
    · rw [h₂, lineAt_right]; grind
    · exact Rat.le_of_lt (h.2.2 s hs p hp h₁ h₂)

/-- A straight leg between two points of the zone is in the zone. -/
theorem Closed.leg {σ : Rat} {vs : List Pt} {a b : Pt} (ha : Closed σ vs a) (hb : Closed σ vs b)
    {t : Rat} (t₀ : 0 ≤ t) (t₁ : t ≤ 1) : Closed σ vs (along a b t) := by
  intro s hs
  have h₁ := Rat.mul_nonneg (show 0 ≤ 1 - t by grind) (ha s hs)
  have h₂ := Rat.mul_nonneg t₀ (hb s hs)
  rw [lineAt_along]
  generalize lineAt s.1 s.2 a = x at *
  generalize lineAt s.1 s.2 b = y at *
  grind

section
variable {geo : Geo} {pts : List Pt} {polys : List Poly} {P : Poly} {σ : Rat}

/-- **A clear leg does not leave a convex zone.**  A leg that is not blocked ends
inside when a point of it is, and neither end is a vertex of the zone; the
beginning may also be a vertex. -/
theorem stays (hP : P ∈ polys) (hr : P.edges = ring geo pts P.verts)
    (hc : Convex σ (P.verts.map (pt pts))) {a b : Pt} {i j : Option Nat}
    (hb : blocked pts polys a b i j = false) (hi : ∀ u, i = some u → pt pts u = a)
    (hj : ∀ v, j = some v → v ∉ P.verts) {t : Rat} (t₀ : 0 ≤ t) (t₁ : t ≤ 1)
    (h : Inside σ (P.verts.map (pt pts)) (along b a t)) : Inside σ (P.verts.map (pt pts)) b := by
  apply Classical.byContradiction
  intro hn
  rw [blocked_rev] at hb
  exact clear_leg geo hP hr hc hb hj hi hn t₀ t₁ h

theorem along_one (a b : Pt) : along a b 1 = b := by
  unfold along
  cases b
  congr 1 <;> grind

theorem mid_along (a b : Pt) : mid a b = along b a (1 / 2) := by
  unfold mid along
  congr 1 <;> grind

theorem mem_visible_mid {y z : Poly} {g : Edge} (h : g ∈ visibleEdges geo pts polys y z)
    (hk : y.keepIn = true) : within geo pts y (mid (pt pts g.a) (pt pts g.b)) = true := by
  unfold visibleEdges at h
  obtain ⟨u, hu, h⟩ := List.mem_flatMap.mp h
  obtain ⟨v, hv, h⟩ := List.mem_filterMap.mp h
  by_cases k₁ : (y.keepIn && !within geo pts y (mid (pt pts u) (pt pts v))) = true
  · rw [if_pos k₁] at h; cases h
  · rw [if_neg k₁] at h
    by_cases k₂ : blocked pts polys (pt pts u) (pt pts v) (some u) (some v) = true
    · rw [if_pos k₂] at h; cases h
    · rw [if_neg k₂, Option.some.injEq] at h
      subst h
      simpa [hk] using k₁

end

section
variable {geo : Geo} {rest : List (Bool × List Pt)} {w : Bool × List Pt} {σ : Rat}

/-- A vertex of the graph that is a corner of the first zone, or inside it. -/
def InFirst (geo : Geo) (σ : Rat) (w : Bool × List Pt) (rest : List (Bool × List Pt)) (v : Nat) :
    Prop :=
  v < w.2.length ∨ Inside σ w.2 (pt (build geo (w :: rest)).pts v)

theorem first_poly :
    ∃ P l, (build geo (w :: rest)).polys = P :: l ∧ P.keepIn = w.1 ∧
      P.verts = List.range' 0 w.2.length ∧ P.verts.map (pt (build geo (w :: rest)).pts) = w.2 ∧
      P.edges = ring geo (build geo (w :: rest)).pts P.verts := by
  refine ⟨_, _, rfl, rfl, rfl, ?_, rfl⟩
  show (List.range' 0 w.2.length).map (pt (w.2 ++ _)) = w.2
  exact flat_get [] w.2 _

/-- An edge of the graph does not lead from within the first zone to without. -/
theorem base_keeps_in (hk : w.1 = true) (ho : ∀ y ∈ rest, y.1 = false) (hc : Convex σ w.2)
    (hin : ∀ p, geo.inside w.2 p = true ↔ Inside σ w.2 p) {g : Edge}
    (hg : g ∈ (build geo (w :: rest)).base) :
    InFirst geo σ w rest g.a ↔ InFirst geo σ w rest g.b := by
  obtain ⟨P, l, ep, ek, ev, em, er⟩ := first_poly (geo := geo) (rest := rest) (w := w)
  have hP : P ∈ (build geo (w :: rest)).polys := by rw [ep]; simp
  have vert : ∀ i, i ∈ P.verts ↔ i < w.2.length := by
    intro i; rw [ev, List.mem_range'_1]; omega
  have inFirst : ∀ v, InFirst geo σ w rest v ↔
      v ∈ P.verts ∨ Inside σ w.2 (pt (build geo (w :: rest)).pts v) := by
    intro v; rw [vert]; rfl
  have hap := polys_apart geo (w :: rest)
  rw [ep] at hap
  obtain ⟨hap₀, hap⟩ := List.pairwise_cons.mp hap
  rw [inFirst, inFirst]
  -- a clear edge between vertices of other zones
  have away : ∀ u v, u ∉ P.verts → v ∉ P.verts →
      blocked (build geo (w :: rest)).pts (build geo (w :: rest)).polys
        (pt (build geo (w :: rest)).pts u) (pt (build geo (w :: rest)).pts v) (some u) (some v) = false →
      Inside σ w.2 (pt (build geo (w :: rest)).pts u) → Inside σ w.2 (pt (build geo (w :: rest)).pts v) := by
    intro u v hu hv hb h
    rw [← em] at hc h ⊢
    exact stays hP er hc hb (fun x e => by cases e; rfl) (fun x e => by cases e; exact hv)
      (t := 1) (by decide) (by decide) (by rw [along_one]; exact h)
  have both : ∀ u v, u ∉ P.verts → v ∉ P.verts →
      blocked (build geo (w :: rest)).pts (build geo (w :: rest)).polys
        (pt (build geo (w :: rest)).pts u) (pt (build geo (w :: rest)).pts v) (some u) (some v) = false →
      (u ∈ P.verts ∨ Inside σ w.2 (pt (build geo (w :: rest)).pts u) ↔
        v ∈ P.verts ∨ Inside σ w.2 (pt (build geo (w :: rest)).pts v)) := by
    intro u v hu hv hb
    constructor
    · rintro (h | h)
      · exact absurd h hu
      · exact .inr (away u v hu hv hb h)
    · rintro (h | h)
      · exact absurd h hv
      · exact .inr (away v u hv hu (by rw [blocked_rev]; exact hb) h)
  replace hg : g ∈ boundaryEdges geo (build geo (w :: rest)).pts (build geo (w :: rest)).polys ++
    pairEdges geo (build geo (w :: rest)).pts (build geo (w :: rest)).polys (build geo (w :: rest)).polys ++
    (build geo (w :: rest)).polys.flatMap
      (extraEdges geo (build geo (w :: rest)).pts (build geo (w :: rest)).polys) := hg
  rcases List.mem_append.mp hg with hg | hg
  · rcases List.mem_append.mp hg with hg | hg
    · -- a side of a zone
      obtain ⟨z, hz, hg⟩ := List.mem_flatMap.mp hg
      by_cases e : z = P
      · subst e
        have : g ∈ z.edges := by
          split at hg
          · exact hg
          · exact (List.mem_filter.mp hg).1
        obtain ⟨ha, hb, -⟩ := mem_ring geo (er ▸ this)
        exact ⟨fun _ => .inl hb, fun _ => .inl ha⟩
      · have hz' : z ∈ l := by
          rw [ep] at hz
          exact (List.mem_cons.mp hz).resolve_left e
        have hk' : z.keepIn = false := by
          have h₁ : (build geo (w :: rest)).polys = P :: l := ep
          obtain ⟨x, hx, hxe⟩ : ∃ x ∈ number (0 + w.2.length) rest, z.keepIn = x.1 := by
            have : l = (number (0 + w.2.length) rest).map fun x =>
                { keepIn := x.1, verts := x.2, edges := ring geo (build geo (w :: rest)).pts x.2 } := by
              have h₂ : (build geo (w :: rest)).polys = _ :: (number (0 + w.2.length) rest).map _ := rfl
              rw [h₂] at h₁
              exact (List.cons.inj h₁).2.symm
            rw [this] at hz'
            obtain ⟨x, hx, rfl⟩ := List.mem_map.mp hz'
            exact ⟨x, hx, rfl⟩
          obtain ⟨zs₁, y, zs₂, e₁, e₂, -⟩ := mem_number hx
          rw [hxe, e₂]
          exact ho y (by rw [e₁]; simp)
        rw [hk', if_neg (by simp)] at hg
        obtain ⟨hg, hs⟩ := List.mem_filter.mp hg
        have hne : ∀ i ∈ z.verts, i ∉ P.verts := fun i hi hp => hap₀ z hz' i hp hi
        obtain ⟨-, -, -, e', er'⟩ := zone_of_poly geo hz
        obtain ⟨ha, hb, -⟩ := mem_ring geo (er' ▸ hg)
        unfold oneSide at hs
        rw [List.all_eq_true] at hs
        have := hs P (List.mem_filter.mpr ⟨hP, by rw [ek, hk]⟩)
        simp only [within, em, Bool.and_eq_true, beq_iff_eq] at this
        have h₁ : Inside σ w.2 (pt (build geo (w :: rest)).pts g.a) ↔
            Inside σ w.2 (pt (build geo (w :: rest)).pts g.b) := by
          rw [← hin, ← hin, this.1]
        constructor
        · rintro (h | h)
          · exact absurd h (hne _ ha)
          · exact .inr (h₁.mp h)
        · rintro (h | h)
          · exact absurd h (hne _ hb)
          · exact .inr (h₁.mpr h)
    · -- between two zones
      have hpe : pairEdges geo (build geo (w :: rest)).pts (build geo (w :: rest)).polys
          (build geo (w :: rest)).polys =
          l.flatMap (visibleEdges geo (build geo (w :: rest)).pts (build geo (w :: rest)).polys P) ++
            pairEdges geo (build geo (w :: rest)).pts (build geo (w :: rest)).polys l := by
        conv => lhs; rw [show ∀ a, pairEdges geo (build geo (w :: rest)).pts a
          (build geo (w :: rest)).polys = pairEdges geo (build geo (w :: rest)).pts a (P :: l) from
            fun a => by rw [ep]]
        rfl
      rw [hpe] at hg
      rcases List.mem_append.mp hg with hg | hg
      · obtain ⟨z, hz, hg⟩ := List.mem_flatMap.mp hg
        obtain ⟨ha, hb, -, hbl⟩ := mem_visibleEdges geo hg
        have hm := mem_visible_mid hg (by rw [ek, hk])
        unfold within at hm
        rw [em, hin, mid_along] at hm
        refine ⟨fun _ => .inr ?_, fun _ => .inl ha⟩
        rw [← em] at hc hm ⊢
        exact stays hP er hc hbl (fun x e => by cases e; rfl)
          (fun x e => by cases e; exact fun hp => hap₀ z hz _ hp hb) (t := 1 / 2)
          (by decide +kernel) (by decide +kernel) hm
      · obtain ⟨-, hbl, y, hy, z, hz, ha, hb, -⟩ := mem_pairEdges geo hap hg
        exact both _ _ (fun hp => hap₀ y hy _ hp ha) (fun hp => hap₀ z hz _ hp hb) hbl
  · obtain ⟨z, hz, hg⟩ := List.mem_flatMap.mp hg
    obtain ⟨h₁, h₂⟩ := List.mem_filter.mp hg
    obtain ⟨ha, hb, -, hcl⟩ := mem_selfEdges geo h₁
    rw [Bool.and_eq_true] at h₂
    have hbl : blocked (build geo (w :: rest)).pts (build geo (w :: rest)).polys
        (pt (build geo (w :: rest)).pts g.a) (pt (build geo (w :: rest)).pts g.b) (some g.a) (some g.b) =
        false := by simpa using h₂.2
    have hz' : z ∈ l := by
      rw [ep] at hz
      refine (List.mem_cons.mp hz).resolve_left fun e => ?_
      rw [e, em, C110_convex hc] at hcl
      split at hcl <;> cases hcl
    exact both _ _ (fun hp => hap₀ z hz' _ hp ha) (fun hp => hap₀ z hz' _ hp hb) hbl

/-- **C108.**  With one zone to be kept in, which is convex and holds both ends,
no point of the route found is outside that zone. -/
theorem C108_keeps_in (hsym : ∀ p q, geo.len p q = geo.len q p) {t : Tables}
    (ht : Shortest (build geo (w :: rest)).base (build geo (w :: rest)).pts.length t)
    (hk : w.1 = true) (ho : ∀ y ∈ rest, y.1 = false) (hc : Convex σ w.2)
    (hin : ∀ p, geo.inside w.2 p = true ↔ Inside σ w.2 p)
    {p q : Pt} (hp : Inside σ w.2 p) (hq : Inside σ w.2 q) {r : Path}
    (h : findPath geo (build geo (w :: rest)) t p q = .ok r) (h₀ : 0 ≤ r.len) (h₁ : r.len < intMax)
    {l : List Pt} (hl : positions (build geo (w :: rest)) t r = some l) :
    ∀ x ∈ legs l, ∀ t : Rat, 0 ≤ t → t ≤ 1 → Closed σ w.2 (along x.1 x.2 t) := by
  obtain ⟨P, L, ep, ek, ev, em, er⟩ := first_poly (geo := geo) (rest := rest) (w := w)
  have hP : P ∈ (build geo (w :: rest)).polys := by rw [ep]; simp
  suffices hcl : ∀ c ∈ l, Closed σ w.2 c by
    intro x hx t t₀ t₁
    have ends : ∀ (l : List Pt) (x : Pt × Pt), x ∈ legs l → x.1 ∈ l ∧ x.2 ∈ l := by
      intro l
      induction l with
      | nil => intro x hx; cases hx
      | cons a l ih =>
        intro x hx
        cases l with
        | nil => cases hx
        | cons b l =>
          rcases mem_legs_cons hx with rfl | hx
          · simp
          · exact ⟨List.mem_cons_of_mem _ (ih x hx).1, List.mem_cons_of_mem _ (ih x hx).2⟩
    exact (hcl _ (ends l x hx).1).leg (hcl _ (ends l x hx).2) t₀ t₁
  by_cases hcl : Clear (w :: rest) p q
  · obtain ⟨r', e, -, hpos⟩ := C107_straight geo (w :: rest) t p q hcl
    rw [h] at e
    cases e
    rw [hl] at hpos
    cases hpos
    intro c hcm
    have : c = p ∨ c = q := by simpa using hcm
    rcases this with rfl | rfl
    · exact hp.closed
    · exact hq.closed
  · obtain ⟨u, v, m, hu, hv, -, hwalk, -, hpos, -⟩ := found ht hcl h h₀ h₁
    have corner : ∀ v, InFirst geo σ w rest v → Closed σ w.2 (pt (build geo (w :: rest)).pts v) := by
      rintro v (hv | hv)
      · refine hc.corner ?_
        have : v ∈ P.verts := by rw [ev, List.mem_range'_1]; omega
        have := List.mem_map_of_mem (f := pt (build geo (w :: rest)).pts) this
        rw [em] at this
        exact this
      · exact hv.closed
    have first : InFirst geo σ w rest u := by
      by_cases k : u < w.2.length
      · exact .inl k
      · refine .inr ?_
        have hp' := hp
        rw [← em] at hc hp' ⊢
        exact stays hP er hc hu.2.2 (fun x e => by cases e)
          (fun x e => by cases e; rw [ev, List.mem_range'_1]; omega) (t := 1) (by decide) (by decide)
          (by rw [along_one]; exact hp')
    have all : ∀ x ∈ m, InFirst geo σ w rest x := by
      have : (∀ x ∈ m, InFirst geo σ w rest x) ∧ InFirst geo σ w rest v := by
        clear hpos hv
        generalize t.dist u v = d at hwalk
        induction hwalk with
        | here => exact ⟨fun x hx => by rw [List.mem_singleton.mp hx]; exact first, first⟩
        | @step v x k l d hw hlk ih =>
          obtain ⟨ih₁, ih₂⟩ := ih
          have : InFirst geo σ w rest x := by
            obtain ⟨g, hg, -, ⟨e₁, e₂⟩ | ⟨e₁, e₂⟩⟩ := hlk
            · rw [← e₂]; rw [← e₁] at ih₂
              exact (base_keeps_in hk ho hc hin hg).mp ih₂
            · rw [← e₁]; rw [← e₂] at ih₂
              exact (base_keeps_in hk ho hc hin hg).mpr ih₂
          refine ⟨fun y hy => ?_, this⟩
          rcases List.mem_append.mp hy with hy | hy
          · exact ih₁ y hy
          · rw [List.mem_singleton.mp hy]; exact this
      exact this.1
    rcases hpos with hpos | ⟨rfl, hpos⟩
    · rw [hl] at hpos
      cases hpos
      intro c hcm
      rcases List.mem_cons.mp hcm with rfl | hcm
      · exact hp.closed
      rcases List.mem_append.mp hcm with hcm | hcm
      · obtain ⟨x, hx, rfl⟩ := List.mem_map.mp hcm
        exact corner x (all x hx)
      · rw [List.mem_singleton.mp hcm]; exact hq.closed
    · rw [hl] at hpos
      cases hpos
      intro c hcm
      have : c = p ∨ c = pt (build geo (w :: rest)).pts u ∨ c = q := by simpa using hcm
      rcases this with rfl | rfl | rfl
      · exact hp.closed
      · exact corner u first
      · exact hq.closed

end

/-! ### Examples -/

/-- The geometry of `euclid`, with the inside of clockwise convex zones. -/
def euclidCW : Geo := { euclid with inside := fun vs p => decide (Inside (-1) vs p) }

/-- A room, with the square in it. -/
def room : Bool × List Pt := (true, [⟨-20, -20⟩, ⟨-20, 30⟩, ⟨30, 30⟩, ⟨30, -20⟩])

/-- Not in the code: tables for the examples. -/
def roomTables : Tables :=
  tables (build euclidCW [room, square]).base (build euclidCW [room, square]).pts.length

/-- The way round the square stays in the room. -/
example : ∃ r l, findPath euclidCW (build euclidCW [room, square]) roomTables ⟨4, -5⟩ ⟨4, 15⟩ = .ok r ∧
    positions (build euclidCW [room, square]) roomTables r = some l ∧ l.length = 4 ∧
    ∀ x ∈ legs l, ∀ t : Rat, 0 ≤ t → t ≤ 1 → Closed (-1) room.2 (along x.1 x.2 t) := by
  have h₁ : findPath euclidCW (build euclidCW [room, square]) roomTables ⟨4, -5⟩ ⟨4, 15⟩ =
      .ok { first := 4, last := 5, len := 22, start := ⟨4, -5⟩, stop := ⟨4, 15⟩ } := by
    decide +kernel
  have h₂ : positions (build euclidCW [room, square]) roomTables
      { first := 4, last := 5, len := 22, start := ⟨4, -5⟩, stop := ⟨4, 15⟩ } =
      some [⟨4, -5⟩, ⟨0, 0⟩, ⟨0, 10⟩, ⟨4, 15⟩] := by decide +kernel
  exact ⟨_, _, h₁, h₂, rfl, C108_keeps_in (geo := euclidCW) euclid_symm
    (tables_shortest fun _ h => base_bound euclidCW h) rfl
    (fun y hy => by rw [List.mem_singleton.mp hy]; rfl) (by decide +kernel)
    (fun p => by exact decide_eq_true_iff) (by decide +kernel) (by decide +kernel) h₁
    (by decide) (by decide) h₂⟩

/-- **An end outside the zone to be kept in is reached over a corner of the
zone**: the boundary is not an obstacle to a route that leaves at a corner. -/
theorem C108_leave_violated :
    ∃ p q r, Inside (-1) room.2 p ∧ ¬ Closed (-1) room.2 q ∧
      findPath euclidCW (build euclidCW [room]) (tables (build euclidCW [room]).base 4) p q = .ok r ∧
      0 ≤ r.len ∧ positions (build euclidCW [room]) (tables (build euclidCW [room]).base 4) r =
        some [p, ⟨-20, 30⟩, ⟨-20, 30⟩, q] := by
  refine ⟨⟨0, 0⟩, ⟨0, 40⟩, { first := 1, last := 1, len := 58, start := ⟨0, 0⟩, stop := ⟨0, 40⟩ },
    by decide +kernel, ?_, by decide +kernel, by decide, by decide +kernel⟩
  intro h
  have := h (⟨-20, 30⟩, ⟨30, 30⟩) (by decide +kernel)
  revert this
  decide +kernel

end Verif.Visibility
