/-
C107: every leg of a route found is one that may be taken.  Together with
`Complete`: the route found is a shortest one among the ways over corners whose
legs are sides or join corners that see each other.
-/
import Verif.Visibility.Complete

namespace Verif.Visibility

section
variable {geo : Geo} {zs : List (Bool × List Pt)}

theorem open_of_blocked {p q : Pt} {i j : Option Nat} {ends : List Pt}
    (hi : ∀ u, i = some u → pt (build geo zs).pts u ∈ ends)
    (hj : ∀ u, j = some u → pt (build geo zs).pts u ∈ ends)
    (h : blocked (build geo zs).pts (build geo zs).polys p q i j = false) : Open zs ends p q := by
  intro y hy s hs h₁ h₂ ⟨h₃, h₄⟩
  obtain ⟨z, hz, -, ep, er⟩ := poly_of_zone geo hy
  rw [← ep] at hs
  obtain ⟨g, hg, e₁, e₂⟩ := ring_of_side geo hs
  have := not_blocked h hz (er ▸ hg)
  unfold Edge.hits at this
  rw [if_neg, e₁, e₂] at this
  · rw [(crosses_iff _ _ _ _).mpr ⟨h₄, h₃⟩] at this; cases this
  · rintro (e | e | e | e)
    · exact h₁ (e₁ ▸ hi _ e.symm)
    · exact h₁ (e₁ ▸ hj _ e.symm)
    · exact h₂ (e₂ ▸ hi _ e.symm)
    · exact h₂ (e₂ ▸ hj _ e.symm)

theorem number_split {k : Nat} {zs : List (Bool × List Pt)} {l₁ l₂ : List (Bool × List Nat)}
    {x : Bool × List Nat} (h : number k zs = l₁ ++ x :: l₂) :
    ∃ zs₁ y zs₂ k', zs = zs₁ ++ y :: zs₂ ∧ x.1 = y.1 ∧
      x.2 = List.range' (k + (zs₁.flatMap (·.2)).length) y.2.length ∧ l₂ = number k' zs₂ ∧
      k' = k + ((zs₁ ++ [y]).flatMap (·.2)).length := by
  induction zs generalizing k l₁ with
  | nil => cases l₁ <;> cases h
  | cons z zs ih =>
    rw [number] at h
    cases l₁ with
    | nil =>
      obtain ⟨rfl, rfl⟩ := List.cons.inj h
      exact ⟨[], z, zs, _, rfl, rfl, by simp, rfl, by simp⟩
    | cons w l₁ =>
      obtain ⟨-, h⟩ := List.cons.inj h
      obtain ⟨zs₁, y, zs₂, k', e, e₁, e₂, e₃, e₄⟩ := ih h
      refine ⟨z :: zs₁, y, zs₂, k', by rw [e]; rfl, e₁, ?_, e₃, ?_⟩
      · rw [e₂, List.flatMap_cons, List.length_append, Nat.add_assoc]
      · rw [e₄, List.cons_append, List.flatMap_cons, List.length_append, Nat.add_assoc]

/-- The zones of the graph stand in the order in which they are given. -/
theorem zones_split {l₁ l₂ l₃ : List Poly} {Y Z : Poly}
    (h : (build geo zs).polys = l₁ ++ Y :: (l₂ ++ Z :: l₃)) :
    ∃ zs₁ y zs₂ z zs₃, zs = zs₁ ++ y :: (zs₂ ++ z :: zs₃) ∧ Y.keepIn = y.1 ∧
      Y.verts.map (pt (build geo zs).pts) = y.2 ∧ Z.verts.map (pt (build geo zs).pts) = z.2 := by
  let mk : Bool × List Nat → Poly := fun x =>
    { keepIn := x.1, verts := x.2, edges := ring geo (build geo zs).pts x.2 }
  replace h : (number 0 zs).map mk = l₁ ++ Y :: (l₂ ++ Z :: l₃) := h
  obtain ⟨n₁, n₂, e, -, h₁⟩ := List.map_eq_append_iff.mp h
  obtain ⟨x, n₃, rfl, rfl, h₂⟩ := List.map_eq_cons_iff.mp h₁
  obtain ⟨n₄, n₅, rfl, -, h₃⟩ := List.map_eq_append_iff.mp h₂
  obtain ⟨x', n₆, rfl, rfl, -⟩ := List.map_eq_cons_iff.mp h₃
  obtain ⟨zs₁, y, zs', k', e₀, e₁, e₂, e₃, e₄⟩ := number_split e
  obtain ⟨zs₂, z, zs₃, k'', e₅, e₆, e₇, -, -⟩ := number_split e₃.symm
  have key : ∀ l₁ (y : Bool × List Pt) l₂, zs = l₁ ++ y :: l₂ →
      (List.range' ((l₁.flatMap (·.2)).length) y.2.length).map (pt (build geo zs).pts) = y.2 := by
    intro l₁ y l₂ e
    rw [pts_build, e, List.flatMap_append, List.flatMap_cons, ← List.append_assoc]
    exact flat_get _ _ _
  refine ⟨zs₁, y, zs₂, z, zs₃, by rw [e₀, e₅], e₁, ?_, ?_⟩
  · show x.2.map _ = _
    rw [e₂, Nat.zero_add]
    exact key _ _ _ e₀
  · show x'.2.map _ = _
    rw [e₇, e₄, Nat.zero_add, ← List.length_append, ← List.flatMap_append]
    exact key _ _ zs₃ (by rw [e₀, e₅]; simp)

theorem pair_split {pts : List Pt} {polys l : List Poly} {g : Edge} (h : g ∈ pairEdges geo pts polys l) :
    ∃ l₁ y l₂ z l₃, l = l₁ ++ y :: (l₂ ++ z :: l₃) ∧ g ∈ visibleEdges geo pts polys y z := by
  induction l with
  | nil => cases h
  | cons x l ih =>
    rcases List.mem_append.mp h with h | h
    · obtain ⟨z, hz, h'⟩ := List.mem_flatMap.mp h
      obtain ⟨l₂, l₃, rfl⟩ := List.append_of_mem hz
      exact ⟨[], x, l₂, z, l₃, rfl, h'⟩
    · obtain ⟨l₁, y, l₂, z, l₃, rfl, h'⟩ := ih h
      exact ⟨x :: l₁, y, l₂, z, l₃, rfl, h'⟩

theorem visible_inside {pts : List Pt} {polys : List Poly} {y z : Poly} {g : Edge}
    (h : g ∈ visibleEdges geo pts polys y z) (k : y.keepIn = true) :
    within geo pts y (mid (pt pts g.a) (pt pts g.b)) = true := by
  unfold visibleEdges at h
  obtain ⟨u, hu, h⟩ := List.mem_flatMap.mp h
  obtain ⟨v, hv, h⟩ := List.mem_filterMap.mp h
  by_cases k₁ : (y.keepIn && !within geo pts y (mid (pt pts u) (pt pts v))) = true
  · rw [if_pos k₁] at h; cases h
  · rw [if_neg k₁] at h
    split at h
    · cases h
    · cases h
      rw [k] at k₁
      simpa using k₁

theorem later_ne {l : List Nat} (hl : l.Nodup) {p : Nat × Nat} (h : p ∈ laterPairs l) : p.1 ≠ p.2 := by
  induction l with
  | nil => cases h
  | cons u us ih =>
    obtain ⟨h₁, h₂⟩ := List.nodup_cons.mp hl
    rcases List.mem_append.mp h with h | h
    · obtain ⟨v, hv, rfl⟩ := List.mem_map.mp h
      exact fun (e : u = v) => h₁ (e ▸ hv)
    · exact ih h₂ h

theorem verts_nodup {z : Poly} (h : z ∈ (build geo zs).polys) : z.verts.Nodup := by
  obtain ⟨x, hx, rfl⟩ := List.mem_map.mp h
  obtain ⟨zs₁, y, zs₂, -, -, e⟩ := mem_number hx
  show x.2.Nodup
  rw [e]
  exact List.nodup_range'

theorem self_spec {pts : List Pt} {z : Poly} {g : Edge} (h : g ∈ selfEdges geo pts z) :
    (g.a, g.b) ∈ laterPairs z.verts ∧
      (∀ x ∈ z.edges, ¬ (x.a = g.a ∧ x.b = g.b) ∧ ¬ (x.a = g.b ∧ x.b = g.a)) ∧
      within geo pts z (mid (pt pts g.a) (pt pts g.b)) = z.keepIn := by
  unfold selfEdges at h
  split at h
  · obtain ⟨p, hp, h⟩ := List.mem_filterMap.mp h
    split at h
    · cases h
    · rename_i k₁
      split at h
      · cases h
      · rename_i k₂
        split at h
        · cases h
        · cases h
          refine ⟨hp, fun x hx => ?_, by simpa using k₂⟩
          rw [Bool.not_eq_true, List.any_eq_false] at k₁
          have := k₁ x hx
          simp only [decide_eq_true_eq] at this
          exact ⟨fun e => this (.inl e), fun e => this (.inr e)⟩
  · cases h

/-- **Every edge of the graph is a leg that may be taken.** -/
theorem leg_of_edge (hd : (zs.flatMap (·.2)).Nodup) {g : Edge} (h : g ∈ (build geo zs).base) :
    Leg geo zs (pt (build geo zs).pts g.a) (pt (build geo zs).pts g.b) := by
  replace h : g ∈ boundaryEdges geo (build geo zs).pts (build geo zs).polys ++
    pairEdges geo (build geo zs).pts (build geo zs).polys (build geo zs).polys ++
    (build geo zs).polys.flatMap (extraEdges geo (build geo zs).pts (build geo zs).polys) := h
  have two : ∀ {u v : Nat}, blocked (build geo zs).pts (build geo zs).polys (pt (build geo zs).pts u)
      (pt (build geo zs).pts v) (some u) (some v) = false →
      Open zs [pt (build geo zs).pts u, pt (build geo zs).pts v]
        (pt (build geo zs).pts u) (pt (build geo zs).pts v) := fun hb =>
    open_of_blocked (fun w e => by cases e; simp) (fun w e => by cases e; simp) hb
  rcases List.mem_append.mp h with h | h
  · rcases List.mem_append.mp h with h | h
    · obtain ⟨z, hz, h⟩ := List.mem_flatMap.mp h
      obtain ⟨y, hy, ek, ep, er⟩ := zone_of_poly geo hz
      by_cases k : z.keepIn = true
      · rw [if_pos k, er] at h
        obtain ⟨-, -, -, hs⟩ := mem_ring geo h
        exact .side hy (ep ▸ hs) (fun e => by rw [← ek, k] at e; cases e)
      · rw [if_neg k] at h
        obtain ⟨h, ho⟩ := List.mem_filter.mp h
        rw [er] at h
        obtain ⟨-, -, -, hs⟩ := mem_ring geo h
        refine .side hy (ep ▸ hs) (fun _ x hx hk => ?_)
        obtain ⟨X, hX, ek', ep', -⟩ := poly_of_zone geo hx
        unfold oneSide at ho
        rw [List.all_eq_true] at ho
        have := ho X (List.mem_filter.mpr ⟨hX, by rw [ek', hk]⟩)
        simp only [within, ep', Bool.and_eq_true, beq_iff_eq] at this
        exact this
    · obtain ⟨l₁, Y, l₂, Z, l₃, e, h⟩ := pair_split h
      obtain ⟨zs₁, y, zs₂, z, zs₃, e', ek, ey, ez⟩ := zones_split e
      obtain ⟨ha, hb, -, hbl⟩ := mem_visibleEdges geo h
      refine .across e' (ey ▸ List.mem_map_of_mem ha) (ez ▸ List.mem_map_of_mem hb) (fun k => ?_)
        (two hbl)
      have := visible_inside h (by rw [ek, k])
      unfold within at this
      rw [ey] at this
      exact this
  · obtain ⟨Z, hZ, h⟩ := List.mem_flatMap.mp h
    obtain ⟨h, hx⟩ := List.mem_filter.mp h
    obtain ⟨z, hz, ek, ep, er⟩ := zone_of_poly geo hZ
    obtain ⟨ha, hb, -, hc⟩ := mem_selfEdges geo h
    obtain ⟨hl, hs, hm⟩ := self_spec h
    rw [Bool.and_eq_true] at hx
    have hbl : blocked (build geo zs).pts (build geo zs).polys (pt (build geo zs).pts g.a)
        (pt (build geo zs).pts g.b) (some g.a) (some g.b) = false := by simpa using hx.2
    have ba := verts_bound geo hZ ha
    have bb := verts_bound geo hZ hb
    have noside : ∀ u v, u < (build geo zs).pts.length → v < (build geo zs).pts.length →
        (∀ x ∈ Z.edges, ¬ (x.a = u ∧ x.b = v)) →
        (pt (build geo zs).pts u, pt (build geo zs).pts v) ∉ sides z.2 := by
      intro u v hu hv hx hm
      rw [← ep] at hm
      obtain ⟨x, hx', e₁, e₂⟩ := ring_of_side geo hm
      obtain ⟨xa, xb, -, -⟩ := mem_ring geo hx'
      exact hx x (er ▸ hx') ⟨pt_inj hd (verts_bound geo hZ xa) hu e₁, pt_inj hd (verts_bound geo hZ xb) hv e₂⟩
    refine .inner hz (ep ▸ hc) (ep ▸ List.mem_map_of_mem ha) (ep ▸ List.mem_map_of_mem hb)
      (fun e => later_ne (verts_nodup hZ) hl (pt_inj hd ba bb e))
      (noside _ _ ba bb fun x hx => (hs x hx).1) (noside _ _ bb ba fun x hx => (hs x hx).2) ?_ (two hbl)
    unfold within at hm
    rw [ep, ek] at hm
    exact hm

theorem legs_of_walk (hd : (zs.flatMap (·.2)).Nodup) {u v : Nat} {l : List Nat} {w : Nat}
    (h : Walk (build geo zs).base u v l w) :
    (∃ m, l = m ++ [v]) ∧ (∃ m, l = u :: m) ∧
      ∀ x ∈ legs (l.map (pt (build geo zs).pts)), Leg geo zs x.1 x.2 := by
  induction h with
  | here => exact ⟨⟨[], rfl⟩, ⟨[], rfl⟩, fun x hx => by cases hx⟩
  | @step v x k l w hw hl ih =>
    obtain ⟨⟨m, rfl⟩, ⟨m', e⟩, ih⟩ := ih
    refine ⟨⟨_, rfl⟩, ⟨m' ++ [x], by rw [e]; rfl⟩, fun y hy => ?_⟩
    rw [List.append_assoc, List.map_append] at hy
    replace hy : y ∈ legs (m.map (pt (build geo zs).pts) ++
      [pt (build geo zs).pts v, pt (build geo zs).pts x]) := hy
    rw [legs_snoc] at hy
    rcases List.mem_append.mp hy with hy | hy
    · exact ih y (by rw [List.map_append]; exact hy)
    · rw [List.mem_singleton.mp hy]
      obtain ⟨g, hg, -, ⟨rfl, rfl⟩ | ⟨rfl, rfl⟩⟩ := hl
      · exact leg_of_edge hd hg
      · exact .back (leg_of_edge hd hg)

/-- **C107.**  A route found when the straight way is blocked leads over corners
of zones; its first and its last leg cross no sides, and each leg between is a
side or joins corners that see each other, or stays where it is. -/
theorem C107_admissible (hd : (zs.flatMap (·.2)).Nodup) {t : Tables}
    (ht : Shortest (build geo zs).base (build geo zs).pts.length t) {p q : Pt} {r : Path}
    (hb : ¬ Clear zs p q) (h : findPath geo (build geo zs) t p q = .ok r)
    (h₀ : 0 ≤ r.len) (h₁ : r.len < intMax) :
    ∃ a m, positions (build geo zs) t r = some (p :: (a :: m ++ [q])) ∧
      (∀ c ∈ a :: m, ∃ y ∈ zs, c ∈ y.2) ∧ Open zs [a] p a ∧
      Open zs [(a :: m).getLast (by simp)] ((a :: m).getLast (by simp)) q ∧
      ∀ x ∈ legs (a :: m), Leg geo zs x.1 x.2 ∨ x.1 = x.2 := by
  obtain ⟨u, v, l, hu, hv, -, hw, -, hpos, -⟩ := found ht hb h h₀ h₁
  have hp : Open zs [pt (build geo zs).pts u] p (pt (build geo zs).pts u) :=
    open_of_blocked (fun w e => by cases e) (fun w e => by cases e; simp) hu.2.2
  have hq : Open zs [pt (build geo zs).pts v] (pt (build geo zs).pts v) q :=
    open_of_blocked (fun w e => by cases e; simp) (fun w e => by cases e) hv.2.2
  have hcor := walk_corners hw (corner_of_edge geo hu.2.1)
  obtain ⟨⟨m, e⟩, ⟨m', e'⟩, hlegs⟩ := legs_of_walk hd hw
  rcases hpos with hpos | ⟨rfl, hpos⟩
  · have e₁ : l.map (pt (build geo zs).pts) =
        pt (build geo zs).pts u :: m'.map (pt (build geo zs).pts) := by rw [e']; rfl
    refine ⟨_, m'.map (pt (build geo zs).pts), by rw [hpos, e₁], by rw [← e₁]; exact hcor, hp, ?_,
      fun x hx => .inl (hlegs x (by rw [e₁]; exact hx))⟩
    have : (pt (build geo zs).pts u :: m'.map (pt (build geo zs).pts)).getLast (by simp) =
        pt (build geo zs).pts v := by
      simp only [← e₁, e, List.map_append, List.map_cons, List.map_nil, List.getLast_append,
        List.getLast_singleton, List.isEmpty_cons, Bool.false_eq_true, dite_false]
    rw [this]
    exact hq
  · refine ⟨_, [pt (build geo zs).pts u], hpos, ?_, hp, hq, fun x hx => .inr ?_⟩
    · intro c hc
      have : c = pt (build geo zs).pts u := by simpa using hc
      rw [this]
      exact corner_of_edge geo hu.2.1
    · have : x = (pt (build geo zs).pts u, pt (build geo zs).pts u) := by simpa [legs] using hx
      rw [this]

end

/-- The way round the square. -/
example : ∃ a m, positions (build euclid [square]) (tablesOf [square])
    { first := 0, last := 1, len := 22, start := ⟨4, -5⟩, stop := ⟨4, 15⟩ } =
      some (⟨4, -5⟩ :: (a :: m ++ [⟨4, 15⟩])) ∧
    (∀ c ∈ a :: m, ∃ y ∈ [square], c ∈ y.2) ∧ Open [square] [a] ⟨4, -5⟩ a ∧
      Open [square] [(a :: m).getLast (by simp)] ((a :: m).getLast (by simp)) ⟨4, 15⟩ ∧
      ∀ x ∈ legs (a :: m), Leg euclid [square] x.1 x.2 ∨ x.1 = x.2 :=
  C107_admissible (by decide +kernel) (tablesOf_shortest _)
    (by rw [← clear_iff euclid]; decide +kernel) round_square.1 (by decide) (by decide)

end Verif.Visibility
