/-
C107: the graph leaves out no way.  Every way over corners of the zones, whose
legs are sides or join corners that see each other, is at least as long as the
route found.
-/
import Verif.Visibility.Props
import Verif.Visibility.Examples
import Verif.Trace

namespace Verif.Visibility

/-! ### The meaning of the statement -/

/-- The straight way from `a` to `b` crosses no side of a zone, other than sides
that end at one of the corners `ends`. -/
def Open (zs : List (Bool × List Pt)) (ends : List Pt) (a b : Pt) : Prop :=
  ∀ y ∈ zs, ∀ s ∈ sides y.2, s.1 ∉ ends → s.2 ∉ ends →
    ¬ (Share s.1 s.2 a b ∧ ¬ Parallel s.1 s.2 a b)

/-- A leg that a route over corners may take: a side of a zone to be kept in; a
side of a zone to be kept out of, all on one side of the boundaries to be kept
in; the way from a corner of a zone to a corner of a later one, in the earlier
one if that is to be kept in; or a way in the bays of a zone that is not convex. -/
inductive Leg (geo : Geo) (zs : List (Bool × List Pt)) : Pt → Pt → Prop
  | side {y : Bool × List Pt} {a b : Pt} (hy : y ∈ zs) (hs : (a, b) ∈ sides y.2)
      (ho : y.1 = false → ∀ x ∈ zs, x.1 = true →
        geo.inside x.2 a = geo.inside x.2 b ∧ geo.inside x.2 a = geo.inside x.2 (mid a b)) :
      Leg geo zs a b
  | across {y z : Bool × List Pt} {zs₁ zs₂ zs₃ : List (Bool × List Pt)} {a b : Pt}
      (e : zs = zs₁ ++ y :: (zs₂ ++ z :: zs₃)) (ha : a ∈ y.2) (hb : b ∈ z.2)
      (hi : y.1 = true → geo.inside y.2 (mid a b) = true) (ho : Open zs [a, b] a b) :
      Leg geo zs a b
  | inner {z : Bool × List Pt} {a b : Pt} (hz : z ∈ zs) (hc : classify z.2 = .notConvex)
      (ha : a ∈ z.2) (hb : b ∈ z.2) (hd : a ≠ b) (h₁ : (a, b) ∉ sides z.2) (h₂ : (b, a) ∉ sides z.2)
      (hi : geo.inside z.2 (mid a b) = z.1) (ho : Open zs [a, b] a b) :
      Leg geo zs a b
  | back {a b : Pt} (h : Leg geo zs a b) : Leg geo zs b a

section
variable {geo : Geo} {zs : List (Bool × List Pt)}

theorem pts_build : (build geo zs).pts = zs.flatMap (·.2) := rfl

/-- Different vertices are at different places, when the corners of all zones
are. -/
theorem pt_inj (hd : (zs.flatMap (·.2)).Nodup) {i j : Nat} (hi : i < (build geo zs).pts.length)
    (hj : j < (build geo zs).pts.length)
    (e : pt (build geo zs).pts i = pt (build geo zs).pts j) : i = j := by
  unfold pt at e
  rw [List.getD_eq_getElem?_getD, List.getD_eq_getElem?_getD, List.getElem?_eq_getElem hi,
    List.getElem?_eq_getElem hj] at e
  exact (List.getElem_inj hd).mp e

theorem open_iff (hd : (zs.flatMap (·.2)).Nodup) {p q : Pt} {i j : Option Nat} {ends : List Pt}
    (hi : ∀ u, i = some u → u < (build geo zs).pts.length)
    (hj : ∀ u, j = some u → u < (build geo zs).pts.length)
    (he : ∀ c, c ∈ ends ↔ (∃ u, i = some u ∧ pt (build geo zs).pts u = c) ∨
      ∃ u, j = some u ∧ pt (build geo zs).pts u = c)
    (h : Open zs ends p q) :
    blocked (build geo zs).pts (build geo zs).polys p q i j = false := by
  unfold blocked
  rw [List.any_eq_false]
  intro z hz
  rw [Bool.not_eq_true, List.any_eq_false]
  intro g hg
  obtain ⟨y, hy, -, e, er⟩ := zone_of_poly geo hz
  obtain ⟨ha, hb, -, hs⟩ := mem_ring geo (er ▸ hg)
  have ba := verts_bound geo hz ha
  have bb := verts_bound geo hz hb
  unfold Edge.hits
  by_cases k : some g.a = i ∨ some g.a = j ∨ some g.b = i ∨ some g.b = j
  · rw [if_pos k]; simp
  · rw [if_neg k, crosses_iff]
    have no : ∀ v, v < (build geo zs).pts.length → some v ≠ i → some v ≠ j →
        pt (build geo zs).pts v ∉ ends := by
      intro v hv h₁ h₂ hm
      rcases (he _).mp hm with ⟨u, eu, ep⟩ | ⟨u, eu, ep⟩
      · exact h₁ (by rw [eu, pt_inj hd (hi u eu) hv ep])
      · exact h₂ (by rw [eu, pt_inj hd (hj u eu) hv ep])
    have := h y hy _ (e ▸ hs) (no _ ba (fun e => k (.inl e)) (fun e => k (.inr (.inl e))))
      (no _ bb (fun e => k (.inr (.inr (.inl e)))) (fun e => k (.inr (.inr (.inr e)))))
    exact fun ⟨h₁, h₂⟩ => this ⟨h₂, h₁⟩

theorem open_two (hd : (zs.flatMap (·.2)).Nodup) {u v : Nat} (hu : u < (build geo zs).pts.length)
    (hv : v < (build geo zs).pts.length)
    (h : Open zs [pt (build geo zs).pts u, pt (build geo zs).pts v]
      (pt (build geo zs).pts u) (pt (build geo zs).pts v)) :
    blocked (build geo zs).pts (build geo zs).polys (pt (build geo zs).pts u)
      (pt (build geo zs).pts v) (some u) (some v) = false := by
  refine open_iff hd (fun w e => by cases e; exact hu) (fun w e => by cases e; exact hv) ?_ h
  intro c
  constructor
  · intro hc
    rcases List.mem_cons.mp hc with rfl | hc
    · exact .inl ⟨u, rfl, rfl⟩
    · exact .inr ⟨v, rfl, (List.mem_singleton.mp hc).symm⟩
  · rintro (⟨w, e, rfl⟩ | ⟨w, e, rfl⟩) <;> cases e <;> simp

theorem mem_pair {pts : List Pt} {polys : List Poly} {l l₁ l₂ l₃ : List Poly} {y z : Poly}
    (e : l = l₁ ++ y :: (l₂ ++ z :: l₃)) {g : Edge} (h : g ∈ visibleEdges geo pts polys y z) :
    g ∈ pairEdges geo pts polys l := by
  subst e
  induction l₁ with
  | nil =>
    refine List.mem_append.mpr (.inl (List.mem_flatMap.mpr ⟨z, by simp, h⟩))
  | cons x l₁ ih => exact List.mem_append.mpr (.inr ih)

theorem number_append (k : Nat) (l₁ l₂ : List (Bool × List Pt)) :
    number k (l₁ ++ l₂) = number k l₁ ++ number (k + (l₁.flatMap (·.2)).length) l₂ := by
  induction l₁ generalizing k with
  | nil => simp [number]
  | cons z l ih =>
    rw [List.cons_append, number, number, ih, List.cons_append, List.flatMap_cons,
      List.length_append, Nat.add_assoc]

/-- Zones given one before the other are so in the graph. -/
theorem polys_split {zs₁ zs₂ zs₃ : List (Bool × List Pt)} {y z : Bool × List Pt}
    (e : zs = zs₁ ++ y :: (zs₂ ++ z :: zs₃)) :
    ∃ l₁ l₂ l₃ Y Z, (build geo zs).polys = l₁ ++ Y :: (l₂ ++ Z :: l₃) ∧
      Y.keepIn = y.1 ∧ Y.verts.map (pt (build geo zs).pts) = y.2 ∧
      Z.verts.map (pt (build geo zs).pts) = z.2 := by
  have key : ∀ l₁ (y : Bool × List Pt) l₂, zs = l₁ ++ y :: l₂ →
      (List.range' ((l₁.flatMap (·.2)).length) y.2.length).map (pt (build geo zs).pts) = y.2 := by
    intro l₁ y l₂ e
    show _ = _
    rw [pts_build, e, List.flatMap_append, List.flatMap_cons, ← List.append_assoc]
    exact flat_get _ _ _
  have e₂ : zs = (zs₁ ++ y :: zs₂) ++ z :: zs₃ := by rw [e]; simp
  let mk : Bool × List Nat → Poly := fun x =>
    { keepIn := x.1, verts := x.2, edges := ring geo (build geo zs).pts x.2 }
  refine ⟨(number 0 zs₁).map mk, (number ((zs₁.flatMap (·.2)).length + y.2.length) zs₂).map mk,
    (number (((zs₁ ++ y :: zs₂).flatMap (·.2)).length + z.2.length) zs₃).map mk,
    mk (y.1, List.range' ((zs₁.flatMap (·.2)).length) y.2.length),
    mk (z.1, List.range' (((zs₁ ++ y :: zs₂).flatMap (·.2)).length) z.2.length), ?_, rfl,
    key _ _ _ e, key _ _ _ e₂⟩
  show (number 0 zs).map mk = _
  have : number 0 zs = number 0 zs₁ ++ (y.1, List.range' ((zs₁.flatMap (·.2)).length) y.2.length) ::
      (number ((zs₁.flatMap (·.2)).length + y.2.length) zs₂ ++
        (z.1, List.range' (((zs₁ ++ y :: zs₂).flatMap (·.2)).length) z.2.length) ::
        number (((zs₁ ++ y :: zs₂).flatMap (·.2)).length + z.2.length) zs₃) := by
    rw [e, number_append, number, number_append, number, Nat.zero_add]
    have : (zs₁.flatMap (·.2)).length + y.2.length + (zs₂.flatMap (·.2)).length =
        ((zs₁ ++ y :: zs₂).flatMap (·.2)).length := by
      rw [List.flatMap_append, List.flatMap_cons, List.length_append, List.length_append]
      omega
    rw [this]
  rw [this]
  simp

/-- The edge between two corners that see each other is in the graph. -/
theorem visible_mem {pts : List Pt} {polys : List Poly} {y z : Poly} {u v : Nat}
    (hu : u ∈ y.verts) (hv : v ∈ z.verts)
    (hi : y.keepIn = true → within geo pts y (mid (pt pts u) (pt pts v)) = true)
    (hb : blocked pts polys (pt pts u) (pt pts v) (some u) (some v) = false) :
    { a := u, b := v, len := geo.len (pt pts u) (pt pts v) } ∈ visibleEdges geo pts polys y z := by
  unfold visibleEdges
  refine List.mem_flatMap.mpr ⟨u, hu, List.mem_filterMap.mpr ⟨v, hv, ?_⟩⟩
  rw [if_neg, if_neg (by simp [hb])]
  cases e : y.keepIn with
  | false => simp
  | true => simp [hi e]

theorem later_or {l : List Nat} {u v : Nat} (hu : u ∈ l) (hv : v ∈ l) (hd : u ≠ v) :
    (u, v) ∈ laterPairs l ∨ (v, u) ∈ laterPairs l := by
  induction l with
  | nil => cases hu
  | cons x l ih =>
    rcases List.mem_cons.mp hu with e | hu' <;> rcases List.mem_cons.mp hv with e' | hv'
    · exact absurd (e.trans e'.symm) hd
    · exact .inl (List.mem_append.mpr (.inl (List.mem_map.mpr ⟨v, hv', by rw [e]⟩)))
    · exact .inr (List.mem_append.mpr (.inl (List.mem_map.mpr ⟨u, hu', by rw [e']⟩)))
    · rcases ih hu' hv' with h | h
      · exact .inl (List.mem_append.mpr (.inr h))
      · exact .inr (List.mem_append.mpr (.inr h))

theorem mid_comm (a b : Pt) : mid a b = mid b a := by
  unfold mid
  congr 1 <;> grind

theorem open_comm {a b : Pt} (h : Open zs [a, b] a b) : Open zs [b, a] b a := by
  intro y hy s hs h₁ h₂ ⟨h₃, h₄⟩
  refine h y hy s hs (by simpa [and_comm] using h₁) (by simpa [and_comm] using h₂) ?_
  have h₅ : crosses s.1 s.2 b a = true := (crosses_iff _ _ _ _).mpr ⟨h₄, h₃⟩
  rw [crosses_rev] at h₅
  exact ((crosses_iff _ _ _ _).mp h₅).symm

/-- **Every leg is an edge of the graph.** -/
theorem link_of_leg (hsym : ∀ p q, geo.len p q = geo.len q p)
    (hd : (zs.flatMap (·.2)).Nodup) {a b : Pt} (h : Leg geo zs a b) :
    ∃ u v, pt (build geo zs).pts u = a ∧ pt (build geo zs).pts v = b ∧
      u < (build geo zs).pts.length ∧ v < (build geo zs).pts.length ∧
      Link (build geo zs).base u v (geo.len a b) := by
  induction h with
  | @side y a b hy hs ho =>
    obtain ⟨z, hz, ek, ep, er⟩ := poly_of_zone geo hy
    rw [← ep] at hs
    obtain ⟨g, hg, e₁, e₂⟩ := ring_of_side geo hs
    obtain ⟨ha, hb, hl, -⟩ := mem_ring geo hg
    refine ⟨g.a, g.b, e₁, e₂, verts_bound geo hz ha, verts_bound geo hz hb, g, ?_, ?_, .inl ⟨rfl, rfl⟩⟩
    · show g ∈ boundaryEdges geo (build geo zs).pts (build geo zs).polys ++ _ ++ _
      refine List.mem_append_left _ (List.mem_append_left _ (List.mem_flatMap.mpr ⟨z, hz, ?_⟩))
      by_cases k : z.keepIn = true
      · rw [if_pos k, er]; exact hg
      · rw [if_neg k, er]
        refine List.mem_filter.mpr ⟨hg, ?_⟩
        unfold oneSide
        rw [List.all_eq_true]
        intro x hx
        obtain ⟨hx, hxk⟩ := List.mem_filter.mp hx
        obtain ⟨x', hx', ek', ep', -⟩ := zone_of_poly geo hx
        have := ho (by rw [← ek]; simpa using k) x' hx' (by rw [← ek']; exact hxk)
        simp only [within, e₁, e₂, ep']
        rw [← this.1, ← this.2]
        simp
    · rw [hl, e₁, e₂]
  | @across y z zs₁ zs₂ zs₃ a b e ha hb hi ho =>
    obtain ⟨l₁, l₂, l₃, Y, Z, ep, ek, ey, ez⟩ := polys_split (geo := geo) e
    rw [← ey] at ha
    rw [← ez] at hb
    obtain ⟨u, hu, rfl⟩ := List.mem_map.mp ha
    obtain ⟨v, hv, rfl⟩ := List.mem_map.mp hb
    have bu := verts_bound geo (z := Y) (zs := zs) (by rw [ep]; simp) hu
    have bv := verts_bound geo (z := Z) (zs := zs) (by rw [ep]; simp) hv
    refine ⟨u, v, rfl, rfl, bu, bv,
      { a := u, b := v, len := geo.len (pt (build geo zs).pts u) (pt (build geo zs).pts v) }, ?_, rfl,
      .inl ⟨rfl, rfl⟩⟩
    show _ ∈ _ ++ pairEdges geo (build geo zs).pts (build geo zs).polys (build geo zs).polys ++ _
    refine List.mem_append_left _ (List.mem_append_right _ (mem_pair ep (visible_mem hu hv ?_ ?_)))
    · intro k
      unfold within
      rw [ey]
      exact hi (by rw [← ek]; exact k)
    · exact open_two hd bu bv ho
  | @inner z a b hz hc ha hb hne h₁ h₂ hi ho =>
    obtain ⟨Z, hZ, ek, ep, er⟩ := poly_of_zone geo hz
    rw [← ep] at ha hb
    obtain ⟨u, hu, rfl⟩ := List.mem_map.mp ha
    obtain ⟨v, hv, rfl⟩ := List.mem_map.mp hb
    have bu := verts_bound geo hZ hu
    have bv := verts_bound geo hZ hv
    have key : ∀ u v, u ∈ Z.verts → v ∈ Z.verts → (u, v) ∈ laterPairs Z.verts →
        (pt (build geo zs).pts u, pt (build geo zs).pts v) ∉ sides z.2 →
        (pt (build geo zs).pts v, pt (build geo zs).pts u) ∉ sides z.2 →
        geo.inside z.2 (mid (pt (build geo zs).pts u) (pt (build geo zs).pts v)) = z.1 →
        Open zs [pt (build geo zs).pts u, pt (build geo zs).pts v]
          (pt (build geo zs).pts u) (pt (build geo zs).pts v) →
        { a := u, b := v, len := geo.len (pt (build geo zs).pts u) (pt (build geo zs).pts v) } ∈
          (build geo zs).base := by
      intro u v hu hv hl h₁ h₂ hi ho
      have bu := verts_bound geo hZ hu
      have bv := verts_bound geo hZ hv
      have hbl := open_two hd bu bv ho
      have hw : within geo (build geo zs).pts Z
          (mid (pt (build geo zs).pts u) (pt (build geo zs).pts v)) = Z.keepIn := by
        unfold within
        rw [ep, ek]; exact hi
      show _ ∈ _ ++ (build geo zs).polys.flatMap (extraEdges geo (build geo zs).pts (build geo zs).polys)
      refine List.mem_append_right _ (List.mem_flatMap.mpr ⟨Z, hZ, List.mem_filter.mpr ⟨?_, ?_⟩⟩)
      · unfold selfEdges
        rw [ep, if_pos hc]
        refine List.mem_filterMap.mpr ⟨(u, v), hl, ?_⟩
        dsimp only
        rw [if_neg, if_neg, if_neg]
        · rw [Bool.not_eq_true, List.any_eq_false]
          intro g hg
          rw [not_blocked hbl hZ hg]; simp
        · rw [hw]; simp
        · rw [Bool.not_eq_true, List.any_eq_false]
          intro g hg hab
          obtain ⟨-, -, -, hs⟩ := mem_ring geo (er ▸ hg)
          rw [ep] at hs
          rcases of_decide_eq_true hab with ⟨e₁, e₂⟩ | ⟨e₁, e₂⟩
          · rw [e₁, e₂] at hs; exact h₁ hs
          · rw [e₁, e₂] at hs; exact h₂ hs
      · dsimp only
        rw [hbl, hw]
        cases Z.keepIn <;> rfl
    have hne' : u ≠ v := fun e => hne (by rw [e])
    refine ⟨u, v, rfl, rfl, bu, bv, ?_⟩
    rcases later_or hu hv hne' with hl | hl
    · exact ⟨_, key u v hu hv hl h₁ h₂ hi ho, rfl, .inl ⟨rfl, rfl⟩⟩
    · exact ⟨_, key v u hv hu hl h₂ h₁ (by rw [mid_comm]; exact hi) (open_comm ho),
        hsym _ _, .inr ⟨rfl, rfl⟩⟩
  | @back a b h ih =>
    obtain ⟨u, v, eu, ev, bu, bv, g, hg, hl, k⟩ := ih
    exact ⟨v, u, ev, eu, bv, bu, g, hg, by rw [hl, hsym], k.symm⟩

/-- A list of corners joined by legs is a way through the graph. -/
theorem walk_of_legs (hsym : ∀ p q, geo.len p q = geo.len q p)
    (hd : (zs.flatMap (·.2)).Nodup) (m : List Pt) (a : Pt) {u : Nat}
    (hu : u < (build geo zs).pts.length) (ea : pt (build geo zs).pts u = a)
    (h : ∀ x ∈ legs (a :: m), Leg geo zs x.1 x.2) :
    ∃ v l w, Walk (build geo zs).base u v l w ∧ l.map (pt (build geo zs).pts) = a :: m ∧
      pt (build geo zs).pts v = (a :: m).getLast (by simp) ∧ v < (build geo zs).pts.length := by
  induction m using snocRec with
  | nil => exact ⟨u, [u], 0, .here, by simp [ea], by simpa using ea, hu⟩
  | append_singleton m b ih =>
    have hl : ∃ m₀ c, a :: m = m₀ ++ [c] := by
      rcases List.eq_nil_or_concat (a :: m) with e | ⟨m₀, c, e⟩
      · cases e
      · exact ⟨m₀, c, by rw [e, List.concat_eq_append]⟩
    obtain ⟨m₀, c, e⟩ := hl
    have e' : a :: (m ++ [b]) = m₀ ++ [c, b] := by
      rw [← List.cons_append, e, List.append_assoc]; rfl
    rw [e', legs_snoc, ← e] at h
    obtain ⟨v, l, w, hw, hm, hv, bv⟩ := ih fun x hx => h x (List.mem_append_left _ hx)
    obtain ⟨v', x, ev, ex, bv', bx, hlk⟩ := link_of_leg hsym hd (h (c, b) (by simp))
    have : v = v' := by
      refine pt_inj hd bv bv' ?_
      rw [hv, ev]
      simp [e]
    subst this
    refine ⟨x, l ++ [x], _, .step hw hlk, by simp [hm, ex], ?_, bx⟩
    rw [ex, List.getLast_cons (by simp)]
    simp

/-- A corner of a zone is a vertex of the graph that an edge begins at. -/
theorem vertex_of_corner {y : Bool × List Pt} (hy : y ∈ zs) {c : Pt} (hc : c ∈ y.2) :
    ∃ u, u < (build geo zs).pts.length ∧ pt (build geo zs).pts u = c ∧
      ∃ z ∈ (build geo zs).polys, ∃ x ∈ z.edges, x.a = u := by
  obtain ⟨z, hz, -, ep, er⟩ := poly_of_zone geo hy
  obtain ⟨i, hi, e⟩ := List.mem_iff_getElem.mp hc
  have hs : ∃ d, (c, d) ∈ sides y.2 := ⟨_, by rw [← e]; exact side_mem y.2 i hi⟩
  obtain ⟨d, hs⟩ := hs
  rw [← ep] at hs
  obtain ⟨g, hg, e₁, -⟩ := ring_of_side geo hs
  obtain ⟨ha, -⟩ := mem_ring geo hg
  refine ⟨g.a, verts_bound geo hz ha, e₁, z, hz, g, er ▸ hg, rfl⟩

/-- **C107.**  No way is left out: any route from the start over corners of zones
to the end, whose first and last legs cross no sides and whose other legs are
sides or join corners that see each other, is at least as long as the route
found. -/
theorem C107_complete (hsym : ∀ p q, geo.len p q = geo.len q p) (hself : ∀ p, geo.len p p = 0)
    (hd : (zs.flatMap (·.2)).Nodup) {t : Tables}
    (ht : Shortest (build geo zs).base (build geo zs).pts.length t) {p q : Pt} {r : Path}
    (hb : ¬ Clear zs p q) (h : findPath geo (build geo zs) t p q = .ok r)
    (h₁ : r.len < intMax) {a : Pt} {m : List Pt}
    {y z : Bool × List Pt} (hy : y ∈ zs) (ha : a ∈ y.2) (hz : z ∈ zs)
    (hc : (a :: m).getLast (by simp) ∈ z.2) (hpa : Open zs [a] p a)
    (hcq : Open zs [(a :: m).getLast (by simp)] ((a :: m).getLast (by simp)) q)
    (hm : ∀ x ∈ legs (a :: m), Leg geo zs x.1 x.2) :
    0 ≤ r.len ∧ r.len ≤ (routeLen geo (p :: (a :: m ++ [q])) : Nat) := by
  obtain ⟨u, bu, eu, hue⟩ := vertex_of_corner (geo := geo) hy ha
  obtain ⟨v', bv', ev', hve⟩ := vertex_of_corner (geo := geo) hz hc
  obtain ⟨v, l, w, hw, hl, ev, bv⟩ := walk_of_legs hsym hd m a bu eu hm
  have : v = v' := pt_inj hd bv bv' (by rw [ev, ev'])
  subst this
  have hu : Sees (build geo zs) p u := by
    refine ⟨bu, hue, open_iff hd (by simp) (fun w e => by cases e; exact bu) ?_ (eu ▸ hpa)⟩
    intro c
    simp [eq_comm]
  have hv : Seen (build geo zs) v q := by
    refine ⟨bv, hve, open_iff hd (fun w e => by cases e; exact bv) (by simp) ?_ (ev ▸ hcq)⟩
    intro c
    simp [ev, eq_comm]
  have h₀ : 0 ≤ r.len := by
    have hb' : blocked (build geo zs).pts (build geo zs).polys p q none none = true := by
      rw [← Bool.not_eq_false, clear_iff]; exact hb
    rcases findPath_blocked hb' h with ⟨-, hn⟩ | ⟨c, rfl, -⟩
    · exact absurd hv (hn u v hu)
    · exact Int.natCast_nonneg _
  obtain ⟨-, -, -, -, -, hmin⟩ := C107_shortest hsym hself ht hb h h₀ h₁
  refine ⟨h₀, ?_⟩
  have := hmin u v l w hu hw hv
  rw [hl] at this
  exact this

end

/-! ### Examples -/

theorem open_of_check {zs : List (Bool × List Pt)} {ends : List Pt} {a b : Pt}
    (h : ∀ y ∈ zs, ∀ s ∈ sides y.2, s.1 ∈ ends ∨ s.2 ∈ ends ∨ crosses s.1 s.2 a b = false) :
    Open zs ends a b := by
  intro y hy s hs h₁ h₂ ⟨h₃, h₄⟩
  rcases h y hy s hs with k | k | k
  · exact h₁ k
  · exact h₂ k
  · rw [(crosses_iff _ _ _ _).mpr ⟨h₄, h₃⟩] at k; cases k

/-- The way round the other side of the square is no shorter than that found. -/
example : (22 : Int) ≤ (routeLen euclid [⟨4, -5⟩, ⟨10, 0⟩, ⟨10, 10⟩, ⟨4, 15⟩] : Nat) :=
  (C107_complete (geo := euclid) (zs := [square]) euclid_symm euclid_self (by decide +kernel)
    (tablesOf_shortest _) (by rw [← clear_iff euclid]; decide +kernel) round_square.1 (by decide)
    (a := ⟨10, 0⟩) (m := [⟨10, 10⟩]) (y := square) (z := square) (by simp) (by decide +kernel)
    (by simp) (by decide +kernel) (open_of_check (by decide +kernel))
    (open_of_check (by decide +kernel))
    (fun x hx => by
      obtain rfl : x = (⟨10, 0⟩, ⟨10, 10⟩) := by simpa [legs] using hx
      exact .back (.side (y := square) (by simp) (by decide +kernel)
        (fun _ x hx k => by rw [List.mem_singleton.mp hx] at k; cases k)))).2

/-- A leg between two zones, and one across the bay of a zone. -/
example : Leg euclid [square, (false, [⟨0, 20⟩, ⟨10, 20⟩, ⟨10, 30⟩])] ⟨10, 10⟩ ⟨10, 20⟩ :=
  .across (y := square) (z := (false, [⟨0, 20⟩, ⟨10, 20⟩, ⟨10, 30⟩])) (zs₁ := []) (zs₂ := [])
    (zs₃ := []) rfl (by decide +kernel) (by decide +kernel) (fun k => by cases k)
    (open_of_check (by decide +kernel))

example : Leg { euclid with inside := fun _ _ => false }
    [(false, [⟨0, 0⟩, ⟨10, 0⟩, ⟨2, 5⟩, ⟨10, 10⟩, ⟨0, 10⟩])] ⟨10, 0⟩ ⟨10, 10⟩ :=
  .inner (z := (false, [⟨0, 0⟩, ⟨10, 0⟩, ⟨2, 5⟩, ⟨10, 10⟩, ⟨0, 10⟩])) (by simp) (by decide +kernel)
    (by decide +kernel) (by decide +kernel) (by decide +kernel) (by decide +kernel)
    (by decide +kernel) rfl (open_of_check (by decide +kernel))

end Verif.Visibility
