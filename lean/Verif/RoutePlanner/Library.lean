/-
C114 with the geometry of VisiLibity: what is asked of the library is proved of it,
but for the merging of zones and the sight between places.
-/
import Verif.RoutePlanner.Cases
import Verif.Visilib.Reduce
import Verif.Visilib.Simple
import Verif.Visilib.Path

namespace Verif.RoutePlanner

open Verif.Visibility (Pt along)
open Verif.Visilib

/-- RoutePlannerService.cpp 378, 812: the accuracy, a tenth of a millimetre. -/
def mm : Rat := 1 / 10000

/-- visilibity.cpp 2424-2453 and 3791-3804: the graph searched for a path in an
environment, with its corners one after the other (visilibity.cpp 2235-2240).
`sight e a b` is whether `b` is in the visibility polygon of `a`.  An entry of the graph of
corners is written twice; the second time, from the later corner, stays. -/
def graphOf (sight : List Poly → Pt → Pt → Bool) (dist : Pt → Pt → Rat) (e : List Poly)
    (start finish : Pt) : Graph where
  n := e.flatten.length
  pos i := (e.flatten ++ [start]).getD i finish
  see i j := sight e (e.flatten.getD (max i j) finish) (e.flatten.getD (min i j) finish)
  fromStart i := sight e start (e.flatten.getD i finish)
  toFinish i := sight e finish (e.flatten.getD i finish)
  direct := sight e start finish
  dist := dist

/-- RoutePlannerService.cpp 422, 425, 482, 568, 628, 812-817: the library as the service uses
it, with the geometry and the search of Visilib.  Left open are the merging of zones, the
sight between places and the distance, a square root. -/
def visilib (merge : List (Poly × Rat) → Option (List Poly))
    (sight : List Poly → Pt → Pt → Bool) (dist : Pt → Pt → Rat) : Lib where
  reduce := Visilib.reduce 1
  simple := isSimple mm
  standard := Visilib.standard
  merge := merge
  valid e := match e with
    | [] => false
    | o :: hs => Visilib.isValid mm o hs == .ok true
  inEnv e x := match e with
    | [] => false
    | o :: hs => Visilib.inEnv mm x o hs == .ok true
  path e p q := ((graphOf sight dist e p q).shortest mm (e.flatten.length + 3)).getD []
  length := pathLength dist
  dist := dist

/-- In the polygon, or so near to its boundary that it is taken to be in it. -/
def NearIn (p : Poly) (x : Pt) : Prop := inPoly mm x p = .ok true

/-- In the polygon, and not so near to its boundary that it is taken to be on it. -/
def DeepIn (p : Poly) (x : Pt) : Prop :=
  inPoly 0 x p = .ok true ∧ ∀ z, OnBoundary p z → mm * mm < d2 x z

/-- Within a tenth of a millimetre. -/
def Close (x y : Pt) : Prop := d2 x y ≤ mm * mm

/-- What is asked of the merging of zones, of sight and of the distance: growing covers the
zones grown, shrinking leaves the zones, all between two places that see each other is in
the environment, the distance is one and no less than the straight one. -/
structure Open (merge : List (Poly × Rat) → Option (List Poly))
    (sight : List Poly → Pt → Pt → Bool) (dist : Pt → Pt → Rat) : Prop where
  grow : ∀ {ps gs q x}, merge ps = some gs → (∀ q ∈ ps, 0 ≤ q.2) → q ∈ ps → DeepIn q.1 x →
    ∃ g ∈ gs, DeepIn (Visilib.reduce 1 g) x
  shrink : ∀ {ps gs g x}, merge ps = some gs → (∀ q ∈ ps, q.2 ≤ 0) → g ∈ gs →
    NearIn (Visilib.reduce 1 g) x → ∃ q ∈ ps, NearIn q.1 x
  sees : ∀ {o hs a b}, isValid mm o hs = .ok true → inEnv mm a o hs = .ok true →
    inEnv mm b o hs = .ok true → sight (o :: hs) a b = true →
    ∀ x, Between a b x → inEnv mm x o hs = .ok true
  metric : Metric dist
  straight : ∀ a b, d2 a b ≤ dist a b * dist a b

theorem Between.symm {a b x : Pt} (h : Between a b x) : Between b a x := by
  obtain ⟨k, h₀, h₁, h₂, h₃⟩ := h
  exact ⟨1 - k, by grind, by grind, by grind, by grind⟩

theorem legs_get {g : Graph} {eps : Rat} {P : List Pt} (h : g.Legs eps P) (i : Nat)
    (hi : i + 1 < P.length) : g.Leg eps P[i] P[i + 1] := by
  induction P generalizing i with
  | nil => simp at hi
  | cons a P ih =>
    cases P with
    | nil => simp at hi
    | cons b P =>
      cases i with
      | zero => exact h.1
      | succ i => exact ih h.2 i (by simpa using hi)

theorem corner_in {o : Poly} {hs : List Poly} (hv : isValid mm o hs = .ok true) {i : Nat} {d : Pt}
    (hi : i < (o :: hs).flatten.length) : inEnv mm ((o :: hs).flatten.getD i d) o hs = .ok true := by
  have hmem : (o :: hs).flatten.getD i d ∈ (o :: hs).flatten := by
    rw [List.getD_eq_getElem?_getD, List.getElem?_eq_getElem hi]
    exact List.getElem_mem _
  obtain ⟨p, hp, hx⟩ := List.mem_flatten.mp hmem
  generalize (o :: hs).flatten.getD i d = x at hx
  obtain ⟨b, hb⟩ : ∃ b, inEnv mm x o hs = .ok b := by
    rw [C120_defined]
    exact fun p hp => simple_ne (((C121_valid mm o hs).mp hv).simple p hp)
  rw [hb, (C120_in hb).mpr (.inl ⟨p, hp, x, corner_on hx, by rw [d2_self]; decide +kernel⟩)]

/-- All along a step of the search is in the environment. -/
theorem step_in {merge : List (Poly × Rat) → Option (List Poly)} {sight : List Poly → Pt → Pt → Bool}
    {dist : Pt → Pt → Rat} (h : Open merge sight dist) {o : Poly} {hs : List Poly} {p q : Pt}
    (hv : isValid mm o hs = .ok true) (hp : inEnv mm p o hs = .ok true)
    (hq : inEnv mm q o hs = .ok true) {u v : Nat}
    (he : (graphOf sight dist (o :: hs) p q).Edge u v ∨
      ((graphOf sight dist (o :: hs) p q).direct = true ∧ u = (graphOf sight dist (o :: hs) p q).n ∧
        v = (graphOf sight dist (o :: hs) p q).n + 1)) {x : Pt}
    (hx : Between ((graphOf sight dist (o :: hs) p q).pos u)
      ((graphOf sight dist (o :: hs) p q).pos v) x) : inEnv mm x o hs = .ok true := by
  have corner : ∀ i, i < (o :: hs).flatten.length →
      ((o :: hs).flatten ++ [p]).getD i q = (o :: hs).flatten.getD i q := by
    intro i hi
    simp only [List.getD_eq_getElem?_getD, List.getElem?_append_left hi]
  have start : ((o :: hs).flatten ++ [p]).getD (o :: hs).flatten.length q = p := by
    rw [List.getD_eq_getElem?_getD, List.getElem?_concat_length]; rfl
  have finish : ((o :: hs).flatten ++ [p]).getD ((o :: hs).flatten.length + 1) q = q := by
    rw [List.getD_eq_getElem?_getD, List.getElem?_eq_none (by rw [List.length_append]; exact Nat.le_refl _)]; rfl
  unfold graphOf at hx
  dsimp only at hx
  rcases he with he | ⟨hd, rfl, rfl⟩
  · rcases he.inv with ⟨rfl, hi, hs'⟩ | ⟨hi, hj, hs'⟩ | ⟨hi, rfl, hs'⟩
    · unfold graphOf at hi hs' hx
      dsimp only at hi hs' hx
      rw [corner v hi, start] at hx
      exact h.sees hv hp (corner_in hv hi) hs' x hx
    · unfold graphOf at hi hj hs'
      dsimp only at hi hj hs'
      rw [corner u hi, corner v hj] at hx
      rcases Nat.le_total u v with k | k
      · rw [Nat.max_eq_right k, Nat.min_eq_left k] at hs'
        exact h.sees hv (corner_in hv hj) (corner_in hv hi) hs' x hx.symm
      · rw [Nat.max_eq_left k, Nat.min_eq_right k] at hs'
        exact h.sees hv (corner_in hv hi) (corner_in hv hj) hs' x hx
    · unfold graphOf at hi hs' hx
      dsimp only at hi hs' hx
      rw [corner u hi, finish] at hx
      exact h.sees hv hq (corner_in hv hi) hs' x hx.symm
  · unfold graphOf at hd hx
    dsimp only at hd hx
    rw [start, finish] at hx
    exact h.sees hv hp hq hd x hx

theorem deep_congr {p q : Poly} {x : Pt} (h₁ : ∀ e, inPoly e x q = inPoly e x p)
    (h₂ : ∀ z, OnBoundary q z ↔ OnBoundary p z) : DeepIn q x ↔ DeepIn p x := by
  unfold DeepIn
  rw [h₁]
  simp only [h₂]

/-- VisiLibity does what C114 asks for. -/
theorem visilib_contract {merge : List (Poly × Rat) → Option (List Poly)}
    {sight : List Poly → Pt → Pt → Bool} {dist : Pt → Pt → Rat} (h : Open merge sight dist) :
    Contract (visilib merge sight dist) NearIn DeepIn (Pronounced 1) Close where
  outer := by
    intro p hs x hv hx
    simp only [visilib, beq_iff_eq] at hv hx
    exact C121_within hv hx
  hole := by
    intro p hs x k hv hx hk ⟨hin, far⟩
    simp only [visilib, beq_iff_eq] at hv hx
    obtain ⟨z, hz, hd⟩ := C121_no_hole hv hx hk hin
    have := far z hz
    grind
  way := by
    intro e p q hv hp hq i hi x hx
    cases e with
    | nil => simp [visilib] at hv
    | cons o hs =>
      have h₁ := h.metric
      have hn : (graphOf sight dist (o :: hs) p q).n = (o :: hs).flatten.length := rfl
      simp only [visilib, beq_iff_eq] at hv hp hq hi hx ⊢
      obtain ⟨P, hP⟩ := (graphOf sight dist (o :: hs) p q).C122_ends h₁ (eps := mm) (by decide +kernel)
        (fuel := (o :: hs).flatten.length + 3) (by rw [hn]; omega)
      simp only [hP, Option.getD_some] at hi hx
      cases P with
      | nil => simp at hi
      | cons a l =>
        obtain ⟨-, -, hl, -⟩ := Graph.C122_path h₁ (by decide +kernel) (by rw [hn]; omega) hP
        obtain ⟨u, v, he, hu, hd⟩ := legs_get hl i hi
        obtain ⟨k, k₀, k₁, kn, ke⟩ := hx
        rw [← hu] at kn ke
        generalize hb : (a :: l)[i + 1] = b at hd kn ke
        have hst := h.straight b ((graphOf sight dist (o :: hs) p q).pos v)
        refine ⟨along ((graphOf sight dist (o :: hs) p q).pos u) ((graphOf sight dist (o :: hs) p q).pos v) k,
          ?_, step_in h hv hp hq he ⟨k, k₀, k₁, rfl, rfl⟩⟩
        generalize (graphOf sight dist (o :: hs) p q).pos u = c at kn ke
        have hd' : dist b ((graphOf sight dist (o :: hs) p q).pos v) ≤ mm := hd
        generalize (graphOf sight dist (o :: hs) p q).pos v = d at hst hd'
        have hpos := h₁.nonneg b d
        change 0 ≤ dist b d at hpos
        have e : d2 x (along c d k) = k * k * d2 b d := by
          unfold d2 along
          rw [kn, ke]
          grind
        have e₁ : dist b d * dist b d ≤ mm * mm := by
          have m₁ := Rat.mul_nonneg (show 0 ≤ mm - dist b d by grind) hpos
          have m₂ := Rat.mul_nonneg (show 0 ≤ mm - dist b d by grind) (show 0 ≤ mm by decide +kernel)
          grind
        have e₂ : k * k ≤ 1 := by
          have := Rat.mul_nonneg k₀ (show 0 ≤ 1 - k by grind)
          grind
        have e₃ := Rat.mul_nonneg (show 0 ≤ 1 - k * k by grind) (d2_nonneg b d)
        show d2 x _ ≤ _
        rw [e]
        grind
  grow := h.grow
  shrink := h.shrink
  reduceNear := by
    intro p hp x
    show inPoly mm x (Visilib.reduce 1 p) = .ok true ↔ _
    rw [C119_same_partial hp]; rfl
  reduceDeep := by
    intro p hp x
    exact deep_congr (fun e => C119_same_partial hp e x) (boundary_reduce hp)
  reverseNear := by
    intro p x
    unfold NearIn
    rw [C118_reversed]
  reverseDeep := by
    intro p x
    exact deep_congr (fun e => C118_reversed p e x) (boundary_congr (.inr (sides_rev p)))
  standardNear := by
    intro p x
    show inPoly mm x (Visilib.standard p) = .ok true ↔ _
    rw [C118_same]; rfl
  standardDeep := by
    intro p x
    exact deep_congr (fun e => C118_same p e x) (boundary_congr (.inl (sides_standard p)))
  area := C118_area

/-- **C114 (partial).**  With the geometry of VisiLibity: while zones and regions stay as
they are, the waypoints of a plan for a vehicle in the air lead along places within a tenth of a
millimetre of places that are in no zone to be kept out of whose corners all stand out by
more than a metre, unless within a tenth of a millimetre of its boundary; and, if the
region names zones to be kept in, with such corners, that are in one of them or within a
tenth of a millimetre.  Asked are an environment for the vehicle in the region, and of the
merging of zones, sight and the distance what `Open` says. -/
theorem C114_library_partial {merge : List (Poly × Rat) → Option (List Poly)}
    {sight : List Poly → Pt → Pt → Bool} {dist : Pt → Pt → Rat}
    (c : Open merge sight dist) {h : List Msg} {s : St}
    (e : St.after (visilib merge sight dist) h = .ok s) (hc : Calm h) {src : Nat} {q : PlanReq}
    (ha : ∃ m ∈ h, m.inAir q.vehicle = true) (hw : ∀ m ∈ h, m.onWater q.vehicle = false)
    (hd : ∀ sp al, .airConfig q.vehicle sp al false ∉ h) {r : Region} (hr : .region r ∈ h)
    (hid : r.id = q.region) (henv : s.env q.region q.vehicle ≠ none)
    {out : List (Nat × PlanResp)}
    (ho : s.reply (visilib merge sight dist) (.request src q) = .ok out)
    {o : Nat × PlanResp} (hom : o ∈ out) {p : Plan} (hp : p ∈ o.2.plans) {x : Pt}
    (hx : p.along x) : ∃ x', d2 x x' ≤ mm * mm ∧
    (∀ i ∈ r.outs, ∀ z b, latest (·.outZone i) h = some z →
      (z.affected = [] ∨ q.vehicle ∈ z.affected) → z.boundary = some b →
      isSimple mm (Visilib.reduce 1 b) = true → Pronounced 1 b →
      inPoly 0 x' b = .ok true → ∃ y, OnBoundary b y ∧ d2 x' y ≤ mm * mm) ∧
    (r.ins ≠ [] → (∀ i ∈ r.ins, ∀ z b, latest (·.inZone i) h = some z → z.boundary = some b →
      Pronounced 1 b) → ∃ i ∈ r.ins, ∃ z b, latest (·.inZone i) h = some z ∧
      (z.affected = [] ∨ q.vehicle ∈ z.affected) ∧ z.boundary = some b ∧
      inPoly mm x' b = .ok true) := by
  obtain ⟨x', hc, h₁, h₂⟩ := C114_keeps_zones_partial (visilib_contract c) e hc ha hw hd hr hid henv ho hom
    hp hx
  refine ⟨x', hc, fun i hi z b hz haf hb hs hk hin => ?_, h₂⟩
  have := h₁ i hi z b hz haf hb hs hk
  false_or_by_contra
  rename_i far
  refine this ⟨hin, fun y hy => ?_⟩
  false_or_by_contra
  exact far ⟨y, hy, by grind⟩

/-! ### Zones that are lost -/

/-- **C114 (violated).**  Every zone, however large, can be given by so many corners that it
is passed over: the same points are in it, but the environment is built as if the zone
had no boundary. -/
theorem C114_dense_violated (b : Poly) : ∃ b', (∀ e x, inPoly e x b' = inPoly e x b) ∧
    ∀ merge sight dist ins (outs : Map Zone) (z : Zone) r v w,
      buildEnv (visilib merge sight dist) ins (outs.put z.id { z with boundary := some b' }) r v w =
      buildEnv (visilib merge sight dist) ins (outs.put z.id { z with boundary := none }) r v w := by
  obtain ⟨b', h₁, h₂⟩ := C119_lost_violated (eps := 1) (by decide) b
  refine ⟨b', h₁, ?_⟩
  intro merge sight dist ins outs z r v w
  have ho : outline (visilib merge sight dist) (some b') = none := by
    have : isSimple mm (Visilib.reduce 1 b') = false := by rw [h₂]; rfl
    unfold outline
    dsimp only
    rw [if_neg]
    exact fun k => by rw [show (visilib merge sight dist).simple _ = isSimple mm _ from rfl] at k
                      rw [show (visilib merge sight dist).reduce b' = Visilib.reduce 1 b' from rfl, this] at k
                      cases k
  have key : ∀ clip ids, outlines (visilib merge sight dist)
      (outs.put z.id { z with boundary := some b' }) clip ids v =
      outlines (visilib merge sight dist) (outs.put z.id { z with boundary := none }) clip ids v := by
    intro clip ids
    unfold outlines
    congr 1
    funext i
    rw [Map.get_put, Map.get_put]
    by_cases hi : i = z.id
    · rw [if_pos hi, if_pos hi]
      dsimp only
      rw [ho]
      rfl
    · rw [if_neg hi, if_neg hi]
  unfold buildEnv
  simp only [key]

end Verif.RoutePlanner
