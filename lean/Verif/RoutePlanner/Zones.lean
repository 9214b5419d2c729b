/-
C114: the routes planned keep to the zones of the region.
-/
import Verif.RoutePlanner.Props

namespace Verif.RoutePlanner

open Verif.Visibility (Pt toInt64)

/-! ### Areas -/

/-- Twice the signed area below a chain of corners. -/
def chainArea : List Pt → Rat
  | a :: b :: l => (a.e * b.n - b.e * a.n) + chainArea (b :: l)
  | _ => 0

theorem chainArea_snoc (l : List Pt) (a b : Pt) :
    chainArea (l ++ [a, b]) = chainArea (l ++ [a]) + (a.e * b.n - b.e * a.n) := by
  induction l with
  | nil => simp only [List.nil_append, chainArea]; grind
  | cons c l ih =>
    cases l with
    | nil => simp only [List.nil_append, List.cons_append, chainArea]; grind
    | cons d l => simp only [List.cons_append, chainArea] at ih ⊢; rw [ih]; grind

theorem chainArea_reverse (l : List Pt) : chainArea l.reverse = -chainArea l := by
  induction l with
  | nil => simp [chainArea]
  | cons a l ih =>
    cases l with
    | nil => simp [chainArea]
    | cons b l =>
      rw [List.reverse_cons, List.reverse_cons, List.append_assoc, List.singleton_append,
        chainArea_snoc, ← List.reverse_cons, ih]
      simp only [chainArea]
      grind

theorem zip_chain (a : Pt) (l : List Pt) (z : Pt) :
    (((a :: l).zip (l ++ [z])).map fun s => s.1.e * s.2.n - s.2.e * s.1.n).sum =
      chainArea (a :: l ++ [z]) := by
  induction l generalizing a with
  | nil => simp [chainArea]
  | cons b l ih =>
    rw [List.cons_append, List.zip_cons_cons, List.map_cons, List.sum_cons, ih]
    rfl

theorem area_cons (a : Pt) (l : List Pt) : area (a :: l) = chainArea (a :: l ++ [a]) / 2 := by
  unfold area
  simp only [List.drop_succ_cons, List.drop_zero, List.take_succ_cons, List.take_zero]
  rw [zip_chain]

theorem area_rotate (a : Pt) (l : List Pt) : area (l ++ [a]) = area (a :: l) := by
  cases l with
  | nil => rfl
  | cons b l =>
    rw [List.cons_append, area_cons, area_cons, List.cons_append, List.append_assoc,
      List.singleton_append, ← List.cons_append, chainArea_snoc]
    simp only [List.cons_append, chainArea]
    grind

theorem area_reverse (p : Poly) : area p.reverse = -area p := by
  cases p with
  | nil => decide +kernel
  | cons a l =>
    rw [List.reverse_cons, area_rotate, area_cons, area_cons]
    have : a :: l.reverse ++ [a] = (a :: l ++ [a]).reverse := by simp
    rw [this, chainArea_reverse]
    grind

theorem area_rev (p : Poly) : area (rev p) = -area p := by
  unfold rev
  match p with
  | [] => decide +kernel
  | [a] =>
    rw [if_neg (by simp)]
    simp only [area_cons, chainArea, List.cons_append, List.nil_append]; grind
  | [a, b] =>
    rw [if_neg (by simp)]
    simp only [area_cons, chainArea, List.cons_append, List.nil_append]; grind
  | a :: b :: c :: l =>
    rw [if_pos (by simp), ← area_reverse, List.reverse_cons, area_rotate]
    rfl

/-! ### What is asked of the library -/

/-- A point between two others. -/
def Between (a b x : Pt) : Prop :=
  ∃ k : Rat, 0 ≤ k ∧ k ≤ 1 ∧ x.n = a.n + k * (b.n - a.n) ∧ x.e = a.e + k * (b.e - a.e)

/-- What the theorem asks of VisiLibity.  `near` is to be in a polygon or so near to it
that the library takes it to be in it; `deep` is to be in a polygon and not so near to
its boundary that the library takes it to be on it; `kept` says of a polygon that
dropping its needless corners leaves it the same; `close` are places the library does not
tell apart.  A point in an environment is in or near the outer boundary and deep in no
hole; the way found stays close to the environment;
growing covers the zones grown, shrinking leaves the zones; nothing is lost by listing
the corners differently. -/
structure Contract (lib : Lib) (near deep : Poly → Pt → Prop) (kept : Poly → Prop)
    (close : Pt → Pt → Prop) : Prop where
  outer : ∀ {p hs x}, lib.valid (p :: hs) = true → lib.inEnv (p :: hs) x = true → near p x
  hole : ∀ {p hs x h}, lib.valid (p :: hs) = true → lib.inEnv (p :: hs) x = true → h ∈ hs →
    ¬ deep h x
  way : ∀ {e p q}, lib.valid e = true → lib.inEnv e p = true → lib.inEnv e q = true →
    ∀ i (hi : i + 1 < (lib.path e p q).length) x,
      Between (lib.path e p q)[i] (lib.path e p q)[i + 1] x → ∃ y, close x y ∧ lib.inEnv e y = true
  grow : ∀ {ps gs q x}, lib.merge ps = some gs → (∀ q ∈ ps, 0 ≤ q.2) → q ∈ ps → deep q.1 x →
    ∃ g ∈ gs, deep (lib.reduce g) x
  shrink : ∀ {ps gs g x}, lib.merge ps = some gs → (∀ q ∈ ps, q.2 ≤ 0) → g ∈ gs →
    near (lib.reduce g) x → ∃ q ∈ ps, near q.1 x
  reduceNear : ∀ {p}, kept p → ∀ x, near (lib.reduce p) x ↔ near p x
  reduceDeep : ∀ {p}, kept p → ∀ x, deep (lib.reduce p) x ↔ deep p x
  reverseNear : ∀ p x, near (rev p) x ↔ near p x
  reverseDeep : ∀ p x, deep (rev p) x ↔ deep p x
  standardNear : ∀ p x, near (lib.standard p) x ↔ near p x
  standardDeep : ∀ p x, deep (lib.standard p) x ↔ deep p x
  area : ∀ p, area (lib.standard p) = area p

theorem face_near {lib : Lib} {near deep : Poly → Pt → Prop} {kept : Poly → Prop}
    {close : Pt → Pt → Prop} (c : Contract lib near deep kept close) (up : Bool) (p : Poly) (x : Pt) :
    near (face lib up p) x ↔ near (lib.reduce p) x := by
  unfold face
  dsimp only
  rw [c.standardNear]
  split <;> split <;> simp only [c.reverseNear]

theorem face_deep {lib : Lib} {near deep : Poly → Pt → Prop} {kept : Poly → Prop}
    {close : Pt → Pt → Prop} (c : Contract lib near deep kept close) (up : Bool) (p : Poly) (x : Pt) :
    deep (face lib up p) x ↔ deep (lib.reduce p) x := by
  unfold face
  dsimp only
  rw [c.standardDeep]
  split <;> split <;> simp only [c.reverseDeep]

theorem outline_near {lib : Lib} {near deep : Poly → Pt → Prop} {kept : Poly → Prop}
    {close : Pt → Pt → Prop} (c : Contract lib near deep kept close) {b p : Poly} (h : outline lib (some b) = some p)
    (hk : kept b) (x : Pt) : near p x ↔ near b x := by
  unfold outline at h
  dsimp only at h
  split at h
  · cases h
    split <;> simp only [c.reverseNear, c.reduceNear hk]
  · cases h

theorem outline_deep {lib : Lib} {near deep : Poly → Pt → Prop} {kept : Poly → Prop}
    {close : Pt → Pt → Prop} (c : Contract lib near deep kept close) {b p : Poly} (h : outline lib (some b) = some p)
    (hk : kept b) (x : Pt) : deep p x ↔ deep b x := by
  unfold outline at h
  dsimp only at h
  split at h
  · cases h
    split <;> simp only [c.reverseDeep, c.reduceDeep hk]
  · cases h

theorem face_down {lib : Lib} {near deep : Poly → Pt → Prop} {kept : Poly → Prop}
    {close : Pt → Pt → Prop} (c : Contract lib near deep kept close) (p : Poly) :
    ¬ 0 < area (face lib false p) := by
  unfold face
  dsimp only
  rw [c.area]
  simp only [Bool.false_eq_true, ↓reduceIte]
  split
  · rw [area_rev]; grind
  · assumption

theorem largest_mem (p : Poly) (l : List Poly) : largest p l ∈ p :: l := by
  induction l generalizing p with
  | nil => simp [largest]
  | cons q l ih =>
    have : largest p (q :: l) = largest q l ∨ largest p (q :: l) = largest p l := by
      simp only [largest]; grind
    rcases this with k | k
    · rw [k]; exact List.mem_cons_of_mem _ (ih q)
    · rw [k]
      rcases List.mem_cons.mp (ih p) with h | h
      · rw [h]; simp
      · exact List.mem_cons_of_mem _ (List.mem_cons_of_mem _ h)

theorem mem_outlines {lib : Lib} {zones : Map Zone} {clip : Rat → Rat} {ids : List Int} {v : Int}
    {q : Poly × Rat} : q ∈ outlines lib zones clip ids v ↔ ∃ i ∈ ids, ∃ z, zones.get i = some z ∧
      z.applies v = true ∧ outline lib z.boundary = some q.1 ∧ q.2 = clip z.padding := by
  unfold outlines
  rw [List.mem_filterMap]
  constructor
  · rintro ⟨i, hi, h⟩
    refine ⟨i, hi, ?_⟩
    cases k : zones.get i with
    | none => rw [k] at h; cases h
    | some z =>
      rw [k] at h
      dsimp only at h
      split at h
      · rename_i ha
        obtain ⟨p, hp, rfl⟩ := Option.map_eq_some_iff.mp h
        exact ⟨z, rfl, ha, hp, rfl⟩
      · cases h
  · rintro ⟨i, hi, z, hz, ha, ho, hq⟩
    refine ⟨i, hi, ?_⟩
    rw [hz]
    dsimp only
    rw [if_pos ha, ho]
    obtain ⟨q₁, q₂⟩ := q
    cases hq
    rfl

theorem buildEnv_valid {lib : Lib} {ins outs : Map Zone} {r : Region} {v : Int} {w : Option Poly}
    {e : List Poly} (h : buildEnv lib ins outs r v w = some e) : lib.valid e = true := by
  unfold buildEnv at h
  dsimp only at h
  split at h
  · cases h
  · split at h
    · cases h
    · split at h
      · rename_i hv
        cases h
        exact hv.2.2
      · cases h

/-- An environment keeps a vehicle out of each zone to be kept out of. -/
theorem buildEnv_out {lib : Lib} {near deep : Poly → Pt → Prop} {kept : Poly → Prop}
    {close : Pt → Pt → Prop} (c : Contract lib near deep kept close)
    {ins outs : Map Zone} {r : Region} {v : Int} {w : Option Poly} {e : List Poly}
    (h : buildEnv lib ins outs r v w = some e) {x : Pt} (hx : lib.inEnv e x = true)
    {i : Int} (hi : i ∈ r.outs) {z : Zone} (hz : outs.get i = some z) (ha : z.applies v = true)
    {b : Poly} (hb : z.boundary = some b) (hs : lib.simple (lib.reduce b) = true) (hk : kept b) :
    ¬ deep b x := by
  intro hin
  unfold buildEnv at h
  dsimp only at h
  split at h
  · cases h
  rename_i grown hg
  obtain ⟨q, hq⟩ : ∃ q, outline lib (some b) = some q := by
    unfold outline; dsimp only; rw [if_pos hs]; exact ⟨_, rfl⟩
  have hm : (q, if z.padding < 0 then 0 else z.padding) ∈
      outlines lib outs (fun d => if d < 0 then 0 else d) r.outs v :=
    mem_outlines.mpr ⟨i, hi, z, hz, ha, by rw [hb]; exact hq, rfl⟩
  obtain ⟨g, hgg, hgx⟩ : ∃ g ∈ grown, deep (lib.reduce g) x := by
    unfold offset at hg
    split at hg
    · rename_i k
      rw [List.isEmpty_iff] at k
      rw [k] at hm; cases hm
    · split at hg
      · refine c.grow hg ?_ hm ((outline_deep c hq hk x).mpr hin)
        intro p hp
        obtain ⟨j, -, y, -, -, -, hy⟩ := mem_outlines.mp hp
        rw [hy]; grind
      · cases hg
  split at h
  · cases h
  · rename_i p hs' hl
    split at h
    · rename_i hv
      cases h
      have hgf : face lib false g ∈ p :: hs' := by
        rw [← hl]
        exact List.mem_append_right _ (List.mem_map_of_mem hgg)
      have hgx' := (face_deep c false g x).mpr hgx
      rcases List.mem_cons.mp hgf with k | k
      · exact face_down c g (k ▸ hv.1)
      · exact c.hole (hl ▸ hv.2.2) (hl ▸ hx) k hgx'
    · cases h

/-- An environment keeps a vehicle in one of the zones to be kept in. -/
theorem buildEnv_in {lib : Lib} {near deep : Poly → Pt → Prop} {kept : Poly → Prop}
    {close : Pt → Pt → Prop} (c : Contract lib near deep kept close)
    {ins outs : Map Zone} {r : Region} {v : Int} {e : List Poly}
    (h : buildEnv lib ins outs r v none = some e) {x : Pt} (hx : lib.inEnv e x = true)
    (hr : r.ins ≠ []) (hk : ∀ i ∈ r.ins, ∀ z b, ins.get i = some z → z.applies v = true →
      z.boundary = some b → kept b) :
    ∃ i ∈ r.ins, ∃ z, ins.get i = some z ∧ z.applies v = true ∧ ∃ b, z.boundary = some b ∧
      near b x := by
  unfold buildEnv at h
  dsimp only at h
  split at h
  · cases h
  rename_i grown hg
  split at h
  · cases h
  rename_i p hs hl
  split at h
  · rename_i hv
    cases h
    have hpx := c.outer (hl ▸ hv.2.2) (hl ▸ hx)
    unfold boundary at hl
    have hr' : r.ins.isEmpty = false := by
      cases k : r.ins with
      | nil => exact absurd k hr
      | cons => rfl
    rw [hr'] at hl
    simp only [Bool.false_and, Bool.false_eq_true, ↓reduceIte, outline, Option.map_none,
      Option.toList_none, List.append_nil] at hl
    split at hl
    · rename_i q qs ho
      have hp : p = largest (face lib true q) (qs.map (face lib true)) := by
        simp only [Option.toList_some, List.singleton_append, List.cons.injEq] at hl
        exact hl.1.symm
      have hmem := largest_mem (face lib true q) (qs.map (face lib true))
      rw [← hp, ← List.map_cons] at hmem
      obtain ⟨g, hgm, hgp⟩ := List.mem_map.mp hmem
      have hgx : near (lib.reduce g) x := (face_near c true g x).mp (hgp ▸ hpx)
      unfold offset at ho
      split at ho
      · cases ho
      · split at ho
        · obtain ⟨y, hy, hyx⟩ := c.shrink ho (by
            intro y hy
            obtain ⟨j, -, z, -, -, -, hz⟩ := mem_outlines.mp hy
            rw [hz]; grind) hgm hgx
          obtain ⟨j, hj, z, hz, ha, hb, -⟩ := mem_outlines.mp hy
          refine ⟨j, hj, z, hz, ha, ?_⟩
          cases k : z.boundary with
          | none => rw [k] at hb; cases hb
          | some b => exact ⟨b, rfl, (outline_near c (k ▸ hb) (hk j hj z b hz ha k) x).mp hyx⟩
        · cases ho
    · simp only [Option.toList_none, List.nil_append] at hl
      have : p ∈ grown.map (face lib false) := by rw [hl]; simp
      obtain ⟨g, -, rfl⟩ := List.mem_map.mp this
      exact absurd hv.1 (face_down c g)
  · cases h

/-! ### C114 -/

/-- The waypoints of a plan lead along `x`. -/
def Plan.along (p : Plan) (x : Pt) : Prop :=
  ∃ i, ∃ (hi : i + 1 < p.wps.length), Between p.wps[i].place p.wps[i + 1].place x

theorem way_in {lib : Lib} {near deep : Poly → Pt → Prop} {kept : Poly → Prop}
    {close : Pt → Pt → Prop} (c : Contract lib near deep kept close) {env : List Poly}
    {costOnly : Bool} {speed alt : Rat} {a b : Option Pt} {way : Option (List Pt × Rat)}
    {q : RouteReq} {p : Plan} (hw : Way lib (some env) speed a b way) (hval : lib.valid env = true)
    (ha : Answers costOnly speed alt way q p) {x : Pt} (hx : p.along x) :
    ∃ y, close x y ∧ lib.inEnv env y = true := by
  obtain ⟨i, hi, hx⟩ := hx
  have noway : way = none → False := by
    intro k
    rw [(ha.none k).2] at hi
    simp at hi
  cases hw with
  | start => exact (noway rfl).elim
  | stop => exact (noway rfl).elim
  | slow _ => exact (noway rfl).elim
  | out _ _ => exact (noway rfl).elim
  | straight _ he => cases he
  | @path a b _ h he hp hq =>
    cases he
    have hm := ha.ways _ _ rfl
    split at hm
    · rw [List.map_eq_nil_iff] at hm
      rw [hm] at hi
      simp at hi
    · have hl := congrArg List.length hm
      rw [List.length_map] at hl
      refine c.way hval hp hq i (by omega) x ?_
      have e₁ : p.wps[i].place = (lib.path env a b)[i]'(by omega) := by
        rw [← List.getElem_map (fun w : Wp => w.place) (h := by rw [List.length_map]; omega)]
        simp only [hm]
      have e₂ : p.wps[i + 1].place = (lib.path env a b)[i + 1]'(by omega) := by
        rw [← List.getElem_map (fun w : Wp => w.place) (h := by rw [List.length_map]; omega)]
        simp only [hm]
      rw [e₁, e₂] at hx
      exact hx

/-- **C114.**  While zones and regions stay as they are, the waypoints of a plan for
a vehicle in the air lead close to places in no zone to be kept out of, and, if the region
names zones to be kept in, in one of them at least; provided there is an environment for
the vehicle in the region, and the library does as `Contract` says. -/
theorem C114_keeps_zones_partial {lib : Lib} {near deep : Poly → Pt → Prop} {kept : Poly → Prop}
    {close : Pt → Pt → Prop} (c : Contract lib near deep kept close)
    {h : List Msg} {s : St} (e : St.after lib h = .ok s) (hc : Calm h) {src : Nat} {q : PlanReq}
    (ha : ∃ m ∈ h, m.inAir q.vehicle = true) (hw : ∀ m ∈ h, m.onWater q.vehicle = false)
    (hd : ∀ sp al, .airConfig q.vehicle sp al false ∉ h) {r : Region} (hr : .region r ∈ h)
    (hid : r.id = q.region) (henv : s.env q.region q.vehicle ≠ none)
    {out : List (Nat × PlanResp)} (ho : s.reply lib (.request src q) = .ok out)
    {o : Nat × PlanResp} (hom : o ∈ out) {p : Plan} (hp : p ∈ o.2.plans) {x : Pt}
    (hx : p.along x) : ∃ y, close x y ∧
    (∀ i ∈ r.outs, ∀ z b, latest (·.outZone i) h = some z →
      (z.affected = [] ∨ q.vehicle ∈ z.affected) → z.boundary = some b →
      lib.simple (lib.reduce b) = true → kept b → ¬ deep b y) ∧
    (r.ins ≠ [] → (∀ i ∈ r.ins, ∀ z b, latest (·.inZone i) h = some z → z.boundary = some b →
      kept b) → ∃ i ∈ r.ins, ∃ z b, latest (·.inZone i) h = some z ∧
      (z.affected = [] ∨ q.vehicle ∈ z.affected) ∧ z.boundary = some b ∧ near b y) := by
  obtain ⟨k₁, -, -, -, k₅, k₆⟩ := after_known e
  have hcur := C113_current_partial e hc ha hw hd hr k₅ k₆
  rw [hid] at hcur
  obtain ⟨ps, speed, alt, rfl, -, hlen, hps⟩ :=
    C112_answer e (ha.elim fun m hm => ⟨m, hm.1, .inl hm.2⟩) ho
  rw [List.mem_singleton] at hom
  subst hom
  cases henv' : s.env q.region q.vehicle with
  | none => exact absurd henv' henv
  | some env =>
    rw [henv'] at hcur hps
    obtain ⟨n, hn, rfl⟩ := List.getElem_of_mem hp
    dsimp only at hn hx
    obtain ⟨way, hway, hans⟩ := hps (q.routes[n]'(by omega), ps[n]) (by
      have := List.getElem_zip (l := q.routes) (l' := ps) (i := n)
        (h := by rw [List.length_zip]; omega)
      rw [← this]
      exact List.getElem_mem _)
    obtain ⟨y, hxy, hin⟩ := way_in c hway (buildEnv_valid hcur.symm) hans hx
    refine ⟨y, hxy, fun i hi z b hz haf hb hsim hkept => ?_, fun hne hkept => ?_⟩
    · refine buildEnv_out c hcur.symm hin hi (by rw [k₆, hz]) ?_ hb hsim hkept
      unfold Zone.applies
      rcases haf with k | k <;> simp [k]
    · obtain ⟨i, hi, z, hz, haf, b, hb, hbx⟩ := buildEnv_in c hcur.symm hin hne
        fun i hi z b hz _ hb => hkept i hi z b (by rw [← k₅, hz]) hb
      refine ⟨i, hi, z, b, by rw [← k₅, hz], ?_, hb, hbx⟩
      unfold Zone.applies at haf
      rw [Bool.or_eq_true, List.contains_iff_mem, List.isEmpty_iff] at haf
      exact haf.symm

end Verif.RoutePlanner
