/-
The answers to road points requests, in terms of the roads.
-/
import Verif.Roads.Lines

namespace Verif.Roads

section
variable {o : Order} {ways : List Way} {els : List NodeEl} {M : RoadMap}

/-- A piece that is kept is a piece of a road. -/
theorem kept_piece (h : Whole ways els) (hM : build o ways els = .ok M) {k : Id × Id} {p : Piece}
    (hp : M.table.get k = some p) : RoadPiece ways p.nodes k.1 k.2 := by
  obtain ⟨w, hw, hh, -, hin, ⟨mid, hmid, ha, hb, hm⟩, -⟩ := C154_piece (a := k.1) (b := k.2) h.ids hM hp
  exact ⟨⟨w, hw, hh, hin⟩, ha, hb, mid, hmid, hm⟩

theorem piece_onRoads {p : List Id} {a b : Id} (hp : RoadPiece ways p a b) : ∀ x ∈ p, x ∈ onRoads ways := by
  obtain ⟨⟨w, hw, hh, hin⟩, -⟩ := hp
  intro x hx
  refine mem_onRoads.mpr ⟨w, hw, hh, ?_⟩
  rcases hin with k | k
  · exact k.subset hx
  · exact List.mem_reverse.mp (k.subset hx)

/-- The same or next to each other on a road. -/
def Near (ways : List Way) (x y : Id) : Prop := x = y ∨ Beside ways x y

theorem onSegment_chain (h : Whole ways els) (hM : build o ways els = .ok M) (k : Id × Id) (x y : Id)
    (extra : Bool) : (onSegment M.table k x y extra).IsChain (Near ways) ∧
      ∀ z ∈ onSegment M.table k x y extra, z ∈ onRoads ways := by
  unfold onSegment
  cases e : M.table.get k with
  | none => exact ⟨List.isChain_nil, fun _ h => by cases h⟩
  | some p =>
    have hp := kept_piece h hM e
    obtain ⟨h₁, h₂⟩ := along_chain (extra := extra) (start := x) (stop := y) (piece_chain hp).1
    exact ⟨h₁, fun z hz => piece_onRoads hp z (h₂ z hz)⟩

theorem middle_spec (h : Whole ways els) (hM : build o ways els = .ok M)
    (hpos : ∀ x ∈ onRoads ways, 0 < x) {f : Id} (hf : Planned ways f) : ∀ (l : List Id),
    l.IsChain (fun x y => ∃ p, RoadPiece ways p x y) → (middle M.table f l).1 = true ∧
      (middle M.table f l).2.IsChain (Near ways) ∧
      (∀ z ∈ (middle M.table f l).2, z ∈ onRoads ways) ∧
      (2 ≤ l.length → (middle M.table f l).2.head? = l.head? ∧
        (middle M.table f l).2.getLast? = l.getLast?) ∧
      (l.length < 2 → (middle M.table f l).2 = [])
  | [], _ => ⟨rfl, List.isChain_nil, fun _ h => (by cases h), fun h => (by simp at h), fun _ => rfl⟩
  | [a], _ => ⟨rfl, List.isChain_nil, fun _ h => (by cases h), fun h => (by simp at h), fun _ => rfl⟩
  | a :: b :: l, hc => by
    rw [List.isChain_cons_cons] at hc
    obtain ⟨⟨p, hp⟩, hc⟩ := hc
    obtain ⟨i₁, i₂, i₃, i₄, i₅⟩ := middle_spec h hM hpos hf (b :: l) hc
    obtain ⟨e, he, hpe⟩ := table_piece h hM hp
    obtain ⟨c₁, c₂⟩ := onSegment_chain h hM (a, b) a f false
    have ha : 0 < a := hpos a (planned_onRoads hp.2.1)
    have hs : onSegment M.table (a, b) a f false = along false a f e.nodes := by
      unfold onSegment; rw [he]
    have hends : onSegment M.table (a, b) a f false ≠ [] ∧
        (onSegment M.table (a, b) a f false).head? = some a ∧
        (onSegment M.table (a, b) a f false).getLast? = some b := by
      rw [hs]
      obtain ⟨-, -, -, mid, hmid, hm⟩ := hpe
      have hne : along false a f e.nodes ≠ [] := by
        rw [hmid]; exact (along_head ha (hpos f (planned_onRoads hf))).1
      obtain ⟨g₁, g₂⟩ := along_ends ha hne
      refine ⟨hne, g₁, ?_⟩
      have hl : e.nodes.getLast? = some b := by
        rw [hmid, ← List.cons_append, List.getLast?_append]; rfl
      rcases g₂ with ⟨k₁, k₂, k₃⟩ | k
      · rw [k₁]
        rw [hmid] at k₂
        simp only [List.mem_cons, List.mem_append, List.not_mem_nil, or_false] at k₂
        rcases k₂ with k | k | k
        · exact absurd k k₃
        · exact absurd hf (hm f k)
        · rw [k]
      · rw [k, hl]
    rw [middle]
    dsimp only
    have hhead : ∀ v ∈ (middle M.table f (b :: l)).2.head?, v = b := by
      intro v hv
      by_cases hl : 2 ≤ (b :: l).length
      · rw [(i₄ hl).1] at hv
        cases hv; rfl
      · rw [i₅ (by omega)] at hv; cases hv
    refine ⟨by simp [i₁, hends.1], ?_, ?_, fun _ => ⟨?_, ?_⟩, fun hl => by simp at hl⟩
    · rw [List.isChain_append]
      refine ⟨c₁, i₂, fun u hu v hv => .inl ?_⟩
      rw [hends.2.2] at hu
      rw [hhead v hv]
      cases hu; rfl
    · intro z hz
      rcases List.mem_append.mp hz with hz | hz
      · exact c₂ z hz
      · exact i₃ z hz
    · rw [List.head?_append, hends.2.1]; rfl
    · rw [List.getLast?_append]
      by_cases hl : 2 ≤ (b :: l).length
      · rw [(i₄ hl).2, List.getLast?_cons_cons]
        cases e' : (b :: l).getLast? with
        | none => simp at e'
        | some _ => rfl
      · rw [i₅ (by omega)]
        have : l = [] := by cases l with
          | nil => rfl
          | cons _ _ => simp at hl
        subst this
        rw [hends.2.2]; rfl

/-- The two ends of a piece, in either order, have a piece with the same points. -/
theorem swapped (hM : build o ways els = .ok M) {k : Id × Id} {p : Piece} (hp : M.table.get k = some p)
    {f : Id} (hf : f = k.1 ∨ f = k.2) :
    (∃ q, M.table.get (if k.2 = f then k.1 else k.2, f) = some q ∧ ∀ x, x ∈ q.nodes ↔ x ∈ p.nodes) ∧
    ∃ q, M.table.get (f, if f = k.1 then k.2 else k.1) = some q ∧ ∀ x, x ∈ q.nodes ↔ x ∈ p.nodes := by
  obtain ⟨a, b⟩ := k
  dsimp only at hf ⊢
  by_cases hab : a = b
  · subst hab
    have : f = a := by simpa using hf
    subst this
    rw [if_pos rfl]
    exact ⟨⟨p, hp, fun _ => Iff.rfl⟩, p, hp, fun _ => Iff.rfl⟩
  · obtain ⟨q, hq, hr⟩ := build_mirror hM a b p hab hp
    have hm : ∀ x, x ∈ q.nodes ↔ x ∈ p.nodes := fun x => by rw [hr, List.mem_reverse]
    rcases hf with rfl | rfl
    · rw [if_neg (Ne.symm hab), if_pos rfl]
      exact ⟨⟨q, hq, hm⟩, p, hp, fun _ => Iff.rfl⟩
    · rw [if_pos rfl, if_neg (Ne.symm hab)]
      exact ⟨⟨p, hp, fun _ => Iff.rfl⟩, q, hq, hm⟩

/-- A line along a route. -/
theorem joined_spec (h : Whole ways els) (hM : build o ways els = .ok M)
    (hpos : ∀ x ∈ onRoads ways, 0 < x) {s e : Id × Id} {ps pe : Piece} {x y : Id}
    (hs : M.table.get s = some ps) (hx : x ∈ ps.nodes) (he : M.table.get e = some pe)
    (hy : y ∈ pe.nodes) {a b : Id} (ha : a = s.1 ∨ a = s.2) (hb : b = e.1 ∨ b = e.2)
    {route : List Id} {m : Nat} {P : Id → Pt} (hd : Drive ways P a b route m) :
    joined M.table s e x y route = (false, []) ∨
      ∃ l, joined M.table s e x y route = (true, l) ∧ l.IsChain (Near ways) ∧
        (∀ z ∈ l, z ∈ onRoads ways) ∧ l.head? = some x ∧
        (l.getLast? = some y ∨ (y = b ∧ ∃ d p, M.table.get (y, d) = some p ∧ l.getLast? = some d)) := by
  obtain ⟨hc, hh, hl⟩ := drive_chain hd
  have hps := kept_piece h hM hs
  have hpe := kept_piece h hM he
  have hpa : Planned ways a := by rcases ha with rfl | rfl; exacts [hps.2.1, hps.2.2.1]
  have hpb : Planned ways b := by rcases hb with rfl | rfl; exacts [hpe.2.1, hpe.2.2.1]
  have xpos := hpos x (piece_onRoads hps x hx)
  have ypos := hpos y (piece_onRoads hpe y hy)
  have bpos := hpos b (planned_onRoads hpb)
  unfold joined
  rw [hh, hl]
  dsimp only
  by_cases h₁ : onSegment M.table (if s.2 = a then s.1 else s.2, a) x a false = []
  · left; rw [if_pos h₁]
  right
  rw [if_neg h₁]
  obtain ⟨q₁, hq₁, -⟩ := (swapped hM hs ha).1
  have hp₁ := kept_piece h hM hq₁
  have s₁ : onSegment M.table (if s.2 = a then s.1 else s.2, a) x a false = along false x a q₁.nodes := by
    unfold onSegment; rw [hq₁]
  obtain ⟨c₁, o₁⟩ := onSegment_chain h hM (if s.2 = a then s.1 else s.2, a) x a false
  have e₁ : (onSegment M.table (if s.2 = a then s.1 else s.2, a) x a false).head? = some x ∧
      (onSegment M.table (if s.2 = a then s.1 else s.2, a) x a false).getLast? = some a := by
    rw [s₁] at h₁ ⊢
    obtain ⟨g₁, g₂⟩ := along_ends xpos h₁
    refine ⟨g₁, ?_⟩
    rcases g₂ with ⟨k, -⟩ | k
    · exact k
    · rw [k]; exact (piece_chain hp₁).2.2
  obtain ⟨m₁, m₂, m₃, m₄, m₅⟩ := middle_spec h hM hpos hpa route hc
  obtain ⟨q₂, hq₂, hmem⟩ := (swapped hM he hb).2
  have hp₂ := kept_piece h hM hq₂
  have s₂ : onSegment M.table (b, if b = e.1 then e.2 else e.1) b y false = along false b y q₂.nodes := by
    unfold onSegment; rw [hq₂]
  obtain ⟨c₂, o₂⟩ := onSegment_chain h hM (b, if b = e.1 then e.2 else e.1) b y false
  have e₂ : onSegment M.table (b, if b = e.1 then e.2 else e.1) b y false ≠ [] ∧
      (onSegment M.table (b, if b = e.1 then e.2 else e.1) b y false).head? = some b ∧
      ((onSegment M.table (b, if b = e.1 then e.2 else e.1) b y false).getLast? = some y ∨
        (y = b ∧ (onSegment M.table (b, if b = e.1 then e.2 else e.1) b y false).getLast? =
          some (if b = e.1 then e.2 else e.1))) := by
    rw [s₂]
    have hl₂ := (piece_chain hp₂).2.2
    obtain ⟨-, -, -, mid, hmid, -⟩ := hp₂
    dsimp only at hmid hl₂
    have hy₂ : y ∈ q₂.nodes := (hmem y).mpr hy
    rw [hmid] at hy₂ hl₂ ⊢
    obtain ⟨k₁, k₂⟩ := along_head (start := b) (stop := y) bpos ypos
      (rest := mid ++ [if b = e.1 then e.2 else e.1])
    obtain ⟨g₁, g₂⟩ := along_ends bpos k₁
    refine ⟨k₁, g₁, ?_⟩
    by_cases hyb : y = b
    · rcases g₂ with ⟨k, -⟩ | k
      · exact .inl k
      · exact .inr ⟨hyb, by rw [k, hl₂]⟩
    · exact .inl (k₂ ((List.mem_cons.mp hy₂).resolve_left hyb) hyb)
  refine ⟨_, by rw [m₁]; simp only [Bool.true_and]; rw [Prod.mk.injEq]; exact ⟨by simp [e₂.1], rfl⟩,
    ?_, ?_, ?_, ?_⟩
  · have mh : ∀ v ∈ (middle M.table a route).2.head?, v = a := by
      intro v hv
      by_cases hl' : 2 ≤ route.length
      · rw [(m₄ hl').1, hh] at hv; cases hv; rfl
      · rw [m₅ (by omega)] at hv; cases hv
    have c₁₂ : (onSegment M.table (if s.2 = a then s.1 else s.2, a) x a false ++
        (middle M.table a route).2).IsChain (Near ways) := by
      rw [List.isChain_append]
      refine ⟨c₁, m₂, fun u hu v hv => .inl ?_⟩
      rw [e₁.2] at hu
      rw [mh v hv]
      cases hu; rfl
    rw [List.isChain_append]
    refine ⟨c₁₂, c₂, fun u hu v hv => .inl ?_⟩
    rw [e₂.2.1] at hv
    cases hv
    rw [List.getLast?_append] at hu
    by_cases hl' : 2 ≤ route.length
    · rw [(m₄ hl').2, hl] at hu
      cases hu; rfl
    · rw [m₅ (by omega), e₁.2] at hu
      have : a = b := by
        cases route with
        | nil => cases hh
        | cons r rs =>
          cases rs with
          | nil => cases hh; cases hl; rfl
          | cons _ _ => simp at hl'
      cases hu
      exact this
  · intro z hz
    rcases List.mem_append.mp hz with hz | hz
    · rcases List.mem_append.mp hz with hz | hz
      · exact o₁ z hz
      · exact m₃ z hz
    · exact o₂ z hz
  · rw [List.head?_append, List.head?_append, e₁.1]; rfl
  · rw [List.getLast?_append]
    rcases e₂.2.2 with k | ⟨k₁, k₂⟩
    · left; rw [k]; rfl
    · right
      refine ⟨k₁, _, q₂, by rw [k₁]; exact hq₂, ?_⟩
      rw [k₂]; rfl

theorem between_spec {c : Chooser} (h : Whole ways els) (hM : build o ways els = .ok M) {a b : Id}
    {k : Nat} {l : List Id} (hr : between M c a b = .ok (some (k, l))) :
    ∃ m, Drive ways (posOf M.pts.pos) a b l m := by
  unfold between at hr
  split at hr
  · obtain ⟨m, hd, -⟩ := C157_route h hM hr
    exact ⟨m, hd⟩
  · rename_i hab
    have hab : a = b := not_not.mp hab
    cases hr
    subst hab
    exact ⟨0, .here⟩

theorem cheaper_spec {pa pb : Pt} {a b : Id} {best : Option (Int × List Id)}
    {r : Option (Nat × List Id)} {k : Int} {l : List Id}
    (hr : cheaper M pa pb a b best r = .ok (some (k, l))) :
    best = some (k, l) ∨ ∃ j, r = some (j, l) := by
  unfold cheaper at hr
  split at hr
  · cases hr; exact .inl rfl
  · split at hr
    · dsimp only at hr
      split at hr
      · cases hr; exact .inr ⟨_, rfl⟩
      · split at hr
        · cases hr; exact .inr ⟨_, rfl⟩
        · cases hr; exact .inl rfl
    · cases hr

theorem bestOf_spec {c : Chooser} (h : Whole ways els) (hM : build o ways els = .ok M) {pa pb : Pt}
    {s e : Id × Id} {k : Int} {l : List Id} (hr : bestOf M c pa pb s e = .ok (some (k, l))) :
    ∃ a b m, (a = s.1 ∨ a = s.2) ∧ (b = e.1 ∨ b = e.2) ∧ Drive ways (posOf M.pts.pos) a b l m := by
  unfold bestOf at hr
  obtain ⟨r₁, g₁, hr⟩ := Outcome.bind_eq_ok.mp hr
  obtain ⟨b₁, k₁, hr⟩ := Outcome.bind_eq_ok.mp hr
  obtain ⟨r₂, g₂, hr⟩ := Outcome.bind_eq_ok.mp hr
  obtain ⟨b₂, k₂, hr⟩ := Outcome.bind_eq_ok.mp hr
  obtain ⟨r₃, g₃, hr⟩ := Outcome.bind_eq_ok.mp hr
  obtain ⟨b₃, k₃, hr⟩ := Outcome.bind_eq_ok.mp hr
  obtain ⟨r₄, g₄, k₄⟩ := Outcome.bind_eq_ok.mp hr
  rcases cheaper_spec k₄ with rfl | ⟨j, rfl⟩
  · rcases cheaper_spec k₃ with rfl | ⟨j, rfl⟩
    · rcases cheaper_spec k₂ with rfl | ⟨j, rfl⟩
      · rcases cheaper_spec k₁ with k | ⟨j, rfl⟩
        · cases k
        · obtain ⟨m, hd⟩ := between_spec h hM g₁
          exact ⟨_, _, m, .inl rfl, .inl rfl, hd⟩
      · obtain ⟨m, hd⟩ := between_spec h hM g₂
        exact ⟨_, _, m, .inl rfl, .inr rfl, hd⟩
    · obtain ⟨m, hd⟩ := between_spec h hM g₃
      exact ⟨_, _, m, .inr rfl, .inl rfl, hd⟩
  · obtain ⟨m, hd⟩ := between_spec h hM g₄
    exact ⟨_, _, m, .inr rfl, .inr rfl, hd⟩

/-- The two points are on one piece that is kept. -/
def Together (T : Table) (x y : Id) : Prop := ∃ k p, T.get k = some p ∧ x ∈ p.nodes ∧ y ∈ p.nodes

theorem lineOver_spec {c : Chooser} (h : Whole ways els) (hM : build o ways els = .ok M)
    (hpos : ∀ x ∈ onRoads ways, 0 < x) {S : Listing M.table} {pa pb : Pt} {x y : Id} {k : Bool}
    {l : List Id} (hr : lineOver M c S pa pb x y = .ok (k, l)) (hne : l ≠ []) :
    l.IsChain (Near ways) ∧ (∀ z ∈ l, z ∈ onRoads ways) ∧
      (¬ Together M.table x y → l.head? = some x ∧ (l.getLast? = some y ∨
        ∃ d p, M.table.get (y, d) = some p ∧ l.getLast? = some d)) := by
  unfold lineOver at hr
  split at hr
  · rename_i key hk
    cases hr
    have hkx : key ∈ S.f x := List.mem_of_find?_eq_some hk
    have hky : key ∈ S.f y := by
      have := List.find?_some hk
      simpa using this
    have ht : Together M.table x y := by
      obtain ⟨p, hp, hx⟩ := (S.ok x key).mp hkx
      obtain ⟨p', hp', hy⟩ := (S.ok y key).mp hky
      rw [hp] at hp'
      cases hp'
      exact ⟨key, p, hp, hx, hy⟩
    refine ⟨?_, ?_, fun hn => absurd ht hn⟩
    · split
      · exact (onSegment_chain h hM _ _ _ _).1
      · exact (onSegment_chain h hM _ _ _ _).1
    · split
      · exact (onSegment_chain h hM _ _ _ _).2
      · exact (onSegment_chain h hM _ _ _ _).2
  · split at hr
    · rename_i s _ e _ hfs hfe
      obtain ⟨b, hb, hr⟩ := Outcome.bind_eq_ok.mp hr
      obtain ⟨ps, hs, hx⟩ := (S.ok x s).mp (by rw [hfs]; simp)
      obtain ⟨pe, he, hy⟩ := (S.ok y e).mp (by rw [hfe]; simp)
      cases b with
      | none => cases hr; exact absurd rfl hne
      | some b =>
        obtain ⟨cost, route⟩ := b
        obtain ⟨a, b, m, ha, hb', hd⟩ := bestOf_spec h hM hb
        have hr : Outcome.ok (joined M.table s e x y route) = .ok (k, l) := hr
        have hr : joined M.table s e x y route = (k, l) := by injection hr
        rcases joined_spec h hM hpos hs hx he hy ha hb' hd with hj | ⟨l', hj, h₁, h₂, h₃, h₄⟩
        · rw [hj] at hr
          cases hr
          exact absurd rfl hne
        · rw [hj] at hr
          cases hr
          exact ⟨h₁, h₂, fun _ => ⟨h₃, h₄.imp id fun ⟨_, q⟩ => q⟩⟩
    · cases hr; exact absurd rfl hne

/-- A piece between two different points goes over no point twice. -/
theorem piece_nodup {p : List Id} {a b : Id} (hp : RoadPiece ways p a b) (hab : a ≠ b) : p.Nodup := by
  obtain ⟨⟨w, hw, hh, hin⟩, ha, hb, mid, rfl, hm⟩ := hp
  have hcount : ∀ x, (a :: (mid ++ [b])).count x ≤ (onRoads ways).count x := by
    intro x
    have h₁ : (a :: (mid ++ [b])).count x ≤ w.nodes.count x := by
      rcases hin with k | k
      · exact k.sublist.count_le x
      · rw [← List.count_reverse (l := w.nodes)]
        exact k.sublist.count_le x
    refine le_trans h₁ ?_
    unfold onRoads
    rw [List.count_flatMap]
    refine List.single_le_sum (fun _ _ => Nat.zero_le _) _ (List.mem_map.mpr ⟨w, ?_, rfl⟩)
    exact List.mem_filter.mpr ⟨hw, hh⟩
  rw [List.nodup_cons, List.nodup_append]
  refine ⟨?_, ?_, List.nodup_singleton _, ?_⟩
  · simp only [List.mem_append, List.mem_singleton, not_or]
    exact ⟨fun h => hm a h ha, hab⟩
  · rw [List.nodup_iff_count_le_one]
    intro x
    by_cases hx : x ∈ mid
    · by_contra hc
      apply hm x hx
      refine .inr ?_
      refine le_trans ?_ (hcount x)
      rw [List.count_cons, List.count_append]
      omega
    · rw [List.count_eq_zero.mpr hx]; omega
  · intro u hu v hv
    rw [List.mem_singleton.mp hv]
    rintro rfl
    exact hm u hu hb

/-- From a point to another one of a list: in which of three ways they can lie. -/
theorem two_places {l : List Id} {x y : Id} (hx : x ∈ l) (hy : y ∈ l) (hne : x ≠ y) :
    (∃ A B C, l = A ++ x :: (B ++ y :: C)) ∨ (∃ A z B C, l = A ++ y :: z :: (B ++ x :: C)) ∨
      ∃ A C, l = A ++ y :: x :: C := by
  obtain ⟨A, D, rfl⟩ := List.append_of_mem hx
  rw [List.mem_append, List.mem_cons] at hy
  rcases hy with hy | rfl | hy
  · obtain ⟨A₁, A₂, rfl⟩ := List.append_of_mem hy
    cases A₂ with
    | nil => exact .inr (.inr ⟨A₁, D, by simp⟩)
    | cons z A₂ => exact .inr (.inl ⟨A₁, z, A₂, D, by simp⟩)
  · exact absurd rfl hne
  · obtain ⟨B, C, rfl⟩ := List.append_of_mem hy
    exact .inl ⟨A, B, C, rfl⟩

theorem lineOver_same {c : Chooser} (h : Whole ways els) (hM : build o ways els = .ok M)
    (hpos : ∀ x ∈ onRoads ways, 0 < x) (hloop : ∀ a, M.table.get (a, a) = none) {S : Listing M.table}
    {pa pb : Pt} {x y : Id} (hxy : x ≠ y) (ht : Together M.table x y) :
    ∃ l, lineOver M c S pa pb x y = .ok (true, l) ∧
      ((∃ pre B, l = pre :: x :: (B ++ [y])) ∨ ∃ C, l = y :: x :: C) := by
  unfold lineOver
  have hsome : ∃ k, (S.f x).find? (· ∈ S.f y) = some k := by
    obtain ⟨k, p, hp, hx, hy⟩ := ht
    refine Option.ne_none_iff_exists'.mp fun hn => ?_
    have := List.find?_eq_none.mp hn k ((S.ok x k).mpr ⟨p, hp, hx⟩)
    simp only [decide_eq_true_eq] at this
    exact this ((S.ok y k).mpr ⟨p, hp, hy⟩)
  obtain ⟨k, hk⟩ := hsome
  rw [hk]
  dsimp only
  obtain ⟨p, hp, hx⟩ := (S.ok x k).mp (List.mem_of_find?_eq_some hk)
  have hy : y ∈ p.nodes := by
    have := List.find?_some hk
    simp only [decide_eq_true_eq] at this
    obtain ⟨p', hp', hy⟩ := (S.ok y k).mp this
    rw [hp] at hp'
    cases hp'
    exact hy
  have hpp := kept_piece h hM hp
  have hab : k.1 ≠ k.2 := by
    intro e
    have := hloop k.1
    have e' : (k.1, k.1) = k := Prod.ext rfl e
    rw [e', hp] at this
    cases this
  obtain ⟨q, hq, hrev⟩ := build_mirror hM k.1 k.2 p hab hp
  have hnd := piece_nodup hpp hab
  have xpos := hpos x (piece_onRoads hpp x hx)
  have ypos := hpos y (piece_onRoads hpp y hy)
  have s₁ : onSegment M.table k x y true = along true x y p.nodes := by unfold onSegment; rw [hp]
  have s₂ : onSegment M.table (k.2, k.1) x y true = along true x y p.nodes.reverse := by
    unfold onSegment; rw [hq, ← hrev]
  have hnd' : p.nodes.reverse.Nodup := List.nodup_reverse.mpr hnd
  refine ⟨_, rfl, ?_⟩
  rw [s₁, s₂]
  rcases two_places hx hy hxy with ⟨A, B, C, e⟩ | ⟨A, z, B, C, e⟩ | ⟨A, C, e⟩
  · rw [e] at hnd ⊢
    rw [alongX_to xpos ypos hnd, if_neg (by simp)]
    exact .inl ⟨_, B, rfl⟩
  · have e' : (A ++ y :: z :: (B ++ x :: C)).reverse =
        C.reverse ++ x :: ((B.reverse ++ [z]) ++ y :: A.reverse) := by simp
    rw [e] at hnd hnd' ⊢
    rw [alongX_gap xpos ypos hnd, if_pos rfl]
    rw [e'] at hnd' ⊢
    rw [alongX_to xpos ypos hnd']
    exact .inl ⟨_, _, rfl⟩
  · have e' : (A ++ y :: x :: C).reverse = C.reverse ++ x :: ([] ++ y :: A.reverse) := by simp
    rw [e] at hnd hnd' ⊢
    rw [alongX_back xpos ypos hnd]
    by_cases hA : A = []
    · rw [if_pos hA, if_pos rfl]
      rw [e'] at hnd' ⊢
      rw [alongX_to xpos ypos hnd']
      exact .inl ⟨_, _, rfl⟩
    · rw [if_neg hA, if_neg (by simp)]
      exact .inr ⟨C, rfl⟩

end

/-! ### The answer -/

theorem points1_ok {M : RoadMap} {c : Chooser} {S : Listing M.table} {pts : List (Id × Pt)} {ok : Bool}
    {r : PointsReq} {ls : List Line} (h : points1 M c S pts ok r = .ok (true, ls)) :
    ok = true ∧ ∃ x dx y dy l, closest pts r.from_ = some (x, dx) ∧ closest pts r.to_ = some (y, dy) ∧
      lineOver M c S r.from_ r.to_ x y = .ok (true, l) ∧
      ((l = [] ∧ ls = []) ∨ (l ≠ [] ∧ ls = [⟨r.id, l.map (posOf M.pts.pos)⟩])) := by
  unfold points1 at h
  split at h
  · rename_i x dx y dy hx hy
    split at h
    · rename_i hok
      obtain ⟨⟨k, l⟩, h₁, h₂⟩ := Outcome.bind_eq_ok.mp h
      dsimp only at h₂
      have h₂ : ((k && l.all fun z => (M.pts.pos z).isSome),
          if (k && l.all fun z => (M.pts.pos z).isSome) = true ∧ l ≠ [] then
            [(⟨r.id, l.map (posOf M.pts.pos)⟩ : Line)] else []) = (true, ls) := by injection h₂
      rw [Prod.mk.injEq] at h₂
      obtain ⟨hk, hl⟩ := h₂
      have hk' : k = true := by
        rw [Bool.and_eq_true] at hk; exact hk.1
      subst hk'
      refine ⟨hok, x, dx, y, dy, l, hx, hy, h₁, ?_⟩
      by_cases he : l = []
      · rw [if_neg fun h => h.2 he] at hl
        exact .inl ⟨he, hl.symm⟩
      · rw [if_pos ⟨hk, he⟩] at hl
        exact .inr ⟨he, hl.symm⟩
    · cases h
  · cases h

theorem pointsAll_ok {M : RoadMap} {c : Chooser} {S : Listing M.table} {pts : List (Id × Pt)} :
    ∀ (rs : List PointsReq) (ok : Bool) (L : List Line), pointsAll M c S pts ok rs = .ok (true, L) →
      ok = true ∧ ∃ Ls : List (List Line),
        List.Forall₂ (fun r ls => points1 M c S pts true r = .ok (true, ls)) rs Ls ∧ L = Ls.flatten
  | [], ok, L, h => by cases h; exact ⟨rfl, [], .nil, rfl⟩
  | r :: rs, ok, L, h => by
    rw [pointsAll] at h
    obtain ⟨⟨k, ls⟩, h₁, h⟩ := Outcome.bind_eq_ok.mp h
    obtain ⟨⟨k', L'⟩, h₂, h⟩ := Outcome.bind_eq_ok.mp h
    cases h
    dsimp only at h₂
    obtain ⟨rfl, Ls, h₃, rfl⟩ := pointsAll_ok rs k L' h₂
    obtain ⟨rfl, -⟩ := points1_ok h₁
    exact ⟨rfl, ls :: Ls, .cons h₁ h₃, rfl⟩

theorem roadPoints_ok {M : RoadMap} {c : Chooser} {S : Listing M.table} {pts : List (Id × Pt)}
    {rs : List PointsReq} {L : List Line} (h : roadPoints M c S pts rs = .ok (some L)) :
    ∃ Ls : List (List Line),
        List.Forall₂ (fun r ls => points1 M c S pts true r = .ok (true, ls)) rs Ls ∧ L = Ls.flatten := by
  unfold roadPoints at h
  obtain ⟨⟨k, L'⟩, h₁, h₂⟩ := Outcome.bind_eq_ok.mp h
  dsimp only at h₂
  cases k with
  | false => cases h₂
  | true =>
    cases h₂
    exact (pointsAll_ok rs true L h₁).2

theorem mem_flatten_forall₂ {α β : Type} {R : α → List β → Prop} {z : β} : ∀ {rs : List α}
    {Ls : List (List β)}, List.Forall₂ R rs Ls → z ∈ Ls.flatten → ∃ r ∈ rs, ∃ ls, R r ls ∧ z ∈ ls
  | _, _, .nil, h => by cases h
  | _, _, .cons h₁ h₂, h => by
    rw [List.flatten_cons, List.mem_append] at h
    rcases h with h | h
    · exact ⟨_, by simp, _, h₁, h⟩
    · obtain ⟨r, hr, ls, k⟩ := mem_flatten_forall₂ h₂ h
      exact ⟨r, List.mem_cons_of_mem _ hr, ls, k⟩

section
variable {o : Order} {ways : List Way} {els : List NodeEl} {M : RoadMap}

/-- **C160.**  The lines of an answer are for the requests, in their order, at most one
for each. -/
theorem C160_order {c : Chooser} {S : Listing M.table} {pts : List (Id × Pt)} {rs : List PointsReq}
    {L : List Line} (hr : roadPoints M c S pts rs = .ok (some L)) :
    (L.map (·.id)).Sublist (rs.map (·.id)) := by
  obtain ⟨Ls, h, rfl⟩ := roadPoints_ok hr
  clear hr
  induction h with
  | nil => simp
  | @cons r ls rs Ls h₁ _ ih =>
    rw [List.flatten_cons, List.map_append, List.map_cons]
    obtain ⟨-, x, dx, y, dy, l, -, -, -, ⟨-, rfl⟩ | ⟨-, rfl⟩⟩ := points1_ok h₁
    · exact ih.cons _
    · exact ih.cons_cons _

/-- **C160.**  If an answer is sent, then there is a point of a road near both places of
every request: a single place far from all roads, and there is no answer to any of
the requests. -/
theorem C160_near {c : Chooser} {S : Listing M.table} {pts : List (Id × Pt)} {rs : List PointsReq}
    {L : List Line} (hr : roadPoints M c S pts rs = .ok (some L)) :
    ∀ r ∈ rs, closest pts r.from_ ≠ none ∧ closest pts r.to_ ≠ none := by
  obtain ⟨Ls, h, rfl⟩ := roadPoints_ok hr
  clear hr
  induction h with
  | nil => intro r hr; cases hr
  | cons h₁ _ ih =>
    intro r hr
    rcases List.mem_cons.mp hr with rfl | hr
    · obtain ⟨-, x, dx, y, dy, l, h₂, h₃, -⟩ := points1_ok h₁
      rw [h₂, h₃]
      exact ⟨by simp, by simp⟩
    · exact ih r hr

/-- **C160.**  Every line of an answer goes over points of roads, from each to one that is
next to it on a road (or the same point again). -/
theorem C160_line {c : Chooser} (h : Whole ways els) (hM : build o ways els = .ok M)
    (hpos : ∀ x ∈ onRoads ways, 0 < x) {S : Listing M.table} {pts : List (Id × Pt)}
    {rs : List PointsReq} {L : List Line} (hr : roadPoints M c S pts rs = .ok (some L)) :
    ∀ ln ∈ L, ∃ l : List Id, l ≠ [] ∧ ln.points = l.map (posOf M.pts.pos) ∧
      (∀ z ∈ l, z ∈ onRoads ways) ∧ l.IsChain fun x y => x = y ∨ Beside ways x y := by
  obtain ⟨Ls, hf, rfl⟩ := roadPoints_ok hr
  intro ln hln
  obtain ⟨r, hr', ls, h₁, h₂⟩ := mem_flatten_forall₂ hf hln
  obtain ⟨-, x, dx, y, dy, l, -, -, h₃, ⟨-, rfl⟩ | ⟨hne, rfl⟩⟩ := points1_ok h₁
  · cases h₂
  · rw [List.mem_singleton.mp h₂]
    obtain ⟨g₁, g₂, -⟩ := lineOver_spec h hM hpos h₃ hne
    exact ⟨l, hne, rfl, g₂, g₁⟩

/-- **C160, in part.**  If the points found for the two places of a request are not on one
piece, its line begins at the first; it ends at the second, unless that is used for
planning (then it may go on along a piece from there: `C160_end_violated`). -/
theorem C160_ends_partial {c : Chooser} (h : Whole ways els) (hM : build o ways els = .ok M)
    (hpos : ∀ x ∈ onRoads ways, 0 < x) {S : Listing M.table} {pts : List (Id × Pt)}
    {rs : List PointsReq} {L : List Line} (hr : roadPoints M c S pts rs = .ok (some L)) :
    ∀ ln ∈ L, ∃ r ∈ rs, ln.id = r.id ∧ ∃ x dx y dy, closest pts r.from_ = some (x, dx) ∧
      closest pts r.to_ = some (y, dy) ∧
      ((∃ k p, M.table.get k = some p ∧ x ∈ p.nodes ∧ y ∈ p.nodes) ∨
        ∃ l : List Id, ln.points = l.map (posOf M.pts.pos) ∧ l.head? = some x ∧
          (l.getLast? = some y ∨ (Planned ways y ∧ ∃ d p, RoadPiece ways p y d ∧ l.getLast? = some d))) := by
  obtain ⟨Ls, hf, rfl⟩ := roadPoints_ok hr
  intro ln hln
  obtain ⟨r, hr', ls, h₁, h₂⟩ := mem_flatten_forall₂ hf hln
  obtain ⟨-, x, dx, y, dy, l, hx, hy, h₃, ⟨-, rfl⟩ | ⟨hne, rfl⟩⟩ := points1_ok h₁
  · cases h₂
  · rw [List.mem_singleton.mp h₂]
    refine ⟨r, hr', rfl, x, dx, y, dy, hx, hy, ?_⟩
    by_cases ht : Together M.table x y
    · exact .inl ht
    · right
      obtain ⟨-, -, g⟩ := lineOver_spec h hM hpos h₃ hne
      obtain ⟨g₁, g₂⟩ := g ht
      refine ⟨l, rfl, g₁, g₂.imp id fun ⟨d, p, hp, hd⟩ => ?_⟩
      have := kept_piece h hM hp
      exact ⟨this.2.1, d, p.nodes, this, hd⟩

/-- **C160, in part.**  If the two points found are different and on one piece, the line is
one point and then the points from the first to the second; or it begins at the second
point and goes over the first, away from it (`C160_back_violated`).  (For maps where no
piece leads back to where it begins.) -/
theorem C160_same_partial {c : Chooser} (h : Whole ways els) (hM : build o ways els = .ok M)
    (hpos : ∀ x ∈ onRoads ways, 0 < x) (hloop : ∀ a, M.table.get (a, a) = none)
    {S : Listing M.table} {pts : List (Id × Pt)} {r : PointsReq} {L : List Line}
    (hr : roadPoints M c S pts [r] = .ok (some L)) {x y : Id} {dx dy : ℝ}
    (hx : closest pts r.from_ = some (x, dx)) (hy : closest pts r.to_ = some (y, dy)) (hxy : x ≠ y)
    (ht : ∃ k p, M.table.get k = some p ∧ x ∈ p.nodes ∧ y ∈ p.nodes) :
    ∃ l : List Id, L = [⟨r.id, l.map (posOf M.pts.pos)⟩] ∧
      ((∃ pre B, l = pre :: x :: (B ++ [y])) ∨ ∃ C, l = y :: x :: C) := by
  obtain ⟨Ls, hf, rfl⟩ := roadPoints_ok hr
  cases hf with
  | cons h₁ hf =>
    cases hf
    obtain ⟨-, x', dx', y', dy', l, hx', hy', h₃, h₄⟩ := points1_ok h₁
    rw [hx] at hx'
    rw [hy] at hy'
    cases hx'
    cases hy'
    obtain ⟨l', h₅, h₆⟩ := lineOver_same (c := c) (S := S) (pa := r.from_) (pb := r.to_) h hM hpos hloop hxy ht
    rw [h₃] at h₅
    cases h₅
    rcases h₄ with ⟨rfl, -⟩ | ⟨-, rfl⟩
    · rcases h₆ with ⟨pre, B, e⟩ | ⟨C, e⟩ <;> cases e
    · exact ⟨l, rfl, h₆⟩

end

end Verif.Roads
