import Verif.Visilib.Zones
import Mathlib.Tactic.Linarith

/-!
C198: the zones of a region are padded and merged, whatever the paddings of the other zones.
-/

namespace Verif.Visilib.Zones

variable {P : Type}

theorem tol_abs : |tol| = tol := by decide +kernel

theorem grow_nonneg (d : Rat) : 0 ≤ grow d := by
  unfold grow; split
  · exact le_rfl
  · next h => exact not_lt.1 h

theorem grow_sign (d : Rat) : sign tol (grow d) = if d > tol then 1 else 0 := by
  have h0 : (0 : Rat) < tol := by decide +kernel
  unfold sign grow
  by_cases h : d < 0
  · rw [if_pos h, if_neg (by linarith), if_neg (by linarith), if_neg (by linarith)]
  · rw [if_neg h]
    split
    · rfl
    · rw [if_neg (by linarith [not_lt.1 h])]

/-- What `prepare` leaves of a zone. -/
theorem prepare_spec {L : Lib P} {z q : Zone P} (h : prepare L z = some q) : q.keepIn = z.keepIn ∧ q.padding = z.padding := by
  unfold prepare at h
  dsimp only at h
  split at h
  · cases h
  · cases h; exact ⟨rfl, rfl⟩

theorem mapM_prepare {L : Lib P} : ∀ {zs qs : List (Zone P)}, zs.mapM (prepare L) = some qs →
    List.Forall₂ (fun z q => prepare L z = some q) zs qs
  | [], qs, h => by
    have : qs = [] := by simpa [eq_comm] using h
    rw [this]; exact .nil
  | z :: zs, qs, h => by
    rw [List.mapM_cons] at h
    cases hz : prepare L z with
    | none => rw [hz] at h; cases h
    | some q =>
      rw [hz] at h
      cases hs : zs.mapM (prepare L) with
      | none => rw [hs] at h; cases h
      | some rest =>
        rw [hs] at h
        have : qs = q :: rest := by simpa [eq_comm] using h
        rw [this]
        exact .cons hz (mapM_prepare hs)

/-- The paddings of the zones to be kept out of. -/
def outs (zs : List (Zone P)) : List Rat := (zs.filter fun z => !z.keepIn).map (·.padding)

theorem outs_prepare {L : Lib P} {zs qs : List (Zone P)} (h : zs.mapM (prepare L) = some qs) : outs qs = outs zs := by
  have := mapM_prepare h
  clear h
  induction this with
  | nil => rfl
  | cons hz _ ih =>
    obtain ⟨h1, h2⟩ := prepare_spec hz
    unfold outs at ih ⊢
    rw [List.filter_cons, List.filter_cons, h1]
    split
    · rw [List.map_cons, List.map_cons, h2, ih]
    · exact ih

theorem direction_outs (zs : List (Zone P)) :
    direction |tol| (((zs.filter fun z => !z.keepIn).map fun z => (z.poly, grow z.padding)).map (·.2)) =
      direction tol ((outs zs).map grow) := by
  rw [tol_abs, outs, List.map_map, List.map_map]
  rfl

/-- **C198 is false.**  If a zone with a padding comes before a zone to be kept out of without one, the region is not taken up,
whatever the zones and the library. -/
theorem C198_order_violated (L : Lib P) (zs : List (Zone P)) (a b c : List (Zone P)) (x y : Zone P)
    (hzs : zs = a ++ x :: (b ++ y :: c)) (hx : x.keepIn = false) (hy : y.keepIn = false)
    (hpx : tol < x.padding) (hpy : y.padding ≤ tol) : ∃ e, expandMerge L zs = .error e := by
  unfold expandMerge
  have hne : zs.isEmpty = false := by rw [hzs]; cases a <;> rfl
  rw [hne, if_neg (by simp)]
  cases hq : zs.mapM (prepare L) with
  | none => exact ⟨_, rfl⟩
  | some qs =>
    refine ⟨.merging, ?_⟩
    have hd : direction tol ((outs qs).map grow) = none := by
      rw [outs_prepare hq]
      cases hd : direction tol ((outs zs).map grow) with
      | none => rfl
      | some v =>
        exfalso
        obtain ⟨pre, post, e, h1, h2, -⟩ := (direction_iff _ v).1 hd
        have ho : (outs zs).map grow = (outs a).map grow ++ grow x.padding :: ((outs b).map grow ++ grow y.padding :: (outs c).map grow) := by
          rw [hzs]; simp [outs, hx, hy]
        have sx : sign tol (grow x.padding) = 1 := by rw [grow_sign, if_pos hpx]
        have sy : sign tol (grow y.padding) = 0 := by rw [grow_sign, if_neg (not_lt.2 hpy)]
        rw [ho] at e
        rcases List.append_eq_append_iff.1 e with ⟨l, rfl, e2⟩ | ⟨l, e1, rfl⟩
        · cases l with
          | nil =>
            rw [List.nil_append] at e2
            rw [← e2] at h2
            have := h2 (grow x.padding) (by simp)
            have := h2 (grow y.padding) (by simp)
            omega
          | cons w l =>
            rw [List.cons_append] at e2
            obtain ⟨rfl, -⟩ := List.cons.inj e2
            have := h1 (grow x.padding) (by simp)
            omega
        · have := h2 (grow x.padding) (by simp)
          have := h2 (grow y.padding) (by simp)
          omega
    have hoff : offset L tol ((qs.filter fun z => !z.keepIn).map fun z => (z.poly, grow z.padding)) = none := by
      unfold offset
      rw [direction_outs, hd]
      split
      · next h =>
        have : outs qs = [] := by
          unfold outs
          rw [List.isEmpty_iff, List.map_eq_nil_iff] at h
          rw [h]; rfl
        rw [this] at hd
        cases hd
      · rfl
    dsimp only
    rw [hoff]

/-- **C198, in part.**  If every zone is simple, those without a padding come before those with one, and the library merges what
it is given, then the region is taken up; what is not shown is that this holds in any order, which is false. -/
theorem C198_taken_partial (L : Lib P) (zs : List (Zone P)) (hsimple : ∀ z ∈ zs, L.simple (L.reduce z.poly) = true)
    (hunion : ∀ ps, ps ≠ [] → ∃ out, L.union ps = some out)
    (hsplit : ∃ pre post, outs zs = pre ++ post ∧ (∀ d ∈ pre, d ≤ tol) ∧ ∀ d ∈ post, tol < d) :
    ∃ out, expandMerge L zs = .ok out := by
  unfold expandMerge
  split
  · exact ⟨_, rfl⟩
  · have hprep : ∀ zs : List (Zone P), (∀ z ∈ zs, L.simple (L.reduce z.poly) = true) → ∃ qs, zs.mapM (prepare L) = some qs := by
      intro zs
      induction zs with
      | nil => exact fun _ => ⟨[], rfl⟩
      | cons z zs ih =>
        intro h
        obtain ⟨qs, hq⟩ := ih fun y hy => h y (by simp [hy])
        have hz : ∃ q, prepare L z = some q := by
          unfold prepare
          dsimp only
          rw [h z (by simp)]
          exact ⟨_, rfl⟩
        obtain ⟨q, hz⟩ := hz
        exact ⟨q :: qs, by rw [List.mapM_cons, hz, hq]; rfl⟩
    obtain ⟨qs, hq⟩ := hprep zs hsimple
    rw [hq]
    have hoff : ∀ l : List (P × Rat), (∃ v : Int, 0 ≤ v ∧ direction |tol| (l.map (·.2)) = some v) → ∃ out, offset L tol l = some out := by
      rintro l ⟨v, hv, hd⟩
      unfold offset
      split
      · exact ⟨_, rfl⟩
      · next hl =>
        have hl : l ≠ [] := by simpa using hl
        rw [hd]
        dsimp only
        split
        · obtain ⟨out, ho⟩ := hunion (l.map (·.1)) (by simpa using hl)
          rw [ho]; exact ⟨_, rfl⟩
        · next h0 =>
          have hv1 : v > 0 := by omega
          obtain ⟨out, ho⟩ := hunion (l.flatMap fun z => (if v > 0 then [z.1] else []) ++ if |z.2| < |tol| then [] else L.pieces z.1 z.2) (by
            obtain ⟨z, l, rfl⟩ := List.exists_cons_of_ne_nil hl
            simp [hv1])
          rw [ho]
          dsimp only
          rw [if_pos hv1]
          exact ⟨_, rfl⟩
    have h1 : ∃ v : Int, 0 ≤ v ∧ direction |tol| (((qs.filter fun z => !z.keepIn).map fun z => (z.poly, grow z.padding)).map (·.2)) = some v := by
      rw [direction_outs, outs_prepare hq]
      obtain ⟨pre, post, e, hpre, hpost⟩ := hsplit
      refine ⟨if post = [] then 0 else 1, by split <;> omega, (direction_iff _ _).2 ⟨pre.map grow, post.map grow, by rw [e, List.map_append], ?_, ?_, ?_⟩⟩
      · intro x hx
        obtain ⟨d, hd, rfl⟩ := List.mem_map.1 hx
        rw [grow_sign, if_neg (not_lt.2 (hpre d hd))]
      · intro x hx
        obtain ⟨d, hd, rfl⟩ := List.mem_map.1 hx
        rw [grow_sign, if_pos (hpost d hd), if_neg (List.ne_nil_of_mem hd)]
      · intro h
        rw [if_pos (by simpa using h)]
    have h2 : ∃ v : Int, 0 ≤ v ∧ direction |tol| (((qs.filter fun z => z.keepIn).map fun z => (z.poly, (0 : Rat))).map (·.2)) = some v := by
      refine ⟨0, le_rfl, (direction_iff _ _).2 ⟨_, [], (List.append_nil _).symm, ?_, by simp, fun _ => rfl⟩⟩
      intro x hx
      rw [List.map_map, List.mem_map] at hx
      obtain ⟨_, _, rfl⟩ := hx
      show sign |tol| 0 = 0
      decide +kernel
    obtain ⟨e, he⟩ := hoff _ h1
    obtain ⟨s, hs⟩ := hoff _ h2
    dsimp only
    rw [he, hs]
    exact ⟨_, rfl⟩

/-- What offsetting gives covers each polygon and its padding, if the union covers what is merged. -/
theorem offset_covers {α : Type} (L : Lib P) (at_ : P → Set α) (near : P → Rat → Set α)
    (hunion : ∀ ps out, L.union ps = some out → ∀ p ∈ ps, ∀ x ∈ at_ p, ∃ q ∈ out, tol < L.area q ∧ x ∈ at_ q)
    (hpieces : ∀ p d, tol ≤ d → ∀ x ∈ near p d, ∃ q ∈ L.pieces p d, x ∈ at_ q)
    {l : List (P × Rat)} {out : List P} (hl : ∀ z ∈ l, 0 ≤ z.2) (h : offset L tol l = some out) {p : P} {d : Rat} (hp : (p, d) ∈ l) (x : α) :
    (x ∈ at_ p → ∃ q ∈ out, x ∈ at_ q) ∧ (tol < d → x ∈ near p d → ∃ q ∈ out, x ∈ at_ q) := by
  unfold offset at h
  rw [if_neg (by intro e; rw [List.isEmpty_iff.1 e] at hp; exact List.not_mem_nil hp)] at h
  cases hd : direction |tol| (l.map (·.2)) with
  | none => rw [hd] at h; cases h
  | some v =>
    rw [hd] at h
    dsimp only at h
    obtain ⟨pre, post, e, h1, h2, h3⟩ := (direction_iff _ v).1 hd
    rw [tol_abs] at h1 h2
    have ht : (0 : Rat) < tol := by decide +kernel
    have hfilt : ∀ (ps out : List P), L.union ps = some out → ∀ p ∈ ps, ∀ x ∈ at_ p,
        ∃ q ∈ out.filter fun p => decide (L.area p > |tol|), x ∈ at_ q := by
      intro ps out ho p hp x hx
      obtain ⟨q, q1, q2, q3⟩ := hunion ps out ho p hp x hx
      exact ⟨q, List.mem_filter.2 ⟨q1, by rw [tol_abs]; exact decide_eq_true q2⟩, q3⟩
    by_cases hv : v = 0
    · rw [if_pos hv] at h
      cases ho : L.union (l.map (·.1)) with
      | none => rw [ho] at h; cases h
      | some o =>
        rw [ho] at h
        cases h
        refine ⟨fun hx => hfilt _ _ ho p (List.mem_map.2 ⟨_, hp, rfl⟩) x hx, fun hd' _ => ?_⟩
        exfalso
        have hs : sign tol d = 1 := by unfold sign; rw [if_pos hd']
        have hm : d ∈ pre ++ post := by rw [← e]; exact List.mem_map.2 ⟨_, hp, rfl⟩
        rcases List.mem_append.1 hm with hm | hm
        · have := h1 d hm; omega
        · have := h2 d hm; omega
    · rw [if_neg hv] at h
      have hv1 : v > 0 := by
        cases post with
        | nil => exact absurd (h3 rfl) hv
        | cons w post =>
          have hw := h2 w (by simp)
          have hm : w ∈ l.map (·.2) := by rw [e]; simp
          obtain ⟨z, hz, rfl⟩ := List.mem_map.1 hm
          have := hl z hz
          rcases sign_cases tol z.2 with ⟨s, _⟩ | ⟨s, _⟩ | ⟨s, s2⟩
          · omega
          · omega
          · linarith
      cases ho : L.union (l.flatMap fun z => (if v > 0 then [z.1] else []) ++ if |z.2| < |tol| then [] else L.pieces z.1 z.2) with
      | none => rw [ho] at h; cases h
      | some o =>
        rw [ho] at h
        dsimp only at h
        rw [if_pos hv1] at h
        cases h
        constructor
        · intro hx
          exact hfilt _ _ ho p (List.mem_flatMap.2 ⟨_, hp, by simp [hv1]⟩) x hx
        · intro hd' hx
          obtain ⟨q, q1, q2⟩ := hpieces p d hd'.le x hx
          refine hfilt _ _ ho q (List.mem_flatMap.2 ⟨_, hp, List.mem_append_right _ ?_⟩) x q2
          dsimp only
          rw [if_neg (by rw [tol_abs, abs_of_pos (ht.trans hd')]; exact not_lt.2 hd'.le)]
          exact q1

/-- **C198, in part.**  If the region is taken up, each place in a zone to be kept out of, and each place in its padding, is in a
polygon that is kept once its redundant corners are eliminated, unless it is then no larger than 1 m²; the union has to cover what
is merged (see C196) and the pieces have to cover the padding (see C197). -/
theorem C198_padded_partial {α : Type} (L : Lib P) (at_ : P → Set α) (near : P → Rat → Set α)
    (hunion : ∀ ps out, L.union ps = some out → ∀ p ∈ ps, ∀ x ∈ at_ p, ∃ q ∈ out, tol < L.area q ∧ x ∈ at_ q)
    (hpieces : ∀ p d, tol ≤ d → ∀ x ∈ near p d, ∃ q ∈ L.pieces p d, x ∈ at_ q)
    (zs : List (Zone P)) (out : List (Bool × P)) (h : expandMerge L zs = .ok out) (z : Zone P) (hz : z ∈ zs) :
    ∃ p, (p = L.reduce z.poly ∧ 0 ≤ L.area p ∨ p = L.reverse (L.reduce z.poly) ∧ L.area (L.reduce z.poly) < 0) ∧
      ∀ x, x ∈ at_ p ∨ z.keepIn = false ∧ tol < z.padding ∧ x ∈ near p z.padding →
        ∃ q, x ∈ at_ q ∧ (1 < |L.area (L.reduce q)| → (z.keepIn, L.reduce q) ∈ out) := by
  unfold expandMerge at h
  rw [if_neg (by intro e; rw [List.isEmpty_iff.1 e] at hz; exact List.not_mem_nil hz)] at h
  cases hq : zs.mapM (prepare L) with
  | none => rw [hq] at h; cases h
  | some qs =>
    rw [hq] at h
    dsimp only at h
    have hmem : ∃ q ∈ qs, prepare L z = some q := by
      have hf := mapM_prepare hq
      clear h hq
      induction hf with
      | nil => exact absurd hz List.not_mem_nil
      | cons h1 _ ih =>
        rcases List.mem_cons.1 hz with rfl | hz
        · exact ⟨_, by simp, h1⟩
        · obtain ⟨q, a, b⟩ := ih hz
          exact ⟨q, by simp [a], b⟩
    obtain ⟨q, hqm, hqz⟩ := hmem
    obtain ⟨k1, k2⟩ := prepare_spec hqz
    have hpoly : q.poly = L.reduce z.poly ∧ 0 ≤ L.area q.poly ∨ q.poly = L.reverse (L.reduce z.poly) ∧ L.area (L.reduce z.poly) < 0 := by
      unfold prepare at hqz
      dsimp only at hqz
      split at hqz
      · cases hqz
      · cases hqz
        dsimp only
        split
        · next ha => exact .inr ⟨rfl, ha⟩
        · next ha => exact .inl ⟨rfl, not_lt.1 ha⟩
    refine ⟨q.poly, hpoly, fun x hx => ?_⟩
    cases ho : offset L tol ((qs.filter fun z => !z.keepIn).map fun z => (z.poly, grow z.padding)) with
    | none => rw [ho] at h; cases h
    | some expanded =>
      rw [ho] at h
      dsimp only at h
      cases hi : offset L tol ((qs.filter fun z => z.keepIn).map fun z => (z.poly, 0)) with
      | none => rw [hi] at h; cases h
      | some shrunken =>
        rw [hi] at h
        cases h
        have back : ∀ (k : Bool) (ps : List P) (r : P), r ∈ ps → 1 < |L.area (L.reduce r)| → (k, L.reduce r) ∈ putBack L k ps := by
          intro k ps r hr ha
          exact List.mem_map.2 ⟨_, List.mem_filter.2 ⟨List.mem_map.2 ⟨r, hr, rfl⟩, decide_eq_true ha⟩, rfl⟩
        cases hk : z.keepIn with
        | true =>
          have hx : x ∈ at_ q.poly := by
            rcases hx with hx | ⟨hx, -⟩
            · exact hx
            · rw [hk] at hx; cases hx
          obtain ⟨r, r1, r2⟩ := (offset_covers L at_ near hunion hpieces (by
            intro w hw
            obtain ⟨_, _, rfl⟩ := List.mem_map.1 hw
            exact le_rfl) hi (p := q.poly) (d := 0) (List.mem_map.2 ⟨q, List.mem_filter.2 ⟨hqm, by rw [k1, hk]⟩, rfl⟩) x).1 hx
          exact ⟨r, r2, fun ha => List.mem_append_left _ (back _ _ _ r1 ha)⟩
        | false =>
          obtain ⟨c1, c2⟩ := offset_covers L at_ near hunion hpieces (by
            intro w hw
            obtain ⟨_, _, rfl⟩ := List.mem_map.1 hw
            exact grow_nonneg _) ho (p := q.poly) (d := grow q.padding)
              (List.mem_map.2 ⟨q, List.mem_filter.2 ⟨hqm, by rw [k1, hk]; rfl⟩, rfl⟩) x
          have : ∃ r ∈ expanded, x ∈ at_ r := by
            rcases hx with hx | ⟨-, hp, hx⟩
            · exact c1 hx
            · have ht : (0 : Rat) < tol := by decide +kernel
              have hg : grow q.padding = z.padding := by
                unfold grow; rw [k2, if_neg (by linarith)]
              rw [hg] at c2
              exact c2 hp hx
          obtain ⟨r, r1, r2⟩ := this
          exact ⟨r, r2, fun ha => List.mem_append_right _ (back _ _ _ r1 ha)⟩

/-! ### The service -/

open Visibility in
/-- **C198 is false.**  After a region of which a padded zone comes before one without a padding, the planner plans as if the
region had not been sent: with the zones sent for it before, or not at all. -/
theorem C198_region_violated (env : Env) (L : Lib (List Pt)) (hm : env.merge = mergeZones L) (h : List Msg) (id : Int)
    (ins outs : List Int) (l l' : List Visibility.Zone) (hin : collect (lastZone h) ins [] = some l)
    (hout : collect (lastZone h) outs l = some l') (a b c : List Visibility.Zone) (x y : Visibility.Zone)
    (hl : l' = a ++ x :: (b ++ y :: c)) (hx : x.keepIn = false) (hy : y.keepIn = false)
    (hpx : tol < x.padding) (hpy : y.padding ≤ tol) (r : Int) (zs : List (Bool × List Pt)) :
    RegionIs env (h ++ [.region id ins outs]) r zs ↔ RegionIs env h r zs := by
  have hnone : resolve env (lastZone h) ins outs = none := by
    unfold resolve
    rw [hin]
    dsimp only
    rw [hout]
    dsimp only
    rw [hm]
    unfold mergeZones
    obtain ⟨e, he⟩ := C198_order_violated L (l'.map fun z => ⟨z.keepIn, z.pts, z.padding⟩)
      (a.map fun z => ⟨z.keepIn, z.pts, z.padding⟩) (b.map fun z => ⟨z.keepIn, z.pts, z.padding⟩)
      (c.map fun z => ⟨z.keepIn, z.pts, z.padding⟩) ⟨x.keepIn, x.pts, x.padding⟩ ⟨y.keepIn, y.pts, y.padding⟩
      (by rw [hl]; simp) hx hy hpx hpy
    rw [he]
  rw [regionIs_snoc]
  constructor
  · rintro (⟨i, o, e, hr⟩ | ⟨hr, -⟩)
    · cases e
      rw [hnone] at hr
      cases hr
    · exact hr
  · intro hr
    refine .inr ⟨hr, fun i o e => ?_⟩
    cases e
    exact hnone

/-! ### Cases -/

/-- Intervals of a line, for the cases: a piece is an interval with its padding, and nothing is merged. -/
def line : Lib (Rat × Rat) where
  reduce p := p
  simple p := decide (p.1 < p.2)
  area p := p.2 - p.1
  reverse p := p
  pieces p d := [(p.1 - d, p.2 + d)]
  union ps := if ps.isEmpty then none else some (ps.filter fun p => decide (p.1 + tol < p.2))

/-- A zone of ten metres with a padding of two, and one without. -/
def padded : Zone (Rat × Rat) := ⟨false, (0, 10), 2⟩
/-- The zone without a padding. -/
def bare : Zone (Rat × Rat) := ⟨false, (40, 50), 0⟩

example : expandMerge line [padded, bare] = .error .merging := by decide +kernel
example : expandMerge line [bare, padded] = .ok [(false, (40, 50)), (false, (0, 10)), (false, (-2, 12))] := by decide +kernel

/-- **C198 is false.**  Whether a region is taken up depends on the order of its zones. -/
theorem C198_swapped_violated : ∃ (L : Lib (Rat × Rat)) (zs zs' : List (Zone (Rat × Rat))), zs.Perm zs' ∧
    (∃ out, expandMerge L zs = .ok out) ∧ ∃ e, expandMerge L zs' = .error e :=
  ⟨line, [bare, padded], [padded, bare], .swap _ _ _, ⟨[(false, (40, 50)), (false, (0, 10)), (false, (-2, 12))], by decide +kernel⟩,
    ⟨.merging, by decide +kernel⟩⟩

/-- The hypotheses of `C198_taken_partial` are met. -/
example : ∃ out, expandMerge line [bare, padded, ⟨true, (-100, 100), 7⟩] = .ok out :=
  C198_taken_partial line _ (by decide +kernel) (fun ps h => ⟨_, by unfold line; exact if_neg (by simpa using h)⟩)
    ⟨[0], [2], by decide +kernel, by decide +kernel, by decide +kernel⟩

/-- The contracts of `C198_padded_partial` are met. -/
example (out : List (Bool × (Rat × Rat))) (h : expandMerge line [bare, padded] = .ok out) :
    ∃ p, (p = (0, 10) ∧ 0 ≤ line.area p ∨ p = (0, 10) ∧ line.area (0, 10) < 0) ∧
      ∀ x : Rat, x ∈ {x | p.1 + tol < p.2 ∧ p.1 < x ∧ x < p.2} ∨ false = false ∧ tol < 2 ∧ x ∈ {x | p.1 < p.2 ∧ p.1 - 2 < x ∧ x < p.2 + 2} →
        ∃ q : Rat × Rat, x ∈ {x | q.1 + tol < q.2 ∧ q.1 < x ∧ x < q.2} ∧ (1 < |line.area q| → (false, q) ∈ out) := by
  have ht : (0 : Rat) < tol := by decide +kernel
  refine C198_padded_partial line (fun p => {x | p.1 + tol < p.2 ∧ p.1 < x ∧ x < p.2})
    (fun p d => {x | p.1 < p.2 ∧ p.1 - d < x ∧ x < p.2 + d}) ?_ ?_ [bare, padded] out h padded (by simp)
  · intro ps o ho p hp x hx
    have : ps ≠ [] := List.ne_nil_of_mem hp
    unfold line at ho
    dsimp only at ho
    rw [if_neg (by simpa using this)] at ho
    cases ho
    exact ⟨p, List.mem_filter.2 ⟨hp, decide_eq_true hx.1⟩, by show tol < p.2 - p.1; linarith [hx.1], hx⟩
  · intro p d hd x hx
    exact ⟨_, List.mem_singleton.2 rfl, by show p.1 - d + tol < p.2 + d; linarith [hx.1], hx.2.1, hx.2.2⟩

open Visibility in
/-- The hypotheses of `C198_region_violated` are met: the region is not known. -/
example (L : Lib (List Pt)) (r : Int) (zs : List (Bool × List Pt)) :
    let env : Env := { plain with merge := mergeZones L }
    let h : List Msg := [.zone ⟨1, false, [⟨0, 0⟩, ⟨10, 0⟩, ⟨0, 10⟩], 5⟩ true, .zone ⟨2, false, [⟨40, 0⟩, ⟨50, 0⟩, ⟨40, 10⟩], 0⟩ true]
    RegionIs env (h ++ [.region 5 [] [1, 2]]) r zs ↔ RegionIs env h r zs :=
  C198_region_violated _ L rfl _ 5 [] [1, 2] [] [⟨1, false, [⟨0, 0⟩, ⟨10, 0⟩, ⟨0, 10⟩], 5⟩, ⟨2, false, [⟨40, 0⟩, ⟨50, 0⟩, ⟨40, 10⟩], 0⟩]
    rfl (by decide +kernel) [] [] [] _ _ rfl rfl rfl (by decide +kernel) (by decide +kernel) r zs

end Verif.Visilib.Zones
