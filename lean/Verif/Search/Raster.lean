import Verif.Search.Lanes

/-!
# The lanes of a search (C138)
-/

namespace Verif.Search

/-- The corners of the boundary in the frame of the lanes. -/
noncomputable abbrev cornersOf (k : Kind) (a : Area) (h : ℝ) : List Pos :=
  (boundary k a).map (turnIn (centre a) (axis k a h))

/-- The least and the greatest distance of the boundary across the lanes. -/
noncomputable abbrev loOf (k : Kind) (a : Area) (h : ℝ) : ℝ := lowest (·.e) (cornersOf k a h)
/-- Not in the code: the highest coordinate of the corners. -/
noncomputable abbrev hiOf (k : Kind) (a : Area) (h : ℝ) : ℝ := highest (·.e) (cornersOf k a h)

/-- The loop of the service, as `plan` runs it. -/
noncomputable abbrev scanOf (k : Kind) (a : Area) (h s lead trail : ℝ) (rounds : ℕ) :
    Option (List Leg × Bool) :=
  scan (cornersOf k a h) (loOf k a h) (hiOf k a h) (lowest (·.n) (cornersOf k a h) - 100000)
    (highest (·.n) (cornersOf k a h) + 100000) (laneOver k s) lead trail rounds
    (firstLane k (loOf k a h) (hiOf k a h) s) (firstUp k)

/-- Put a leg back in the frame of the ground. -/
noncomputable abbrev place (k : Kind) (a : Area) (h : ℝ) (l : Leg) : Leg :=
  { l with start := turnOut (centre a) (axis k a h) l.start
           stop := turnOut (centre a) (axis k a h) l.stop }

theorem plan_inv {k : Kind} {a : Area} {h s lead trail : ℝ} {legs : List Leg} {good : Bool}
    (hp : plan k a h s lead trail = .ok (legs, good)) :
    (a = .other ∧ legs = [] ∧ good = false) ∨
    (boundary k a ≠ [] ∧ ∃ ls, scanOf k a h s lead trail
        (⌈(hiOf k a h - loOf k a h) / s⌉₊ + 1) = some (ls, good) ∧ legs = ls.map (place k a h)) := by
  cases a with
  | other =>
      simp only [plan, Outcome.ok.injEq, Prod.mk.injEq] at hp
      exact .inl ⟨rfl, hp.1.symm, hp.2.symm⟩
  | _ =>
      right
      simp only [plan] at hp
      split at hp
      · cases hp
      case isFalse hne =>
        split at hp
        case h_1 ls g hsc =>
          simp only [Outcome.ok.injEq, Prod.mk.injEq] at hp
          obtain ⟨hp1, rfl⟩ := hp
          exact ⟨fun h0 => hne (by rw [h0]; rfl), ls, hsc, hp1.symm⟩
        case h_2 => cases hp

theorem plan_of_scan {k : Kind} {a : Area} {h s lead trail : ℝ} (ha : a ≠ .other)
    (hb : boundary k a ≠ []) {ls : List Leg} {good : Bool}
    (hsc : scanOf k a h s lead trail (⌈(hiOf k a h - loOf k a h) / s⌉₊ + 1) = some (ls, good)) :
    plan k a h s lead trail = .ok (ls.map (place k a h), good) := by
  have hne : ¬ (boundary k a).map (turnIn (centre a) (axis k a h)) = [] := by simpa using hb
  cases a with
  | other => exact absurd rfl ha
  | _ =>
      simp only [plan]
      rw [if_neg hne]
      rw [show scan _ _ _ _ _ _ _ _ _ _ _ = _ from hsc]

theorem extremes_le {k : Kind} {a : Area} {h : ℝ} : loOf k a h ≤ hiOf k a h := by
  by_cases hb : cornersOf k a h = []
  · simp only [loOf, hiOf, hb, lowest, highest]; exact le_refl _
  · obtain ⟨p, hp, -⟩ := lowest_mem (f := (·.e)) hb
    exact (lowest_le hp).trans (le_highest hp)

theorem bounds_n {vs : List Pos} : ∀ v ∈ vs,
    lowest (·.n) vs - 100000 < v.n ∧ v.n < highest (·.n) vs + 100000 := fun v hv => by
  have h1 := lowest_le (f := (·.n)) hv
  have h2 := le_highest (f := (·.n)) hv
  constructor <;> linarith

theorem across_place (c : Pos) (ax : ℝ) (q : Pos) : across ax c (turnOut c ax q) = q.e :=
  congrArg Pos.e (turnIn_turnOut c ax q)

theorem along_place (c : Pos) (ax : ℝ) (a b : Pos) :
    along ax (turnOut c ax a) (turnOut c ax b) = b.n - a.n := by
  rw [along_turn, turnIn_turnOut]

/-- What a leg is, whichever way it goes. -/
theorem leg_facts {p q : Pos} {up : Bool} {lead trail x : ℝ} (hlt : trail ≤ lead)
    (hp : |p.e - x| ≤ 1 / 2) (hq : |q.e - x| ≤ 1 / 2) :
    |(leg p q up lead trail).start.e - x| ≤ 1 / 2 ∧ |(leg p q up lead trail).stop.e - x| ≤ 1 / 2 ∧
    (leg p q up lead trail).up = up ∧
    lead - trail ≤ (if up then 1 else -1) *
      ((leg p q up lead trail).stop.n - (leg p q up lead trail).start.n) := by
  by_cases h : p.n < q.n
  · cases up <;> simp only [leg, if_pos h, if_true, Bool.false_eq_true, if_false] <;>
      refine ⟨by assumption, by assumption, trivial, by linarith⟩
  · cases up <;> simp only [leg, if_neg h, if_true, Bool.false_eq_true, if_false] <;>
      refine ⟨by assumption, by assumption, trivial, by linarith⟩

theorem leg_up {p q : Pos} {up : Bool} {lead trail : ℝ} : (leg p q up lead trail).up = up := by
  cases up <;> rfl

/-- The lane number `i`. -/
noncomputable abbrev laneAt (k : Kind) (a : Area) (h s : ℝ) (i : ℕ) : ℝ :=
  firstLane k (loOf k a h) (hiOf k a h) s + i * laneOver k s

/-- **C138.**  The computation of the legs ends, with an outcome, for every area that
has a boundary and every positive distance between lanes; for an area of another kind
it ends with no legs. -/
theorem C138_ends {k : Kind} {a : Area} {h s lead trail : ℝ} (hs : 0 < s)
    (hb : a = .other ∨ boundary k a ≠ []) :
    ∃ legs good, plan k a h s lead trail = .ok (legs, good) ∧
      (a = .other → legs = [] ∧ good = false) := by
  by_cases ha : a = .other
  · subst ha; exact ⟨[], false, rfl, fun _ => ⟨rfl, rfl⟩⟩
  · have hb' := hb.resolve_left ha
    obtain ⟨⟨ls, good⟩, hr⟩ := scan_some (corners := cornersOf k a h)
      (south := lowest (·.n) (cornersOf k a h) - 100000)
      (north := highest (·.n) (cornersOf k a h) + 100000) (lead := lead) (trail := trail)
      (up := firstUp k)
      (rounds_enough (k := k) (lo := loOf k a h) (hi := hiOf k a h) hs extremes_le)
    exact ⟨_, good, plan_of_scan ha hb' hr, fun h0 => absurd h0 ha⟩

theorem abs_laneOver {k : Kind} {s : ℝ} (hs : 0 < s) : |laneOver k s| = s := by
  cases k with
  | cmasi => exact abs_of_pos hs
  | angled o =>
      simp only [laneOver]; split
      · exact abs_of_pos hs
      · rw [abs_neg]; exact abs_of_pos hs

/-- **C138.**  The legs are straight and parallel to the axis, the lanes are the lane
spacing apart and run between points of the boundary, and the legs go to and fro; each
is long enough for the sensor to pass over its ends.  Positions across the axis are
exact up to half a metre. -/
theorem C138_lanes {k : Kind} {a : Area} {h s lead trail : ℝ} {legs : List Leg} {good : Bool}
    (hs : 0 < s) (hlt : trail ≤ lead) (hp : plan k a h s lead trail = .ok (legs, good)) :
    ∃ x₀ δ : ℝ, |δ| = s ∧ ∀ i (hi : i < legs.length),
      |across (axis k a h) (centre a) legs[i].start - (x₀ + i * δ)| ≤ 1 / 2 ∧
      |across (axis k a h) (centre a) legs[i].stop - (x₀ + i * δ)| ≤ 1 / 2 ∧
      (∃ b ∈ boundary k a, across (axis k a h) (centre a) b < x₀ + i * δ) ∧
      (∃ b ∈ boundary k a, x₀ + i * δ < across (axis k a h) (centre a) b) ∧
      (∀ hi' : i + 1 < legs.length, legs[i + 1].up = !legs[i].up) ∧
      lead - trail ≤
        along (if legs[i].up then axis k a h else axis k a h + Real.pi) legs[i].start legs[i].stop := by
  refine ⟨firstLane k (loOf k a h) (hiOf k a h) s, laneOver k s, ?_, ?_⟩
  · exact abs_laneOver hs
  rcases plan_inv hp with ⟨-, rfl, -⟩ | ⟨hb, ls, hsc, rfl⟩
  · intro i hi; simp at hi
  intro i hi
  have hi1 : i < ls.length := by simpa using hi
  have hsp := (scan_spec hsc).1
  have up : ∀ j (hj : j < ls.length), ls[j].up = upAt (firstUp k) j := by
    intro j hj
    obtain ⟨-, p, q, ps, hh, he⟩ := hsp j hj
    rw [he]
    exact leg_up
  obtain ⟨hg, p, q, ps, hh, he⟩ := hsp i hi1
  have hpm : |p.e - laneAt k a h s i| ≤ 1 / 2 := hits_lane (by rw [hh]; simp)
  have hqm : |((q :: ps).getLast (by simp)).e - laneAt k a h s i| ≤ 1 / 2 :=
    hits_lane (by rw [hh]; exact List.mem_cons_of_mem _ (List.getLast_mem _))
  have hf := leg_facts (up := upAt (firstUp k) i) (lead := lead) (trail := trail) hlt hpm hqm
  have hcne : cornersOf k a h ≠ [] := by simpa using hb
  have hw := lane_within hs hg
  simp only [List.getElem_map, across_place]
  rw [he]
  refine ⟨hf.1, hf.2.1, ?_, ?_, ?_, ?_⟩
  · obtain ⟨v, hv, hve⟩ := lowest_mem (f := (·.e)) hcne
    obtain ⟨b, hbm, rfl⟩ := List.mem_map.1 hv
    exact ⟨b, hbm, lt_of_eq_of_lt hve.symm hw.1⟩
  · obtain ⟨v, hv, hve⟩ := highest_mem (f := (·.e)) hcne
    obtain ⟨b, hbm, rfl⟩ := List.mem_map.1 hv
    exact ⟨b, hbm, lt_of_lt_of_eq hw.2 hve⟩
  · intro hi'
    rw [hf.2.2.1, up (i + 1) (by simpa using hi'), ← upAt_succ]
    simp only [upAt]; split <;> rfl
  · rw [hf.2.2.1]
    have h4 := hf.2.2.2
    cases hu : upAt (firstUp k) i with
    | true =>
        rw [hu] at h4
        simp only [if_true, one_mul] at h4 ⊢
        rw [along_place]; exact h4
    | false =>
        rw [hu] at h4
        simp only [Bool.false_eq_true, if_false] at h4 ⊢
        rw [along_back, along_place]; linarith

theorem onLanes {k : Kind} {a : Area} {h s lead trail : ℝ} {legs : List Leg} {good : Bool}
    (hs : 0 < s) (hlt : trail ≤ lead) (hp : plan k a h s lead trail = .ok (legs, good)) :
    OnLanes (axis k a h) (centre a) s legs (laneAt k a h s) := by
  refine ⟨⟨laneOver k s, abs_laneOver hs, fun i => ?_⟩, ?_⟩
  · simp only [laneAt]; push_cast; ring
  rcases plan_inv hp with ⟨-, rfl, -⟩ | ⟨hb, ls, hsc, rfl⟩
  · intro i hi; simp at hi
  intro i hi
  obtain ⟨hg, p, q, ps, hh, he⟩ := (scan_spec hsc).1 i (by simpa using hi)
  have hpm : |p.e - laneAt k a h s i| ≤ 1 / 2 := hits_lane (by rw [hh]; simp)
  have hqm : |((q :: ps).getLast (by simp)).e - laneAt k a h s i| ≤ 1 / 2 :=
    hits_lane (by rw [hh]; exact List.mem_cons_of_mem _ (List.getLast_mem _))
  have hf := leg_facts (up := upAt (firstUp k) i) (lead := lead) (trail := trail) hlt hpm hqm
  simp only [List.getElem_map, across_place]
  rw [he]
  exact ⟨hf.1, hf.2.1⟩

theorem succeeds {k : Kind} {a : Area} {h s lead trail : ℝ} {legs : List Leg} {good : Bool}
    (hs : 0 < s) (ha : a ≠ .other) (hp : plan k a h s lead trail = .ok (legs, good))
    (hv : ∀ b ∈ boundary k a, ∀ i : ℕ, across (axis k a h) (centre a) b ≠ laneAt k a h s i) :
    good = true := by
  rcases plan_inv hp with ⟨h0, -, -⟩ | ⟨hb, ls, hsc, rfl⟩
  · exact absurd h0 ha
  by_contra hgood
  obtain ⟨hg, hl⟩ := (scan_spec hsc).2.2 (by simpa using hgood)
  have hcne : cornersOf k a h ≠ [] := by simpa using hb
  have hw := lane_within hs hg
  obtain ⟨p, q, ps, hh⟩ := hits_two (vs := cornersOf k a h) (x := laneAt k a h s ls.length)
    (south := lowest (·.n) (cornersOf k a h) - 100000)
    (north := highest (·.n) (cornersOf k a h) + 100000)
    (fun v hm => by
      obtain ⟨b, hbm, rfl⟩ := List.mem_map.1 hm
      exact hv b hbm ls.length)
    bounds_n
    (by obtain ⟨v, hvm, hve⟩ := lowest_mem (f := (·.e)) hcne
        exact ⟨v, hvm, lt_of_eq_of_lt hve.symm hw.1⟩)
    (by obtain ⟨v, hvm, hve⟩ := highest_mem (f := (·.e)) hcne
        exact ⟨v, hvm, lt_of_lt_of_eq hw.2 hve⟩)
  rw [hh] at hl
  simp at hl

/-- **C138.**  When no lane passes exactly through a corner of the boundary, no lane
fails: the computation succeeds. -/
theorem C138_succeeds {k : Kind} {a : Area} {h s lead trail : ℝ} {legs : List Leg} {good : Bool}
    (hs : 0 < s) (hlt : trail ≤ lead) (ha : a ≠ .other)
    (hp : plan k a h s lead trail = .ok (legs, good)) :
    ∃ x, OnLanes (axis k a h) (centre a) s legs x ∧
      ((∀ b ∈ boundary k a, ∀ i : ℕ, across (axis k a h) (centre a) b ≠ x i) → good = true) :=
  ⟨_, onLanes hs hlt hp, succeeds hs ha hp⟩

/-- **C138.**  The four options of an angled search start at its four corners: the
first lane is half a lane spacing inside one side or the other, and is flown up or
down.  (When the lanes are much wider than the area there is one, in the middle.) -/
theorem C138_corners {o : ℕ} {a : Area} {h s lead trail lo hi : ℝ} {l : Leg} {ls : List Leg}
    {good : Bool} (hp : plan (.angled o) a h s lead trail = .ok (l :: ls, good))
    (hlt : trail ≤ lead)
    (hlo : (∀ b ∈ boundary (.angled o) a, lo ≤ across (axis (.angled o) a h) (centre a) b) ∧
      ∃ b ∈ boundary (.angled o) a, across (axis (.angled o) a h) (centre a) b = lo)
    (hhi : (∀ b ∈ boundary (.angled o) a, across (axis (.angled o) a h) (centre a) b ≤ hi) ∧
      ∃ b ∈ boundary (.angled o) a, across (axis (.angled o) a h) (centre a) b = hi) :
    let x := across (axis (.angled o) a h) (centre a) l.start
    (s ≤ 1.1 * (hi - lo) →
      (o % 4 = 1 → |x - (lo + s / 2)| ≤ 1 / 2 ∧ l.up = true) ∧
      (o % 4 = 2 → |x - (hi - s / 2)| ≤ 1 / 2 ∧ l.up = true) ∧
      (o % 4 = 3 → |x - (lo + s / 2)| ≤ 1 / 2 ∧ l.up = false) ∧
      (o % 4 = 0 → |x - (hi - s / 2)| ≤ 1 / 2 ∧ l.up = false)) ∧
    (1.1 * (hi - lo) < s → |x - (lo + hi) / 2| ≤ 1 / 2) := by
  have elo : loOf (.angled o) a h = lo := by
    obtain ⟨b, hb, he⟩ := hlo.2
    have hne : cornersOf (.angled o) a h ≠ [] := by
      intro h0
      have : boundary (.angled o) a = [] := by simpa using h0
      rw [this] at hb; simp at hb
    apply le_antisymm
    · rw [← he]; exact lowest_le (f := (·.e)) (vs := cornersOf (.angled o) a h) (List.mem_map_of_mem hb)
    · obtain ⟨v, hv, hve⟩ := lowest_mem (f := (·.e)) hne
      obtain ⟨b', hb', rfl⟩ := List.mem_map.1 hv
      have hve' : loOf (.angled o) a h = across (axis (.angled o) a h) (centre a) b' := hve
      rw [hve']; exact hlo.1 b' hb'
  have ehi : hiOf (.angled o) a h = hi := by
    obtain ⟨b, hb, he⟩ := hhi.2
    have hne : cornersOf (.angled o) a h ≠ [] := by
      intro h0
      have : boundary (.angled o) a = [] := by simpa using h0
      rw [this] at hb; simp at hb
    apply le_antisymm
    · obtain ⟨v, hv, hve⟩ := highest_mem (f := (·.e)) hne
      obtain ⟨b', hb', rfl⟩ := List.mem_map.1 hv
      have hve' : hiOf (.angled o) a h = across (axis (.angled o) a h) (centre a) b' := hve
      rw [hve']; exact hhi.1 b' hb'
    · rw [← he]; exact le_highest (f := (·.e)) (vs := cornersOf (.angled o) a h) (List.mem_map_of_mem hb)
  rcases plan_inv hp with ⟨-, h0, -⟩ | ⟨hb, ls', hsc, hmap⟩
  · cases h0
  match ls', hmap with
  | l' :: ls', hmap =>
    simp only [List.map_cons, List.cons.injEq] at hmap
    obtain ⟨rfl, rfl⟩ := hmap
    obtain ⟨-, p, q, ps, hh, he⟩ := (scan_spec hsc).1 0 (by simp)
    have hpm := hits_lane (p := p) (by rw [hh]; simp)
    have hqm := hits_lane (p := (q :: ps).getLast (by simp))
      (by rw [hh]; exact List.mem_cons_of_mem _ (List.getLast_mem _))
    simp only [List.getElem_cons_zero] at he
    have hf := leg_facts (up := upAt (firstUp (.angled o)) 0) (lead := lead) (trail := trail)
      hlt hpm hqm
    rw [← he] at hf
    simp only [Nat.cast_zero, zero_mul, add_zero] at hf
    simp only [across_place]
    rw [elo, ehi] at hf
    have hup : l'.up = firstUp (.angled o) := by rw [hf.2.2.1]; rfl
    refine ⟨fun hw => ⟨?_, ?_, ?_, ?_⟩, fun hw => ?_⟩
    all_goals simp only [firstLane] at hf
    · intro ho
      rw [if_neg (by linarith), if_pos (.inl ho)] at hf
      exact ⟨hf.1, by rw [hup]; simp [firstUp, ho]⟩
    · intro ho
      rw [if_neg (by linarith), if_neg (by omega)] at hf
      exact ⟨hf.1, by rw [hup]; simp [firstUp, ho]⟩
    · intro ho
      rw [if_neg (by linarith), if_pos (.inr ho)] at hf
      exact ⟨hf.1, by rw [hup]; simp [firstUp, ho]⟩
    · intro ho
      rw [if_neg (by linarith), if_neg (by omega)] at hf
      exact ⟨hf.1, by rw [hup]; simp [firstUp, ho]⟩
    · rw [if_pos (by linarith)] at hf
      have : (lo + hi) / 2 = lo + (hi - lo) / 2 := by ring
      rw [this]; exact hf.1

/-- **C138.**  What is searched: a circle as a polygon of 36 equal sides with its corners
on the circle, a polygon as it is, a rectangle by its four corners, turned about its
centre by the angled searches; and in which direction: that of the option, but the
angled searches take that of a rectangle. -/
theorem C138_area {k : Kind} {c : Pos} {r w ht rot : ℝ} {vs : List Pos} :
    ((boundary k (.circle c r)).length = 36 ∧
      (∀ b ∈ boundary k (.circle c r), (b.n - c.n) ^ 2 + (b.e - c.e) ^ 2 = r ^ 2) ∧
      ∀ i (hi : i + 1 < 36) b b', (boundary k (.circle c r))[i]? = some b →
        (boundary k (.circle c r))[i + 1]? = some b' →
        (b'.n - b.n) ^ 2 + (b'.e - b.e) ^ 2 = (2 * r * Real.sin (Real.pi / 36)) ^ 2) ∧
    boundary k (.polygon vs) = vs ∧
    ((∃ o, k = .angled o) → ∀ x y : ℝ, (|x| = ht / 2 ∧ |y| = w / 2 → ∃ b ∈ boundary k (.rectangle c w ht rot),
        along (rot * (Real.pi / 180)) c b = x ∧ across (rot * (Real.pi / 180)) c b = y)) ∧
    (k = .cmasi → ∀ x y : ℝ, (|x| = ht / 2 ∧ |y| = w / 2 → ∃ b ∈ boundary k (.rectangle c w ht rot),
        b.n - c.n = x ∧ b.e - c.e = y)) ∧
    (boundary k (.rectangle c w ht rot)).length = 4 ∧
    (∀ a h, ((∃ o c w ht rot, k = .angled o ∧ a = .rectangle c w ht rot ∧ axis k a h = rot * (Real.pi / 180)) ∨
      ∃ n : ℤ, axis k a h = h + n * (2 * Real.pi))) := by
  refine ⟨⟨by simp [boundary], ?_, ?_⟩, rfl, ?_, ?_, ?_, ?_⟩
  · intro b hb
    simp only [boundary, List.mem_map] at hb
    obtain ⟨i, -, rfl⟩ := hb
    have := Real.sin_sq_add_cos_sq (i * (Real.pi / 18))
    simp only [add_sub_cancel_right]
    linear_combination r ^ 2 * this
  · intro i hi b b' hb hb'
    simp only [boundary, List.getElem?_map, List.getElem?_range hi,
      List.getElem?_range (Nat.lt_of_succ_lt hi), Option.map_some, Option.some.injEq] at hb hb'
    subst hb hb'
    have e : ((i + 1 : ℕ) : ℝ) * (Real.pi / 18) = i * (Real.pi / 18) + Real.pi / 18 := by push_cast; ring
    have e2 : Real.pi / 18 = 2 * (Real.pi / 36) := by ring
    have h1 := Real.sin_sq_add_cos_sq (i * (Real.pi / 18))
    have h2 := Real.sin_sq_add_cos_sq (Real.pi / 36)
    simp only [e]
    rw [Real.sin_add, Real.cos_add]
    have c2 : Real.cos (Real.pi / 18) = 1 - 2 * Real.sin (Real.pi / 36) ^ 2 := by
      rw [e2, Real.cos_two_mul]; linear_combination 2 * h2
    have h3 := Real.sin_sq_add_cos_sq (Real.pi / 18)
    generalize Real.sin (i * (Real.pi / 18)) = A at *
    generalize Real.cos (i * (Real.pi / 18)) = B at *
    generalize Real.sin (Real.pi / 18) = C at *
    generalize Real.cos (Real.pi / 18) = D at *
    generalize Real.sin (Real.pi / 36) = E at *
    linear_combination r ^ 2 * (C ^ 2 + (D - 1) ^ 2) * h1 + r ^ 2 * h3 - 2 * r ^ 2 * c2
  · rintro ⟨o, rfl⟩ x y ⟨hx, hy⟩
    have hs := Real.sin_sq_add_cos_sq (rot * (Real.pi / 180))
    have hx' : x = ht / 2 ∨ x = -(ht / 2) := by
      rcases abs_choice x with h | h <;> rw [h] at hx
      · exact .inl hx
      · exact .inr (by linarith)
    have hy' : y = w / 2 ∨ y = -(w / 2) := by
      rcases abs_choice y with h | h <;> rw [h] at hy
      · exact .inl hy
      · exact .inr (by linarith)
    simp only [boundary, List.mem_cons, List.not_mem_nil, or_false, exists_eq_or_imp, exists_eq_left, along, across]
    generalize Real.sin (rot * (Real.pi / 180)) = S at *
    generalize Real.cos (rot * (Real.pi / 180)) = C at *
    rcases hx' with rfl | rfl <;> rcases hy' with rfl | rfl
    · refine .inr (.inl ⟨?_, ?_⟩)
      · linear_combination (ht / 2) * hs
      · linear_combination (w / 2) * hs
    · refine .inl ⟨?_, ?_⟩
      · linear_combination (ht / 2) * hs
      · linear_combination (-(w / 2)) * hs
    · refine .inr (.inr (.inl ⟨?_, ?_⟩))
      · linear_combination (-(ht / 2)) * hs
      · linear_combination (w / 2) * hs
    · refine .inr (.inr (.inr ⟨?_, ?_⟩))
      · linear_combination (-(ht / 2)) * hs
      · linear_combination (-(w / 2)) * hs
  · rintro rfl x y ⟨hx, hy⟩
    have hx' : x = ht / 2 ∨ x = -(ht / 2) := by
      rcases abs_choice x with h | h <;> rw [h] at hx
      · exact .inl hx
      · exact .inr (by linarith)
    have hy' : y = w / 2 ∨ y = -(w / 2) := by
      rcases abs_choice y with h | h <;> rw [h] at hy
      · exact .inl hy
      · exact .inr (by linarith)
    simp only [boundary, List.mem_cons, List.not_mem_nil, or_false, exists_eq_or_imp, exists_eq_left]
    rcases hx' with rfl | rfl <;> rcases hy' with rfl | rfl
    · exact .inr (.inl ⟨by ring, by ring⟩)
    · exact .inl ⟨by ring, by ring⟩
    · exact .inr (.inr (.inl ⟨by ring, by ring⟩))
    · exact .inr (.inr (.inr ⟨by ring, by ring⟩))
  · cases k <;> rfl
  · intro a h
    have hw : ∃ n : ℤ, wrapRad h = h + n * (2 * Real.pi) :=
      ⟨-⌊h / (2 * Real.pi)⌋, by unfold wrapRad; push_cast; ring⟩
    cases k with
    | cmasi => exact .inr (by cases a <;> exact hw)
    | angled o =>
        cases a with
        | rectangle c w ht rot => exact .inl ⟨o, c, w, ht, rot, rfl, rfl, rfl⟩
        | circle => exact .inr hw
        | polygon => exact .inr hw
        | other => exact .inr hw

end Verif.Search
