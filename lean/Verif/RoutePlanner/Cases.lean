/-
C112, C113, C114: cases, with a simple library; and histories after which the
zones are not kept to.
-/
import Verif.RoutePlanner.Zones

namespace Verif.RoutePlanner

open Verif.Visibility (Pt toInt64)

/-! ### A library of boxes -/

/-- In the box around a polygon. -/
def inBox (p : Poly) (x : Pt) : Bool :=
  p.any (fun a => a.n ≤ x.n) && p.any (fun a => x.n ≤ a.n) &&
    p.any (fun a => a.e ≤ x.e) && p.any (fun a => x.e ≤ a.e)

/-- Each polygon is taken for the box around it; a way is found only when all holes
are north or south of both ends. -/
def boxes : Lib where
  reduce := id
  simple := fun _ => true
  standard := id
  merge := fun ps => some (ps.map (·.1))
  valid := fun _ => true
  inEnv := fun e x => match e with
    | [] => false
    | p :: hs => inBox p x && hs.all fun h => !inBox h x
  path := fun e p q =>
    if (e.drop 1).all fun h => (h.all fun a => p.n < a.n && q.n < a.n) ||
      (h.all fun a => a.n < p.n && a.n < q.n) then [p, q] else []
  length := fun ps => ((ps.zip (ps.drop 1)).map fun s =>
    let d := s.2.n - s.1.n
    if d < 0 then -d else d).sum
  dist := fun p q => let d := q.n - p.n; if d < 0 then -d else d

theorem between_lt {a b k m : Rat} (h₀ : 0 ≤ k) (h₁ : k ≤ 1) (ha : a < m) (hb : b < m) :
    a + k * (b - a) < m := by
  have e : m - (a + k * (b - a)) = (1 - k) * (m - a) + k * (m - b) := by grind
  have p₁ : 0 ≤ (1 - k) * (m - a) := Rat.mul_nonneg (by grind) (by grind)
  by_cases hk : k = 0
  · subst hk; grind
  · have p₂ : 0 < k * (m - b) := Rat.mul_pos (by grind) (by grind)
    grind

theorem between_gt {a b k m : Rat} (h₀ : 0 ≤ k) (h₁ : k ≤ 1) (ha : m < a) (hb : m < b) :
    m < a + k * (b - a) := by
  have := between_lt (a := -a) (b := -b) (m := -m) h₀ h₁ (by grind) (by grind)
  grind

theorem between_le {a b k m : Rat} (h₀ : 0 ≤ k) (h₁ : k ≤ 1) (ha : a ≤ m) (hb : b ≤ m) :
    a + k * (b - a) ≤ m := by
  have e : m - (a + k * (b - a)) = (1 - k) * (m - a) + k * (m - b) := by grind
  have p₁ : 0 ≤ (1 - k) * (m - a) := Rat.mul_nonneg (by grind) (by grind)
  have p₂ : 0 ≤ k * (m - b) := Rat.mul_nonneg (by grind) (by grind)
  grind

theorem between_ge {a b k m : Rat} (h₀ : 0 ≤ k) (h₁ : k ≤ 1) (ha : m ≤ a) (hb : m ≤ b) :
    m ≤ a + k * (b - a) := by
  have := between_le (a := -a) (b := -b) (m := -m) h₀ h₁ (by grind) (by grind)
  grind

theorem any_between {p : Poly} {f : Pt → Rat} {a b k : Rat} (h₀ : 0 ≤ k) (h₁ : k ≤ 1)
    (ha : ∃ c ∈ p, f c ≤ a) (hb : ∃ c ∈ p, f c ≤ b) : ∃ c ∈ p, f c ≤ a + k * (b - a) := by
  obtain ⟨c, hc, hca⟩ := ha
  obtain ⟨d, hd, hdb⟩ := hb
  rcases Rat.le_total (a := f c) (b := f d) with h | h
  · exact ⟨c, hc, between_ge h₀ h₁ hca (by grind)⟩
  · exact ⟨d, hd, between_ge h₀ h₁ (by grind) hdb⟩

theorem any_between' {p : Poly} {f : Pt → Rat} {a b k : Rat} (h₀ : 0 ≤ k) (h₁ : k ≤ 1)
    (ha : ∃ c ∈ p, a ≤ f c) (hb : ∃ c ∈ p, b ≤ f c) : ∃ c ∈ p, a + k * (b - a) ≤ f c := by
  obtain ⟨c, hc, hca⟩ := ha
  obtain ⟨d, hd, hdb⟩ := hb
  rcases Rat.le_total (a := f c) (b := f d) with h | h
  · exact ⟨d, hd, between_le h₀ h₁ (by grind) hdb⟩
  · exact ⟨c, hc, between_le h₀ h₁ hca (by grind)⟩

theorem inBox_iff {p : Poly} {x : Pt} : inBox p x = true ↔ (∃ a ∈ p, a.n ≤ x.n) ∧
    (∃ a ∈ p, x.n ≤ a.n) ∧ (∃ a ∈ p, a.e ≤ x.e) ∧ ∃ a ∈ p, x.e ≤ a.e := by
  simp [inBox, and_assoc]

theorem inBox_rev (p : Poly) (x : Pt) : inBox (rev p) x = true ↔ inBox p x = true := by
  have : ∀ a, a ∈ rev p ↔ a ∈ p := by
    intro a
    unfold rev
    split
    · rw [List.mem_append, List.mem_reverse, ← List.mem_append, List.take_append_drop]
    · rfl
  simp only [inBox_iff, this]

/-- The library of boxes is a library as C114 asks for. -/
theorem boxes_contract : Contract boxes (fun p x => inBox p x = true)
    (fun p x => inBox p x = true) (fun _ => True) (fun x y => y = x) where
  outer := by intro p hs x _ h; simp [boxes] at h; exact h.1
  hole := by
    intro p hs x k _ h hk hin
    simp [boxes] at h
    rw [h.2 k hk] at hin; cases hin
  way := by
    intro e p q _ hp hq i hi x hx
    refine ⟨x, rfl, ?_⟩
    cases e with
    | nil => simp [boxes] at hp
    | cons o hs =>
      have hpath : (boxes.path (o :: hs) p q) = [p, q] ∧ ∀ h ∈ hs,
          (∀ a ∈ h, p.n < a.n ∧ q.n < a.n) ∨ (∀ a ∈ h, a.n < p.n ∧ a.n < q.n) := by
        by_cases k : ∀ h ∈ hs,
          (∀ a ∈ h, p.n < a.n ∧ q.n < a.n) ∨ (∀ a ∈ h, a.n < p.n ∧ a.n < q.n)
        · refine ⟨?_, k⟩
          unfold boxes
          dsimp only
          rw [if_pos]
          simpa using k
        · have : boxes.path (o :: hs) p q = [] := by
            unfold boxes
            dsimp only
            rw [if_neg]
            intro k'
            exact k (by simpa using k')
          rw [this] at hi
          simp at hi
      obtain ⟨hpath, hside⟩ := hpath
      simp only [hpath, List.length_cons, List.length_nil] at hi hx
      obtain rfl : i = 0 := by omega
      obtain ⟨k, h₀, h₁, hn, he⟩ := hx
      simp only [List.getElem_cons_zero, List.getElem_cons_succ] at hn he
      simp only [boxes, Bool.and_eq_true, List.all_eq_true, Bool.not_eq_true'] at hp hq ⊢
      obtain ⟨p₁, p₂, p₃, p₄⟩ := inBox_iff.mp hp.1
      obtain ⟨q₁, q₂, q₃, q₄⟩ := inBox_iff.mp hq.1
      refine ⟨inBox_iff.mpr ?_, fun h hh => ?_⟩
      · rw [hn, he]
        exact ⟨any_between h₀ h₁ p₁ q₁, any_between' h₀ h₁ p₂ q₂, any_between h₀ h₁ p₃ q₃,
          any_between' h₀ h₁ p₄ q₄⟩
      · cases hb : inBox h x with
        | false => rfl
        | true =>
          obtain ⟨⟨a, ha, hax⟩, ⟨b, hb, hbx⟩, -⟩ := inBox_iff.mp hb
          rcases hside h hh with hs' | hs'
          · have := between_lt h₀ h₁ (hs' a ha).1 (hs' a ha).2
            grind
          · have := between_gt h₀ h₁ (hs' b hb).1 (hs' b hb).2
            grind
  grow := by
    intro ps gs q x h _ hq hx
    cases h
    exact ⟨q.1, List.mem_map_of_mem hq, hx⟩
  shrink := by
    intro ps gs g x h _ hg hx
    cases h
    obtain ⟨q, hq, rfl⟩ := List.mem_map.mp hg
    exact ⟨q, hq, hx⟩
  reduceNear := fun _ _ => Iff.rfl
  reduceDeep := fun _ _ => Iff.rfl
  reverseNear := inBox_rev
  reverseDeep := inBox_rev
  standardNear := fun _ _ => Iff.rfl
  standardDeep := fun _ _ => Iff.rfl
  area := fun _ => rfl

/-! ### A history in which the zones are kept to -/

/-- A square. -/
def square (n e d : Rat) : Poly := [⟨n + d, e + d⟩, ⟨n + d, e - d⟩, ⟨n - d, e - d⟩, ⟨n - d, e + d⟩]

/-- A zone to be kept in, one to be kept out of, a region with both, a vehicle. -/
def quiet : List Msg :=
  [.keepIn { id := 1, boundary := some (square 0 0 100) },
   .keepOut { id := 2, affected := [7], padding := 5, boundary := some (square 30 0 10) },
   .airState 7 ⟨10, ⟨0, 0⟩, 50⟩, .region { id := 3, ins := [1], outs := [2] },
   .keepOut { id := 2, affected := [7], padding := 5, boundary := some (square 30 0 10) }]

/-- From the vehicle to a place east, to one behind the zone, to one in the zone. -/
def ask : PlanReq :=
  { requestId := 11, taskId := 12, region := 3, vehicle := 7, costOnly := false
    routes := [⟨1, none, some ⟨5, 40⟩⟩, ⟨2, some ⟨50, 0⟩, some ⟨90, 0⟩⟩, ⟨3, none, some ⟨30, 0⟩⟩] }

/-- The answers to a request after a history. -/
def run (h : List Msg) (q : PlanReq) : Outcome (List (Nat × PlanResp)) :=
  (St.after boxes h).bind fun s => s.reply boxes (.request 4 q)

theorem run_quiet : run quiet ask = .ok [(4, {
    responseId := 11, taskId := 12, region := 3, vehicle := 7
    plans := [⟨1, 500, [⟨⟨0, 0⟩, 50, 10, 1, 2⟩, ⟨⟨5, 40⟩, 50, 10, 2, 2⟩]⟩,
      ⟨2, 4000, [⟨⟨50, 0⟩, 50, 10, 1, 2⟩, ⟨⟨90, 0⟩, 50, 10, 2, 2⟩]⟩, ⟨3, -1, []⟩] })] := by
  decide +kernel

/-- Where a message is in a short list. -/
theorem split_mem {α : Type} {h h₁ h₂ : List α} {a : α} (e : h = h₁ ++ a :: h₂) :
    ∃ i, h[i]? = some a ∧ h₁ = h.take i ∧ h₂ = h.drop (i + 1) :=
  ⟨h₁.length, by simp [e], by simp [e], by simp [e]⟩

theorem quiet_region {h₁ h₂ : List Msg} {r : Region} (e : quiet = h₁ ++ .region r :: h₂) :
    h₁ = quiet.take 3 ∧ h₂ = quiet.drop 4 := by
  obtain ⟨i, hi, h₁, h₂⟩ := split_mem e
  match i with
  | 0 | 1 | 2 | 4 => simp [quiet] at hi
  | 3 => exact ⟨h₁, h₂⟩
  | n + 5 => simp [quiet] at hi

theorem quiet_calm : Calm quiet where
  ins := by simp [quiet]
  outs := by simp [quiet]
  regions := by simp [quiet]
  insFirst := by
    intro h₁ r h₂ z e hz hi
    obtain ⟨rfl, rfl⟩ := quiet_region e
    simp [quiet] at hz
  outsFirst := by
    intro h₁ r h₂ z e hz hi
    obtain ⟨rfl, rfl⟩ := quiet_region e
    simp [quiet] at hz ⊢
    exact hz

/-- C112, C113 and C114 are about this history. -/
example : ∃ s, St.after boxes quiet = .ok s ∧ s.env 3 7 ≠ none ∧
    ∀ out, s.reply boxes (.request 4 ask) = .ok out → ∀ o ∈ out, ∀ p ∈ o.2.plans, ∀ x, p.along x →
      inBox (square 30 0 10) x = false ∧ inBox (square 0 0 100) x = true := by
  obtain ⟨s, hs, hr⟩ := Outcome.bind_eq_ok.mp run_quiet
  have henv : (St.after boxes quiet).bind (fun s => .ok (s.env 3 7).isSome) = .ok true := by
    decide +kernel
  rw [hs, Outcome.bind_ok, Outcome.ok.injEq] at henv
  have henv' : s.env 3 7 ≠ none := by intro k; rw [k] at henv; cases henv
  refine ⟨s, hs, henv', fun out ho o hom p hp x hx => ?_⟩
  obtain ⟨y, rfl, h₁, h₂⟩ := C114_keeps_zones_partial boxes_contract hs quiet_calm (q := ask) (r :=
    { id := 3, ins := [1], outs := [2] }) ⟨.airState 7 ⟨10, ⟨0, 0⟩, 50⟩, by simp [quiet], rfl⟩
    (by simp [quiet, Msg.onWater]) (by simp [quiet]) (by simp [quiet]) rfl henv' ho hom hp hx
  constructor
  · have := h₁ 2 (by simp)
      { id := 2, affected := [7], padding := 5, boundary := some (square 30 0 10) } (square 30 0 10)
      rfl (.inr (by decide)) rfl rfl trivial
    simpa using this
  · obtain ⟨i, hi, z, b, hz, -, hb, hx⟩ := h₂ (by simp) (fun _ _ _ _ _ _ => trivial)
    rw [List.mem_singleton] at hi
    subst hi
    cases hz
    cases hb
    exact hx

/-- C112: a request for another vehicle. -/
example : run quiet { ask with vehicle := 8 } = .ok [] := by decide +kernel

/-! ### Histories in which they are not -/

/-- The region with an identifier that a message gives. -/
def Msg.regionOf (i : Int) : Msg → Option Region
  | .region r => if r.id = i then some r else none
  | _ => none

/-- The answer to a request leads through no zone that is to be kept out of, by what
was sent last. -/
def KeepsOut (h : List Msg) (q : PlanReq) : Prop :=
  ∀ out, run h q = .ok out → ∀ o ∈ out, ∀ p ∈ o.2.plans, ∀ x, p.along x →
    ∀ r, latest (·.regionOf q.region) h = some r → ∀ i ∈ r.outs, ∀ z b,
      latest (·.outZone i) h = some z → (z.affected = [] ∨ q.vehicle ∈ z.affected) →
      z.boundary = some b → inBox b x = false

/-- From the vehicle to a place behind `wall`. -/
def cross : PlanReq :=
  { requestId := 11, taskId := 12, region := 3, vehicle := 7, costOnly := false
    routes := [⟨1, none, some ⟨60, 0⟩⟩] }

/-- A zone to be kept out of, across the way. -/
def wall : Zone := { id := 2, boundary := some (square 30 0 10) }

/-- The straight way. -/
def through : PlanResp :=
  { responseId := 11, taskId := 12, region := 3, vehicle := 7
    plans := [⟨1, 6000, [⟨⟨0, 0⟩, 50, 10, 1, 2⟩, ⟨⟨60, 0⟩, 50, 10, 2, 2⟩]⟩] }

/-- The straight way is through the zone. -/
theorem not_keepsOut {h : List Msg} {r : Region} (hr : run h cross = .ok [(4, through)])
    (hl : latest (·.regionOf 3) h = some r) (hi : 2 ∈ r.outs) {z : Zone}
    (hz : latest (·.outZone 2) h = some z) (ha : z.affected = [] ∨ 7 ∈ z.affected)
    (hb : z.boundary = some (square 30 0 10)) : ¬ KeepsOut h cross := by
  intro k
  have := k _ hr _ (List.mem_singleton.mpr rfl) _ (List.mem_singleton.mpr rfl) ⟨30, 0⟩
    ⟨0, by decide, 1 / 2, by decide +kernel, by decide +kernel, by decide +kernel,
      by decide +kernel⟩ r hl 2 hi z _ hz ha hb
  exact absurd this (by decide +kernel)

/-- The vehicle. -/
def seven : Msg := .airState 7 ⟨10, ⟨0, 0⟩, 50⟩

/-- With the zone in place the way is not found (the library of boxes does not look for
ways around), and what is done is undefined: C112_unreached_violated. -/
example : run [.keepOut wall, .region { id := 3, outs := [2] }, seven] cross = .ub := by
  decide +kernel

/-- **C114.**  A zone that is changed: the region is built again before the zone is
stored, hence with the zone before. -/
theorem C114_changed_zone_violated : ¬ KeepsOut
    [.keepOut { wall with boundary := some (square 500 0 10) }, .region { id := 3, outs := [2] },
      seven, .keepOut wall] cross :=
  not_keepsOut (z := wall) (by decide +kernel) (by rfl) (by decide) (by rfl) (by decide) (by rfl)

/-- **C114.**  A zone that is sent after the region that names it. -/
theorem C114_late_zone_violated : ¬ KeepsOut
    [.region { id := 3, outs := [2] }, seven, .keepOut wall] cross :=
  not_keepsOut (z := wall) (by decide +kernel) (by rfl) (by decide) (by rfl) (by decide) (by rfl)

/-- **C114.**  A region that is changed is not stored: a vehicle that comes later is
given the region before. -/
theorem C114_changed_region_violated : ¬ KeepsOut
    [.keepOut wall, .region { id := 3 }, .region { id := 3, outs := [2] }, seven] cross :=
  not_keepsOut (z := wall) (by decide +kernel) (by rfl) (by decide) (by rfl) (by decide) (by rfl)

/-- **C114.**  A region whose zones to be kept in are for another vehicle has no
environment for this one, and all its zones are passed over. -/
theorem C114_other_vehicle_violated : ¬ KeepsOut
    [.keepOut wall, .keepIn { id := 1, affected := [8], boundary := some (square 0 0 100) },
      .region { id := 3, ins := [1], outs := [2] }, seven] cross :=
  not_keepsOut (z := wall) (by decide +kernel) (by rfl) (by decide) (by rfl) (by decide) (by rfl)

/-- **C114.**  A zone with padding before one without: they cannot be grown together,
there is no environment, and all zones are passed over. -/
theorem C114_padding_violated : ¬ KeepsOut
    [.keepOut { id := 1, padding := 5, boundary := some (square 500 0 10) }, .keepOut wall,
      .region { id := 3, outs := [1, 2] }, seven] cross :=
  not_keepsOut (z := wall) (by decide +kernel) (by rfl) (by decide) (by rfl) (by decide) (by rfl)

/-- **C114.**  A vehicle known only from a configuration of a type derived from that
of air vehicles is given no environment in the regions sent before. -/
theorem C114_derived_violated : ¬ KeepsOut
    [.keepOut wall, .region { id := 3, outs := [2] }, .state 7 ⟨10, ⟨0, 0⟩, 50⟩,
      .airConfig 7 10 50 false] cross :=
  not_keepsOut (z := wall) (by decide +kernel) (by rfl) (by decide) (by rfl) (by decide) (by rfl)

/-- **C113.**  A surface vehicle whose configuration is not that of a surface
vehicle: the configuration is read as what it is not when a region comes. -/
theorem C113_surface_violated :
    St.after boxes [.surfaceState 7 ⟨10, ⟨0, 0⟩, 0⟩, .config 7 10 0, .region { id := 3 }] = .ub := by
  rfl

end Verif.RoutePlanner
