import Verif.Options.Text
import Verif.Options.Groups

/-!
C93: tasks done by a single vehicle.  C98: the headings and elevations.  C99: the cost of the options of a point search.
-/

namespace Verif.Options

open Verif

/-! ### Sweeps -/

theorem sweep_eq (inc tol target cur : Int) : sweep inc tol target cur =
    if 0 < inc ∧ cur ≤ target + tol then cur :: sweep inc tol target (cur + inc) else [] := by
  rw [sweep]

theorem sweep_nil {inc tol target cur : Int} (h : target + tol < cur) : sweep inc tol target cur = [] := by
  rw [sweep_eq, if_neg (by omega)]

/-- The values of a sweep are the multiples of the increment from the start to the end. -/
theorem mem_sweep {inc tol target : Int} (hi : 0 < inc) {x : Int} : ∀ {cur : Int},
    x ∈ sweep inc tol target cur ↔ x ≤ target + tol ∧ ∃ n : Nat, x = cur + n * inc := by
  intro cur
  induction hn : (target + tol + 1 - cur).toNat using Nat.strongRecOn generalizing cur with
  | _ m ih =>
    rw [sweep_eq]
    by_cases hc : cur ≤ target + tol
    · rw [if_pos ⟨hi, hc⟩, List.mem_cons, ih _ (by omega) rfl]
      constructor
      · rintro (rfl | ⟨h, n, rfl⟩)
        · exact ⟨hc, 0, by simp⟩
        · refine ⟨h, n + 1, ?_⟩
          rw [Int.natCast_add, Int.add_mul]; omega
      · rintro ⟨h, n, rfl⟩
        cases n with
        | zero => left; simp
        | succ n =>
          right
          refine ⟨h, n, ?_⟩
          rw [Int.natCast_add, Int.add_mul]; omega
    · rw [if_neg (by omega)]
      constructor
      · intro h; cases h
      · rintro ⟨h, n, rfl⟩
        have : 0 ≤ (n : Int) * inc := Int.mul_nonneg (by omega) (by omega)
        omega

theorem sweep_increasing {inc tol target : Int} : ∀ {cur : Int},
    (sweep inc tol target cur).Pairwise (fun a b => a + inc ≤ b) ∧ ∀ x ∈ sweep inc tol target cur, cur ≤ x := by
  intro cur
  induction hn : (target + tol + 1 - cur).toNat using Nat.strongRecOn generalizing cur with
  | _ m ih =>
    rw [sweep_eq]
    split
    · next hc =>
      obtain ⟨h₁, h₂⟩ := ih _ (by omega) (cur := cur + inc) rfl
      refine ⟨List.pairwise_cons.mpr ⟨fun x hx => h₂ x hx, h₁⟩, ?_⟩
      intro x hx
      rcases List.mem_cons.mp hx with rfl | hx
      · omega
      · have := h₂ x hx; omega
    · simp

/-- Every value between the ends is at most one increment above a value of the sweep. -/
theorem sweep_covers {inc tol target cur x : Int} (hi : 0 < inc) (ht : 0 ≤ tol) (h₁ : cur ≤ x) (h₂ : x ≤ target) :
    ∃ y ∈ sweep inc tol target cur, y ≤ x ∧ x < y + inc := by
  have hd : 0 ≤ (x - cur) / inc := Int.ediv_nonneg (by omega) (by omega)
  have hq : ((x - cur) / inc) * inc ≤ x - cur := Int.ediv_mul_le _ (by omega)
  have hl : x - cur < ((x - cur) / inc + 1) * inc := Int.lt_ediv_add_one_mul_self _ hi
  rw [Int.add_mul] at hl
  refine ⟨cur + ((x - cur) / inc) * inc, (mem_sweep hi).mpr ⟨by omega, ((x - cur) / inc).toNat, ?_⟩, by omega, by omega⟩
  rw [Int.toNat_of_nonneg hd]

theorem normalize_range {turn tol a : Int} (ht : 0 < turn) :
    -tol ≤ normalize turn tol a ∨ 0 ≤ normalize turn tol a := by
  unfold normalize
  have h₁ : a.tmod turn < turn := Int.tmod_lt_of_pos a ht
  have h₂ : -turn < a.tmod turn := Int.lt_tmod_of_pos a ht
  grind

/-- `normalize` changes an angle by whole turns. -/
theorem normalize_turns {turn tol a : Int} (ht : 0 < turn) : ∃ k, normalize turn tol a = a + k * turn := by
  unfold normalize
  have h : a.tmod turn = a - turn * a.tdiv turn := by have := Int.mul_tdiv_add_tmod a turn; omega
  simp only
  rw [Int.mul_comm] at h
  split
  · exact ⟨1 - a.tdiv turn, by rw [Int.sub_mul]; omega⟩
  · split
    · exact ⟨-1 - a.tdiv turn, by rw [Int.sub_mul]; omega⟩
    · exact ⟨- a.tdiv turn, by rw [Int.neg_mul]; omega⟩

/-- The parameters are those of the code: tolerances far below the increment. -/
structure Unit.Good (u : Unit) : Prop where
  inc : 0 < u.inc
  tol : 0 ≤ u.tol
  small : u.tol < u.inc
  coarse : 0 ≤ u.coarse

theorem wedge_eq {u : Unit} (hu : u.Good) {w : Wedge} (hw : 0 ≤ w.halfAzimuth) :
    wedgeHeadings u w = sweep u.inc u.tol (normalize u.turn u.tol w.azimuth + w.halfAzimuth)
      (normalize u.turn u.tol w.azimuth - w.halfAzimuth) := by
  have := hu.coarse
  have := hu.tol
  unfold wedgeHeadings
  simp only
  rw [if_pos (by omega)]
  rw [if_neg (by simp [near]; omega)]
  simp

/-- **C98, headings of a wedge**: every heading of the wedge is less than one increment (22.5 degrees) above one that is
offered. -/
theorem C98_wedge_covered {u : Unit} (hu : u.Good) {w : Wedge} {x : Int} (h₁ : w.azimuth - w.halfAzimuth ≤ x)
    (h₂ : x ≤ w.azimuth + w.halfAzimuth) :
    ∃ k, ∃ y ∈ wedgeHeadings u w, y ≤ x + k * u.turn ∧ x + k * u.turn < y + u.inc := by
  obtain ⟨k, hk⟩ := normalize_turns (turn := u.turn) (tol := u.tol) (a := w.azimuth) (by have := hu.inc; unfold Unit.turn; omega)
  refine ⟨k, ?_⟩
  rw [wedge_eq hu (by omega)]
  exact sweep_covers hu.inc hu.tol (by omega) (by omega)

/-- **C98**: every heading that is offered is in the wedge (up to the tolerance), a multiple of the increment from its
first heading. -/
theorem C98_wedge_only {u : Unit} (hu : u.Good) {w : Wedge} (hw : 0 ≤ w.halfAzimuth) {y : Int} (h : y ∈ wedgeHeadings u w) :
    ∃ k, ∃ n : Nat, y = w.azimuth - w.halfAzimuth + n * u.inc + k * u.turn ∧
      n * u.inc ≤ 2 * w.halfAzimuth + u.tol := by
  obtain ⟨k, hk⟩ := normalize_turns (turn := u.turn) (tol := u.tol) (a := w.azimuth) (by have := hu.inc; unfold Unit.turn; omega)
  rw [wedge_eq hu hw] at h
  obtain ⟨h₁, n, rfl⟩ := (mem_sweep hu.inc).mp h
  exact ⟨k, n, by omega, by omega⟩

/-- **C98, no wedge**: the sixteen headings of a full circle, each once. -/
theorem C98_no_wedge {u : Unit} (hu : u.Good) :
    pointHeadings u [] = (List.range 16).map fun (i : Nat) => (i : Int) * u.inc := by
  have hi := hu.inc
  have ht := hu.tol
  have hs := hu.small
  simp only [pointHeadings, List.isEmpty_nil, if_true, allHeadings, Unit.turn]
  rw [show List.range 16 = [0, 1, 2, 3, 4, 5, 6, 7, 8, 9, 10, 11, 12, 13, 14, 15] from rfl]
  iterate 16 rw [sweep_eq, if_pos (by omega)]
  rw [sweep_nil (by omega)]
  simp only [List.map_cons, List.map_nil]
  refine List.cons_eq_cons.mpr ⟨by omega, ?_⟩
  iterate 15 refine List.cons_eq_cons.mpr ⟨by omega, ?_⟩
  rfl

/-- **C98, each heading once**, for a wedge of less than a full circle: no two offered headings differ by whole turns. -/
theorem C98_once_partial {u : Unit} (hu : u.Good) {w : Wedge} (hw : 0 ≤ w.halfAzimuth)
    (hl : 2 * w.halfAzimuth + u.tol < u.turn) :
    (wedgeHeadings u w).Pairwise (fun a b => ¬ ∃ k, b = a + k * u.turn) := by
  rw [wedge_eq hu hw]
  obtain ⟨hp, hlo⟩ := sweep_increasing (inc := u.inc) (tol := u.tol)
    (target := normalize u.turn u.tol w.azimuth + w.halfAzimuth) (cur := normalize u.turn u.tol w.azimuth - w.halfAzimuth)
  refine hp.imp_of_mem ?_
  intro a b ha hb hab
  rintro ⟨k, rfl⟩
  have h₁ := hlo a ha
  have h₂ := ((mem_sweep hu.inc).mp hb).1
  have hi := hu.inc
  have ht : 0 < u.turn := by unfold Unit.turn; omega
  have hk : 1 ≤ k := by
    rcases Int.lt_or_le 0 k with h | h
    · exact h
    · have : k * u.turn ≤ 0 := Int.mul_nonpos_of_nonpos_of_nonneg h (by omega)
      omega
  have : 1 * u.turn ≤ k * u.turn := Int.mul_le_mul_of_nonneg_right hk (by omega)
  omega

/-- **C98 is violated** by a wedge of a full circle: the first heading is offered twice. -/
theorem C98_violated_circle :
    wedgeHeadings ⟨225, 0, 0⟩ ⟨1800, 1800, 0, 0⟩ =
      [0, 225, 450, 675, 900, 1125, 1350, 1575, 1800, 2025, 2250, 2475, 2700, 2925, 3150, 3375, 3600] := by
  decide +kernel

/-- **C98, elevations of a line search**: every elevation of the wedge within the limits is less than one increment above one
that is offered, if the centreline is within the limits. -/
theorem C98_line_elevations {u : Unit} (hu : u.Good) {lo hi : Int} {w : Wedge} {x : Int}
    (hc : lo ≤ w.vertical ∧ w.vertical ≤ hi)
    (h₁ : w.vertical - w.halfVertical ≤ x) (h₂ : x ≤ w.vertical + w.halfVertical) (hlo : lo ≤ x) (hhi : x ≤ hi) :
    ∃ y ∈ lineElevations u lo hi w, y ≤ x ∧ x < y + u.inc := by
  unfold lineElevations
  simp only
  apply sweep_covers hu.inc hu.tol <;> grind

/-- **C98, a line search always has an elevation** for a wedge (the centreline is moved into the limits). -/
theorem C98_line_nonempty {u : Unit} (hu : u.Good) {lo hi : Int} (hl : lo ≤ hi) {w : Wedge} (hw : 0 ≤ w.halfVertical) :
    lineElevations u lo hi w ≠ [] := by
  unfold lineElevations
  simp only
  rw [sweep_eq, if_pos]
  · simp
  · have := hu.inc
    have := hu.tol
    grind

/-- **C98, elevations of an area search** that lie within the limits. -/
theorem C98_area_elevations {u : Unit} (hu : u.Good) {lo hi : Int} {w : Wedge} {x : Int}
    (h₁ : w.vertical - w.halfVertical ≤ x) (h₂ : x ≤ w.vertical + w.halfVertical) (hlo : lo ≤ x) (hhi : x ≤ hi) :
    ∃ y ∈ areaElevations u lo hi w, y ≤ x ∧ x < y + u.inc := by
  unfold areaElevations
  simp only
  apply sweep_covers hu.inc hu.tol <;> grind

/-- **C98**: every elevation that is offered is within the limits (up to the tolerance), and no lower than the wedge nor higher
(for a line search: than the wedge with its centreline moved into the limits). -/
theorem C98_elevations_limits {u : Unit} (hu : u.Good) {lo hi : Int} (hl : lo ≤ hi) {w : Wedge} (hw : 0 ≤ w.halfVertical) {y : Int} :
    (y ∈ areaElevations u lo hi w → lo ≤ y ∧ y ≤ hi + u.tol ∧ w.vertical - w.halfVertical ≤ y ∧
      y ≤ w.vertical + w.halfVertical + u.tol) ∧
    (y ∈ lineElevations u lo hi w → lo ≤ y ∧ y ≤ hi + u.tol ∧ ∃ c, lo ≤ c ∧ c ≤ hi ∧ (lo ≤ w.vertical → w.vertical ≤ hi → c = w.vertical) ∧
      c - w.halfVertical ≤ y ∧ y ≤ c + w.halfVertical + u.tol) := by
  have key : ∀ {t c : Int}, y ∈ sweep u.inc u.tol t c → c ≤ y ∧ y ≤ t + u.tol := by
    intro t c h
    obtain ⟨h₁, n, rfl⟩ := (mem_sweep hu.inc).mp h
    have : 0 ≤ (n : Int) * u.inc := Int.mul_nonneg (by omega) (by have := hu.inc; omega)
    omega
  constructor
  · intro h
    unfold areaElevations at h
    have := key h
    grind
  · intro h
    unfold lineElevations at h
    have := key h
    refine ⟨by grind, by grind, if w.vertical < lo then lo else if w.vertical > hi then hi else w.vertical, ?_⟩
    grind

/-- An area search offers no elevation for a wedge that is above the limit of one degree below the horizon, though the comment
in the code calls elevations positive down. -/
theorem C98_area_none {u : Unit} (hu : u.Good) {lo hi : Int} {w : Wedge} (hl : lo ≤ hi) (h : hi + u.tol < w.vertical - w.halfVertical)
    (hw : 0 ≤ w.halfVertical) : areaElevations u lo hi w = [] := by
  unfold areaElevations
  have := hu.tol
  exact sweep_nil (by grind)

/-- **C98 is violated** by an area search with a wedge at the horizon, elevation 0 with no vertical extent (the default of
`Wedge`): it has no elevation, so no look and no option at all. -/
theorem C98_violated_horizon (g : Groups) :
    areaLooks ⟨225, 0, 0⟩ (-900) (-10) (-600) [⟨900, 450, 0, 0⟩] = [] ∧
    (areaSearch ⟨225, 0, 0⟩ (-900) (-10) (-600) [⟨900, 450, 0, 0⟩] g).composition = ['+', '(', ')'] ∧
    (areaSearch ⟨225, 0, 0⟩ (-900) (-10) (-600) [⟨900, 450, 0, 0⟩] g).cells = [] := by
  have h : areaLooks ⟨225, 0, 0⟩ (-900) (-10) (-600) [⟨900, 450, 0, 0⟩] = [] := by decide +kernel
  have h' : groupLooks g [] = [] := by simp [groupLooks]
  refine ⟨h, ?_, ?_⟩ <;> simp [areaSearch, h, h', areaLoop]

/-! ### Ids -/

theorem numbered_ids {α : Type} {mk : Int → α → Opt} (hm : ∀ i a, (mk i a).id = i) : ∀ (id : Int) (as : List α),
    (numbered id mk as).map (·.id) = (List.range as.length).map fun (n : Nat) => id + (n : Int)
  | _, [] => by simp [numbered]
  | id, a :: as => by
    rw [numbered, List.map_cons, hm, numbered_ids hm (id + 1) as, List.length_cons, List.range_succ_eq_map, List.map_cons,
      List.map_map]
    simp only [List.cons.injEq]
    refine ⟨by simp, List.map_congr_left fun n _ => ?_⟩
    simp only [Function.comp, Nat.succ_eq_add_one, Int.natCast_add]
    omega

theorem range_ids_nodup (id : Int) (n : Nat) : ((List.range n).map fun (n : Nat) => id + (n : Int)).Nodup := by
  rw [List.nodup_iff_pairwise_ne, List.pairwise_map]
  refine (List.nodup_iff_pairwise_ne.mp List.nodup_range).imp ?_
  intro a b h e
  exact h (by omega)

theorem numbered_nodup {α : Type} {mk : Int → α → Opt} (hm : ∀ i a, (mk i a).id = i) (id : Int) (as : List α) :
    ((numbered id mk as).map (·.id)).Nodup := by
  rw [numbered_ids hm]; exact range_ids_nodup id _

theorem mem_numbered {α : Type} {mk : Int → α → Opt} {o : Opt} : ∀ {id : Int} {as : List α},
    o ∈ numbered id mk as → ∃ a ∈ as, ∃ i, id ≤ i ∧ i < id + as.length ∧ o = mk i a
  | _, [], h => by simp [numbered] at h
  | id, a :: as, h => by
    rcases List.mem_cons.mp h with rfl | h
    · exact ⟨a, by simp, id, by omega, by simp; omega, rfl⟩
    · obtain ⟨b, hb, i, h₁, h₂, h₃⟩ := mem_numbered h
      exact ⟨b, by simp [hb], i, by omega, by simp; omega, h₃⟩

theorem numbered_mem {α : Type} {mk : Int → α → Opt} {a : α} : ∀ {id : Int} {as : List α}, a ∈ as →
    ∃ i, mk i a ∈ numbered id mk as
  | _, [], h => by simp at h
  | id, b :: as, h => by
    rcases List.mem_cons.mp h with rfl | h
    · exact ⟨id, by simp [numbered]⟩
    · obtain ⟨i, hi⟩ := numbered_mem (mk := mk) (id := id + 1) h
      exact ⟨i, by simp [numbered, hi]⟩

/-- A task that one vehicle does with one of its options. -/
theorem means_publish (opts : List Opt) :
    Means (publish opts).composition (opts.map (·.id)) (fun w => ∃ o ∈ (publish opts).opts, w = [o.id]) := by
  refine (means_alternatives (opts.map (·.id))).congr (fun _ => Iff.rfl) ?_
  intro w
  constructor
  · rintro ⟨i, hi, rfl⟩
    obtain ⟨o, ho, rfl⟩ := List.mem_map.mp hi
    exact ⟨o, ho, rfl⟩
  · rintro ⟨o, ho, rfl⟩
    exact ⟨o.id, List.mem_map_of_mem ho, rfl⟩

/-- **C93, loiter.** -/
theorem C93_loiter (el : List Int) (place : Int) :
    Means (loiter el place).composition [10] (fun w => w = [10]) ∧
    (loiter el place).opts = [{ id := 10, eligible := el, place := place }] := by
  refine ⟨(means_publish _).congr (by simp [firstId]) ?_, rfl⟩
  intro w
  simp [loiter, publish, firstId]

/-- **C93, must-fly**: sixteen options, one for each heading. -/
theorem C93_mustFly {u : Unit} (hu : u.Good) (el : List Int) (place : Int) :
    Means (mustFly u el place).composition ((mustFly u el place).opts.map (·.id))
      (fun w => ∃ o ∈ (mustFly u el place).opts, w = [o.id]) ∧
    ((mustFly u el place).opts.map (·.id)).Nodup ∧ (mustFly u el place).opts.length = 16 ∧
    (∀ o ∈ (mustFly u el place).opts, o.eligible = el ∧ o.place = place) ∧
    (∀ i : Nat, i < 16 → ∃ o ∈ (mustFly u el place).opts, o.heading = i * u.inc) := by
  have hall : allHeadings u = (List.range 16).map fun (i : Nat) => (i : Int) * u.inc := by
    simpa [pointHeadings] using C98_no_wedge hu
  refine ⟨means_publish _, numbered_nodup (fun _ _ => rfl) _ _, ?_, ?_, ?_⟩
  · have := congrArg List.length (numbered_ids (mk := fun i h => ({ id := i, cost := 1, eligible := el, place := place, heading := h } : Opt))
      (fun _ _ => rfl) firstId (allHeadings u))
    simpa [mustFly, publish, hall] using this
  · intro o ho
    obtain ⟨a, -, i, -, -, rfl⟩ := mem_numbered ho
    exact ⟨rfl, rfl⟩
  · intro i hi
    obtain ⟨j, hj⟩ := numbered_mem (mk := fun i h => ({ id := i, cost := 1, eligible := el, place := place, heading := h } : Opt))
      (id := firstId) (as := allHeadings u) (a := i * u.inc) (by rw [hall]; exact List.mem_map.mpr ⟨i, by simpa using hi, rfl⟩)
    exact ⟨_, hj, rfl⟩

/-- **C93, dynamic tasks**: one option for each requested vehicle with a known state. -/
theorem C93_dynamic (g : Groups) (known : Int → Bool) (at_ : Int → Int) :
    Means (dynamic g known at_).composition ((dynamic g known at_).opts.map (·.id))
      (fun w => ∃ o ∈ (dynamic g known at_).opts, w = [o.id]) ∧
    ((dynamic g known at_).opts.map (·.id)).Nodup ∧
    (∀ o ∈ (dynamic g known at_).opts, ∃ v ∈ vehicles g, o.eligible = [v] ∧ o.place = at_ v ∧ known v) ∧
    (∀ v ∈ vehicles g, known v → ∃ o ∈ (dynamic g known at_).opts, o.eligible = [v] ∧ o.place = at_ v) := by
  refine ⟨means_publish _, numbered_nodup (fun _ _ => rfl) _ _, ?_, ?_⟩
  · intro o ho
    obtain ⟨v, hv, i, -, -, rfl⟩ := mem_numbered ho
    obtain ⟨h₁, h₂⟩ := List.mem_filter.mp hv
    exact ⟨v, h₁, rfl, rfl, h₂⟩
  · intro v hv hk
    obtain ⟨i, hi⟩ := numbered_mem (mk := fun i v => ({ id := i, eligible := [v], place := at_ v } : Opt)) (id := 1)
      (as := (vehicles g).filter known) (a := v) (List.mem_filter.mpr ⟨hv, hk⟩)
    exact ⟨_, hi, rfl, rfl⟩

/-! ### Point searches -/

theorem pointCall_bounds {g : Groups} {far : Bool} {cost : Key → Int} {place h id : Int} :
    id ≤ (pointCall g far cost place h id).2 ∧
    ((pointCall g far cost place h id).1.map (·.id)).Nodup ∧
    ∀ o ∈ (pointCall g far cost place h id).1, id ≤ o.id ∧ o.id ≤ (pointCall g far cost place h id).2 := by
  unfold pointCall
  cases far
  · simp
  · simp only [Bool.not_true, Bool.false_eq_true, if_false]
    refine ⟨by omega, numbered_nodup (fun _ _ => rfl) _ _, ?_⟩
    intro o ho
    obtain ⟨a, -, i, h₁, h₂, rfl⟩ := mem_numbered ho
    exact ⟨h₁, by simp only; omega⟩

theorem pointLoop_nodup {g : Groups} {far : Bool} {cost : Key → Int} {place : Int} : ∀ (hs : List Int) (id : Int),
    ((pointLoop g far cost place id hs).map (·.id)).Nodup ∧ ∀ o ∈ pointLoop g far cost place id hs, id ≤ o.id
  | [], id => by simp [pointLoop]
  | h :: hs, id => by
    obtain ⟨b₁, b₂, b₃⟩ := pointCall_bounds (g := g) (far := far) (cost := cost) (place := place) (h := h) (id := id)
    obtain ⟨i₁, i₂⟩ := pointLoop_nodup (g := g) (far := far) (cost := cost) (place := place) hs ((pointCall g far cost place h id).2 + 1)
    rw [pointLoop]
    refine ⟨?_, ?_⟩
    · rw [List.map_append]
      refine List.nodup_append.mpr ⟨b₂, i₁, ?_⟩
      intro a ha b hb e
      obtain ⟨o, ho, rfl⟩ := List.mem_map.mp ha
      obtain ⟨o', ho', rfl⟩ := List.mem_map.mp hb
      have := (b₃ o ho).2
      have := i₂ o' ho'
      omega
    · intro o ho
      rcases List.mem_append.mp ho with ho | ho
      · exact (b₃ o ho).1
      · have := i₂ o ho; omega

theorem mem_pointLoop {g : Groups} {far : Bool} {cost : Key → Int} {place : Int} {o : Opt} : ∀ {hs : List Int} {id : Int},
    o ∈ pointLoop g far cost place id hs → ∃ h ∈ hs, ∃ i, o ∈ (pointCall g far cost place h i).1
  | [], id, h => by simp [pointLoop] at h
  | h :: hs, id, ho => by
    rw [pointLoop] at ho
    rcases List.mem_append.mp ho with ho | ho
    · exact ⟨h, by simp, id, ho⟩
    · obtain ⟨h', hh, i, hi⟩ := mem_pointLoop ho
      exact ⟨h', by simp [hh], i, hi⟩

theorem pointLoop_mem {g : Groups} {far : Bool} {cost : Key → Int} {place h : Int} : ∀ {hs : List Int} {id : Int},
    h ∈ hs → ∃ i, ∀ o ∈ (pointCall g far cost place h i).1, o ∈ pointLoop g far cost place id hs
  | [], id, hh => by simp at hh
  | h' :: hs, id, hh => by
    rcases List.mem_cons.mp hh with rfl | hh
    · exact ⟨id, fun o ho => by rw [pointLoop]; exact List.mem_append.mpr (.inl ho)⟩
    · obtain ⟨i, hi⟩ := pointLoop_mem (g := g) (far := far) (cost := cost) (place := place) (id := (pointCall g far cost place h' id).2 + 1) hh
      exact ⟨i, fun o ho => by rw [pointLoop]; exact List.mem_append.mpr (.inr (hi o ho))⟩

/-- What holds of the options of a point search. -/
theorem point_options (g : Groups) (far : Bool) (cost : Key → Int) (place : Int) (hs : List Int) :
    let p := publish (pointLoop g far cost place firstId hs)
    Means p.composition (p.opts.map (·.id)) (fun w => ∃ o ∈ p.opts, w = [o.id]) ∧ (p.opts.map (·.id)).Nodup ∧
    (∀ o ∈ p.opts, o.place = place ∧ o.heading ∈ hs ∧ ∀ v ∈ o.eligible, v ∈ vehicles g) ∧
    (∀ h ∈ hs, ∀ v ∈ vehicles g, ∃ o ∈ p.opts, o.heading = h ∧ v ∈ o.eligible) := by
  refine ⟨means_publish _, (pointLoop_nodup hs firstId).1, ?_, ?_⟩
  · intro o ho
    obtain ⟨h, hh, i, hi⟩ := mem_pointLoop ho
    unfold pointCall at hi
    cases far
    · simp only [Bool.not_false, if_true, List.mem_singleton] at hi
      subst hi
      exact ⟨rfl, hh, fun v hv => hv⟩
    · simp only [Bool.not_true, Bool.false_eq_true, if_false] at hi
      obtain ⟨p, hp, j, -, -, rfl⟩ := mem_numbered hi
      exact ⟨rfl, hh, fun v hv => mem_vehicles.mpr ⟨p, hp, hv⟩⟩
  · intro h hh v hv
    obtain ⟨i, hi⟩ := pointLoop_mem (g := g) (far := far) (cost := cost) (place := place) (id := firstId) hh
    cases far
    · exact ⟨_, hi _ (by simp [pointCall]; rfl), rfl, hv⟩
    · obtain ⟨p, hp, hv⟩ := mem_vehicles.mp hv
      obtain ⟨j, hj⟩ := numbered_mem (mk := fun i (p : Key × List Int) =>
        ({ id := i, cost := cost p.1, eligible := p.2, place := place, heading := h } : Opt)) (id := i) (as := g) hp
      exact ⟨_, hi _ (by simpa [pointCall] using hj), rfl, hv⟩

/-- **C93, point search**: the allowed orders are the single options, whose ids are different; each requested vehicle can be
chosen for each heading, and no other vehicle. -/
theorem C93_cmasiPoint (u : Unit) (ws : List Wedge) (g : Groups) (standoff : Nat) (place : Int) :
    let p := cmasiPoint u ws g standoff place
    Means p.composition (p.opts.map (·.id)) (fun w => ∃ o ∈ p.opts, w = [o.id]) ∧ (p.opts.map (·.id)).Nodup ∧
    (∀ o ∈ p.opts, o.place = place ∧ o.heading ∈ pointHeadings u ws ∧ ∀ v ∈ o.eligible, v ∈ vehicles g) ∧
    (∀ h ∈ pointHeadings u ws, ∀ v ∈ vehicles g, ∃ o ∈ p.opts, o.heading = h ∧ v ∈ o.eligible) :=
  point_options g _ _ place _

/-- **C93, impact point search.** -/
theorem C93_impactPoint (u : Unit) (ws : List Wedge) (g : Groups) (standoff : Nat) (place : Int) :
    let p := impactPoint u ws g (some standoff) place
    Means p.composition (p.opts.map (·.id)) (fun w => ∃ o ∈ p.opts, w = [o.id]) ∧ (p.opts.map (·.id)).Nodup ∧
    (∀ o ∈ p.opts, o.place = place ∧ o.heading ∈ pointHeadings u ws ∧ ∀ v ∈ o.eligible, v ∈ vehicles g) ∧
    (∀ h ∈ pointHeadings u ws, ∀ v ∈ vehicles g, ∃ o ∈ p.opts, o.heading = h ∧ v ∈ o.eligible) :=
  point_options g _ _ place _

/-- **C93, impact point search** with a negative standoff distance: one option for all vehicles. -/
theorem C93_impactPoint_any (u : Unit) (ws : List Wedge) (g : Groups) (place : Int) :
    let p := impactPoint u ws g none place
    Means p.composition [10] (fun w => w = [10]) ∧ p.opts = [{ id := 10, eligible := vehicles g, place := place }] := by
  refine ⟨(means_publish _).congr (by simp [pointCall, firstId]) ?_, by simp [impactPoint, publish, pointCall, firstId]⟩
  intro w
  simp [publish, pointCall, firstId]

example : (cmasiPoint ⟨225, 0, 0⟩ [⟨0, 225, 0, 0⟩] [((200, 700), [400, 500]), ((150, 700), [600])] 300 7).opts =
    [⟨10, 15000, [400, 500], 7, -225⟩, ⟨11, 20000, [600], 7, -225⟩, ⟨13, 15000, [400, 500], 7, 0⟩, ⟨14, 20000, [600], 7, 0⟩,
     ⟨16, 15000, [400, 500], 7, 225⟩, ⟨17, 20000, [600], 7, 225⟩] := by decide +kernel

/-- **C93 is violated** by a loiter task (and in the same way by a must-fly task): its option is for the vehicles of the
task, not for those of the request, and when the task lists none (any vehicle can do it) the option lists none. -/
theorem C93_violated_loiter : (loiter [] 7).opts.map (·.eligible) = [[]] ∧
    (loiter [400, 500] 7).opts.map (·.eligible) = [[400, 500]] ∧
    vehicles (requested (groups [400, 500] [(400, (200, 700)), (500, (200, 700))]) [400]) = [400] := by
  decide

/-! ### Cost -/

/-- **C99, point search**: the cost of an option from a distance is the time in milliseconds that a vehicle with the nominal
speed (tenths of m/s) takes, rounded down. -/
theorem C99_cmasi {u : Unit} {ws : List Wedge} {g : Groups} {standoff : Nat} {place : Int} (hd : 0 < standoff)
    {o : Opt} (ho : o ∈ (cmasiPoint u ws g standoff place).opts) :
    ∃ p ∈ g, o.eligible = p.2 ∧
      (0 < p.1.1 → o.cost * p.1.1 ≤ standoff * 10 * 1000 ∧ standoff * 10 * 1000 < (o.cost + 1) * p.1.1) := by
  obtain ⟨h, hh, i, hi⟩ := mem_pointLoop ho
  simp only [pointCall, hd, decide_true, Bool.not_true, Bool.false_eq_true, if_false] at hi
  obtain ⟨p, hp, j, -, -, rfl⟩ := mem_numbered hi
  refine ⟨p, hp, rfl, ?_⟩
  intro hs
  simp only [cmasiCost, if_pos hs]
  have h₀ : (0 : Int) ≤ standoff * 10000 := by omega
  rw [Int.tdiv_eq_ediv_of_nonneg h₀]
  have h₁ := Int.ediv_mul_le ((standoff : Int) * 10000) (b := p.1.1) (by omega)
  have h₂ := Int.lt_ediv_add_one_mul_self ((standoff : Int) * 10000) hs
  constructor <;> omega

/-- **C99 is violated** by the impact point search: the cost is in seconds.  A vehicle at 20 m/s takes 15 s for 300 m; the cost
given is 15 (milliseconds). -/
theorem C99_violated : ((impactPoint ⟨225, 0, 0⟩ [⟨0, 0, 0, 0⟩] [((200, 700), [400])] (some 300) 7).opts.map (·.cost)) = [15] ∧
    ((cmasiPoint ⟨225, 0, 0⟩ [⟨0, 0, 0, 0⟩] [((200, 700), [400])] 300 7).opts.map (·.cost)) = [15000] := by
  decide +kernel

end Verif.Options
