import Verif.Batch.Props

/-!
C105: the summaries report the parts of the plans.
-/

namespace Verif.Batch

open Verif

/-! ### The parts of a mission -/

/-- A mission as tasks: the way to the task, the task, the waypoints on the task. -/
abbrev Flight := List (List Wp × Int × List Wp)

/-- The waypoints of the mission; `tail` is what follows the last task. -/
def flightWps (f : Flight) (tail : List Wp) : List Wp := (f.flatMap fun s => s.1 ++ s.2.2) ++ tail

/-- The legs: a leg goes on to the waypoint after the task. -/
def flightLegs (prev : Int) : Flight → List Wp → List Leg
  | [], _ => []
  | s :: f, tail => ⟨prev, s.2.1, s.1 ++ s.2.2 ++ ((flightWps f tail).head?).toList⟩ :: flightLegs s.2.1 f tail

/-- On the ways no waypoint has a task, on a task every waypoint has it first; between tasks there is a way, and a last waypoint
after the tasks.  Ids fit into 32 bits. -/
def FlightOk : Bool → Flight → List Wp → Prop
  | _, [], tail => tail ≠ [] ∧ ∀ w ∈ tail.dropLast, w.tasks = []
  | first, s :: f, tail => (first = false → s.1 ≠ []) ∧ (∀ w ∈ s.1, w.tasks = []) ∧ s.2.2 ≠ [] ∧
      (∀ w ∈ s.2.2, w.tasks.head? = some s.2.1) ∧ (-2147483648 ≤ s.2.1 ∧ s.2.1 < 2147483648) ∧ FlightOk false f tail

theorem toInt32_id {x : Int} (h : -2147483648 ≤ x ∧ x < 2147483648) : toInt32 x = x := by
  unfold toInt32; omega

theorem flight_ne {f : Flight} {tail : List Wp} {b : Bool} (h : FlightOk b f tail) : flightWps f tail ≠ [] := by
  cases f with
  | nil => simpa [flightWps] using h.1
  | cons s f =>
    have := h.2.2.1
    simp [flightWps, this]

theorem scan_way {way : List Wp} (hw : ∀ w ∈ way, w.tasks = []) : ∀ (seg : List Wp) (work prev : Int) (rest : List Wp),
    scan seg true work prev (way ++ rest) = scan (seg ++ way) true work prev rest := by
  induction way with
  | nil => intro seg work prev rest; simp
  | cons w way ih =>
    intro seg work prev rest
    rw [List.cons_append, scan]
    have h0 : w.tasks = [] := hw w (List.mem_cons_self ..)
    simp only [h0, List.isEmpty_nil, Bool.not_true, Bool.false_and, Bool.false_eq_true, if_false]
    rw [ih (fun x hx => hw x (List.mem_cons_of_mem _ hx))]
    simp

theorem scan_on {on : List Wp} (hw : ∀ w ∈ on, w.tasks ≠ []) : ∀ (seg : List Wp) (work prev : Int) {rest : List Wp}, rest ≠ [] →
    scan seg false work prev (on ++ rest) = scan (seg ++ on) false work prev rest := by
  induction on with
  | nil => intro seg work prev rest _; simp
  | cons w on ih =>
    intro seg work prev rest hr
    rw [List.cons_append, scan]
    have h0 : w.tasks.isEmpty = false := by simpa using hw w (List.mem_cons_self ..)
    have h1 : (on ++ rest).isEmpty = false := by simp [hr]
    simp only [h0, h1, Bool.not_false, Bool.and_true, if_true, Bool.false_eq_true, if_false]
    rw [ih (fun x hx => hw x (List.mem_cons_of_mem _ hx)) _ _ _ hr]
    simp

/-- After a leg the next starts at its last waypoint. -/
theorem scan_restart {f : Flight} {tail : List Wp} {w : Wp} {rest : List Wp} (h : FlightOk false f tail)
    (hf : flightWps f tail = w :: rest) (work prev : Int) :
    (w.tasks = [] ∨ rest = []) ∧ scan [w] true work prev rest = scan [] true work prev (flightWps f tail) := by
  have h₁ : w.tasks = [] ∨ rest = [] := by
    cases f with
    | nil =>
      simp only [flightWps, List.flatMap_nil, List.nil_append] at hf
      subst hf
      by_cases hr : rest = []
      · exact .inr hr
      · refine .inl (h.2 w ?_)
        rw [List.dropLast_cons_of_ne_nil hr]
        exact List.mem_cons_self ..
    | cons s f =>
      obtain ⟨h₁, h₂, _⟩ := h
      have h₁ := h₁ rfl
      cases hs : s.1 with
      | nil => exact absurd hs h₁
      | cons x xs =>
        simp only [flightWps, List.flatMap_cons, hs, List.cons_append, List.cons.injEq] at hf
        refine .inl ?_
        rw [← hf.1]
        exact h₂ x (by rw [hs]; exact List.mem_cons_self ..)
  refine ⟨h₁, ?_⟩
  rw [hf]
  rcases h₁ with h₁ | h₁
  · conv => rhs; rw [scan]
    simp [h₁]
  · subst h₁
    simp [scan]

theorem scan_flight : ∀ (f : Flight) (tail : List Wp) (b : Bool) (work prev : Int), FlightOk b f tail →
    scan [] true work prev (flightWps f tail) = flightLegs work f tail
  | [], tail, b, work, prev, h => by
    obtain ⟨hne, hd⟩ := h
    simp only [flightWps, List.flatMap_nil, List.nil_append, flightLegs]
    rw [← List.dropLast_concat_getLast hne, scan_way hd]
    simp [scan]
  | s :: f, tail, b, work, prev, h => by
    obtain ⟨_, hway, hon, hton, hid, hrest⟩ := h
    have hne := flight_ne hrest
    obtain ⟨w, rest, hwr⟩ := List.exists_cons_of_ne_nil hne
    have hsplit : flightWps (s :: f) tail = s.1 ++ (s.2.2 ++ flightWps f tail) := by simp [flightWps]
    rw [hsplit, scan_way hway]
    have htasks : ∀ x ∈ s.2.2, x.tasks ≠ [] := by
      intro x hx hh
      have := hton x hx
      rw [hh] at this; cases this
    cases hs : s.2.2 with
    | nil => exact absurd hs hon
    | cons x xs =>
      have hx : x.tasks.head? = some s.2.1 := hton x (by rw [hs]; exact List.mem_cons_self ..)
      have hx' : x.tasks.isEmpty = false := by simpa using htasks x (by rw [hs]; exact List.mem_cons_self ..)
      have hx'' : toInt32 (x.tasks.headD 0) = s.2.1 := by
        rw [List.headD_eq_head?_getD, hx]
        exact toInt32_id hid
      have hxs : (xs ++ flightWps f tail).isEmpty = false := by simp [hne]
      rw [List.cons_append, scan]
      simp only [hx', hxs, Bool.not_false, Bool.and_true, if_true]
      rw [hx'', scan_on (fun y hy => htasks y (by rw [hs]; exact List.mem_cons_of_mem _ hy)) _ _ _ hne]
      obtain ⟨hend, hre⟩ := scan_restart hrest hwr s.2.1 work
      rw [hwr, scan]
      have hc : (!w.tasks.isEmpty && !rest.isEmpty) = false := by
        rcases hend with hh | hh <;> simp [hh]
      simp only [hc, Bool.false_eq_true, if_false, Bool.not_false, if_true]
      rw [hre, scan_flight f tail false s.2.1 work hrest, flightLegs, hwr, hs]
      simp

/-- **C105** The parts of a mission that are counted for a task are the way to it, the task, and the waypoint after it. -/
theorem C105_legs (f : Flight) (tail : List Wp) (h : FlightOk true f tail) (v : Int) :
    legs [⟨v, flightWps f tail⟩] = (flightLegs 0 f tail).map fun l => (v, l) := by
  simp [legs, scan_flight f tail true 0 0 h]

theorem times_append_way (e : Env) {way : List Wp} (h : ∀ w ∈ way, w.tasks = []) (x : Wp) (rest : List Wp) :
    times e (way ++ x :: rest) = ((times e (x :: rest)).1, (times e (x :: rest)).2 +
      ((List.zipWith e.leg way (way.tail ++ [x])).foldr (· + ·) 0)) := by
  induction way with
  | nil => simp
  | cons w way ih =>
    have hw : w.tasks = [] := h w (List.mem_cons_self ..)
    have ih := ih fun y hy => h y (List.mem_cons_of_mem _ hy)
    cases way with
    | nil => simp [times, hw]
    | cons y way =>
      simp only [List.cons_append] at ih ⊢
      rw [times, ih]
      simp [hw]
      omega

theorem times_append_on (e : Env) {on : List Wp} (h : ∀ w ∈ on, w.tasks ≠ []) (x : Wp) :
    times e (on ++ [x]) = ((List.zipWith e.leg on (on.tail ++ [x])).foldr (· + ·) 0, 0) := by
  induction on with
  | nil => simp [times]
  | cons w on ih =>
    have hw : w.tasks.isEmpty = false := by simpa using h w (List.mem_cons_self ..)
    have ih := ih fun y hy => h y (List.mem_cons_of_mem _ hy)
    cases on with
    | nil => simp [times, hw]
    | cons y on =>
      simp only [List.cons_append] at ih ⊢
      rw [times, ih]
      simp [hw]
      omega

/-- The time from each waypoint to the next, up to `x`. -/
def flyingTime (e : Env) (ws : List Wp) (x : Wp) : Int := (List.zipWith e.leg ws (ws.tail ++ [x])).foldr (· + ·) 0

/-- **C105** The two times: from the first waypoint of the way to the task, and from there to the waypoint after the task. -/
theorem C105_times (e : Env) (way on : List Wp) (y x : Wp) (hw : ∀ w ∈ way, w.tasks = []) (ho : ∀ w ∈ y :: on, w.tasks ≠ []) :
    times e (way ++ (y :: on) ++ [x]) = (flyingTime e (y :: on) x, flyingTime e way y) := by
  rw [List.append_assoc, List.cons_append, times_append_way e hw, ← List.cons_append, times_append_on e ho]
  simp [flyingTime]

/-! ### The summaries in the answer -/

/-- The legs about the same as the summary. -/
def legsFor (k : Int × Int × Int) (ls : List (Int × Leg)) : List Leg :=
  (ls.filter fun vl => decide (k = (vl.1, vl.2.prev, vl.2.task))).map (·.2)

theorem legsFor_snoc (k : Int × Int × Int) (ls : List (Int × Leg)) (vl : Int × Leg) :
    legsFor k (ls ++ [vl]) = legsFor k ls ++ if k = (vl.1, vl.2.prev, vl.2.task) then [vl.2] else [] := by
  unfold legsFor
  rw [List.filter_append, List.map_append]
  congr 1
  by_cases h : k = (vl.1, vl.2.prev, vl.2.task) <;> simp [h]

/-- What a summary is to report for these legs. -/
def reports (e : Env) (k : Int × Int × Int) (ls : List Leg) : VSum :=
  { vehicle := k.1, initial := k.2.1, dest := k.2.2, wps := ls.flatMap (·.wps)
    onTask := match ls.getLast? with | some l => (times e l.wps).1 | none => -1
    arrive := match ls.getLast? with | some l => (times e l.wps).2 | none => -1
    first := match ls.flatMap (·.wps) with | w :: _ => w.number | [] => 0 }

theorem applyLegs_reports (e : Env) (v i d : Int) (ls : List (Int × Leg)) (hne : ∀ vl ∈ ls, vl.2.wps ≠ []) :
    applyLegs e ls { vehicle := v, initial := i, dest := d } = reports e (v, i, d) (legsFor (v, i, d) ls) := by
  induction ls using snocRec with
  | nil => rfl
  | append_singleton ls vl ih =>
    have ih := ih fun x hx => hne x (List.mem_append_left _ hx)
    rw [applyLegs_append, ih, legsFor_snoc]
    show applyLeg e vl _ = _
    unfold applyLeg
    by_cases hk : (v, i, d) = (vl.1, vl.2.prev, vl.2.task)
    · rw [if_pos (show (reports e (v, i, d) (legsFor (v, i, d) ls)).key = _ from hk), if_pos hk]
      have h1 : vl.2.wps.isEmpty = false := by simpa using hne vl (by simp)
      unfold VSum.add
      rw [if_neg (by rw [h1]; decide)]
      simp only [reports, List.flatMap_append, List.flatMap_cons, List.flatMap_nil, List.append_nil, List.getLast?_concat]
      congr 1
      have h2 : List.flatMap (fun x : Leg => x.wps) (legsFor (v, i, d) ls) ++ vl.2.wps ≠ [] := fun hh =>
        hne vl (by simp) (List.append_eq_nil_iff.mp hh).2
      revert h2
      cases List.flatMap (fun x : Leg => x.wps) (legsFor (v, i, d) ls) ++ vl.2.wps with
      | nil => intro h2; exact absurd rfl h2
      | cons w ws => intro _; rfl
    · rw [if_neg (show ¬(reports e (v, i, d) (legsFor (v, i, d) ls)).key = _ from hk), if_neg hk, List.append_nil]

theorem scan_wps_ne : ∀ (ws seg : List Wp) (going : Bool) (work prev : Int), ∀ l ∈ scan seg going work prev ws, l.wps ≠ []
  | [], seg, going, work, prev, l, h => by simp [scan] at h
  | w :: ws, seg, going, work, prev, l, h => by
    rw [scan] at h
    split at h
    · split at h
      · exact scan_wps_ne ws _ _ _ _ l h
      · exact scan_wps_ne ws _ _ _ _ l h
    · split at h
      · rcases List.mem_cons.mp h with rfl | h
        · simp
        · exact scan_wps_ne ws _ _ _ _ l h
      · exact scan_wps_ne ws _ _ _ _ l h

theorem legs_wps_ne {ms : List Mission} {vl : Int × Leg} (h : vl ∈ legs ms) : vl.2.wps ≠ [] := by
  obtain ⟨m, _, h⟩ := List.mem_flatMap.mp h
  obtain ⟨l, hl, rfl⟩ := List.mem_map.mp h
  exact scan_wps_ne _ _ _ _ _ l hl

theorem used_wps_ne : ∀ (h : List Op) (ids : List Int), ∀ vl ∈ usedLegs ids h, vl.2.wps ≠ []
  | [], ids, vl, hm => by simp [usedLegs] at hm
  | o :: h, ids, vl, hm => by
    cases o with
    | response id ms =>
      rw [usedLegs] at hm
      split at hm
      · rcases List.mem_append.mp hm with hm | hm
        · exact legs_wps_ne hm
        · exact used_wps_ne h _ vl hm
      · exact used_wps_ne h _ vl hm
    | _ => exact used_wps_ne h ids vl hm

theorem usedLegs_append (h h' : List Op) : ∀ ids : List Int, usedLegs ids (h ++ h') = usedLegs ids h ++ usedLegs (left ids h) h' := by
  induction h with
  | nil => intro ids; rw [left_nil]; rfl
  | cons o h ih =>
    intro ids
    cases o with
    | response id ms =>
      rw [List.cons_append, usedLegs, usedLegs, left_response]
      split
      · rw [ih, List.append_assoc]
      · next hn => rw [ih, filter_absent hn]
    | _ =>
      rw [List.cons_append, usedLegs_other (by intro _ _ hh; cases hh), usedLegs_other (by intro _ _ hh; cases hh), ih]
      unfold left
      rw [received_other (by intro _ _ hh; cases hh)]

/-- What the summaries of a request are about: task by task, the vehicle, the task before and the task. -/
def keysFor (r : Req) (t : Int) : List (Int × Int × Int) :=
  if r.related then r.vehicles.flatMap fun v => r.tasks.map fun i => (v, if i = t then 0 else i, t)
  else r.vehicles.map fun v => (v, 0, t)

theorem filter_flatMap' {α β : Type} (p : β → Bool) (f : α → List β) : ∀ l : List α,
    (l.flatMap f).filter p = l.flatMap fun a => (f a).filter p
  | [] => rfl
  | a :: l => by simp [List.filter_append, filter_flatMap' p f l]

theorem flatMap_single {α β : Type} [DecidableEq α] (f : α → List β) {l : List α} {t : α} (hn : l.Nodup) (ht : t ∈ l)
    (h : ∀ a ∈ l, a ≠ t → f a = []) : l.flatMap f = f t := by
  induction l with
  | nil => cases ht
  | cons a l ih =>
    simp only [List.nodup_cons] at hn
    rw [List.flatMap_cons]
    by_cases hat : a = t
    · have : l.flatMap f = [] := by
        rw [List.flatMap_eq_nil_iff]
        intro b hb
        exact h b (List.mem_cons_of_mem _ hb) fun hh => hn.1 (by rw [hat, ← hh]; exact hb)
      rw [this, List.append_nil, hat]
    · rw [h a (List.mem_cons_self ..) hat, List.nil_append]
      refine ih hn.2 ?_ fun b hb => h b (List.mem_cons_of_mem _ hb)
      rcases List.mem_cons.mp ht with hh | hh
      · exact absurd hh.symm hat
      · exact hh

theorem keys_of_task {r : Req} (ht : r.tasks.Nodup) {t : Int} (hm : t ∈ r.tasks) :
    ((((parts r).map (·.2)).filter fun s => s.dest == t).map VSum.key) = keysFor r t := by
  unfold parts keysFor
  by_cases hr : r.related
  · simp only [hr, Bool.not_true, Bool.false_eq_true, if_false, if_true]
    rw [List.map_flatMap, filter_flatMap', List.map_flatMap]
    congr 1
    funext v
    rw [List.map_flatMap, filter_flatMap', List.map_flatMap, show (r.tasks.map fun i => (v, if i = t then 0 else i, t)) =
      r.tasks.flatMap fun i => [(v, if i = t then 0 else i, t)] from by rw [List.map_eq_flatMap]]
    congr 1
    funext i
    rw [List.map_cons, List.map_map, List.filter_cons]
    by_cases hi : i = t
    · subst hi
      have : ((r.tasks.filter fun j => !(i == j)).map ((fun x : Option Ask × VSum => x.2) ∘ fun j =>
          (some ⟨[i, j], v, inOrder i j, 0⟩, { vehicle := v, initial := i, dest := j }))).filter (fun s => s.dest == i) = [] := by
        rw [List.filter_eq_nil_iff]
        intro s hs
        simp only [List.mem_map, List.mem_filter, Function.comp_apply] at hs
        obtain ⟨j, ⟨_, hj⟩, rfl⟩ := hs
        intro hh
        simp only [beq_iff_eq] at hh
        simp [hh] at hj
      rw [this]
      simp [VSum.key]
    · have hnd : (r.tasks.filter fun j => !(i == j)).Nodup := ht.sublist List.filter_sublist
      have hmt : t ∈ r.tasks.filter fun j => !(i == j) := List.mem_filter.mpr ⟨hm, by simpa using hi⟩
      have hone := flatMap_single (fun j => if j = t then
        [({ vehicle := v, initial := i, dest := j } : VSum)] else []) hnd hmt (by intro a _ ha; simp [ha])
      have : ((r.tasks.filter fun j => !(i == j)).map ((fun x : Option Ask × VSum => x.2) ∘ fun j =>
          (some ⟨[i, j], v, inOrder i j, 0⟩, { vehicle := v, initial := i, dest := j }))).filter (fun s => s.dest == t) =
          (r.tasks.filter fun j => !(i == j)).flatMap fun j => if j = t then
            [({ vehicle := v, initial := i, dest := j } : VSum)] else [] := by
        induction (r.tasks.filter fun j => !(i == j)) with
        | nil => rfl
        | cons j l ih =>
          rw [List.map_cons, List.filter_cons, List.flatMap_cons, ih]
          by_cases hj : j = t <;> simp [hj]
      rw [this, hone]
      simp [VSum.key, hi]
  · simp only [hr, Bool.not_false, if_true, Bool.false_eq_true, if_false]
    rw [List.map_flatMap, filter_flatMap', List.map_flatMap]
    rw [flatMap_single _ ht hm]
    · simp [List.filter_map, Function.comp_def, VSum.key, List.filter_eq_self.mpr]
    · intro a _ ha
      simp [List.filter_map, Function.comp_def, ha]

theorem parts_default {r : Req} {s : VSum} (h : s ∈ (parts r).map (·.2)) :
    s = { vehicle := s.vehicle, initial := s.initial, dest := s.dest } := by
  obtain ⟨p, hp, rfl⟩ := List.mem_map.mp h
  unfold parts at hp
  split at hp
  · simp only [List.mem_flatMap, List.mem_map] at hp
    obtain ⟨t, _, v, _, rfl⟩ := hp; rfl
  · simp only [List.mem_flatMap, List.mem_cons, List.mem_map] at hp
    obtain ⟨v, _, i, _, rfl | ⟨j, _, rfl⟩⟩ := hp <;> rfl

/-- **C105** The summaries in the answer: for each task of the request, one for each vehicle (and each task before), and each
reports the legs of the plans for this vehicle, task before and task: their waypoints, and the times of the last one. -/
theorem C105_summaries (e : Env) (pre : List Op) (r : Req) (mid : List Op) (id : Int) (ms : List Mission)
    (hl : LastOf (asked e pre r) mid id) (ht : r.tasks.Nodup) (hv : r.vehicles.Nodup) (h0 : (0 : Int) ∉ r.tasks) :
    ∃ a, sent e (pre ++ .request r :: mid) (.response id ms) = [.answer a] ∧ a.id = r.id ∧
      a.sums.map (fun T => (T.task, T.perf.map VSum.bare)) = r.tasks.map fun t => (t, (keysFor r t).map fun k =>
        reports e k (legsFor k (usedLegs (asked e pre r) (mid ++ [.response id ms])))) := by
  obtain ⟨k, r', hg, hw, hid, _, hev⟩ := at_last e hl
  have hi := inv_run e (pre ++ .request r :: mid) inv_init
  have hs := start_shape ht hv h0
  refine ⟨plansIn e (runM (St.step e) {} (pre ++ .request r :: mid)).1 ms r', ?_, hid, ?_⟩
  · show (St.response e _ id ms).2 = _
    rw [response_last hi hg (left_last hl).1 hw (left_last hl).2]
  · obtain ⟨F, hF, hb⟩ := (hev hs).step hs ms (runM (St.step e) {} (pre ++ .request r :: mid)).1
    have hused : usedLegs (asked e pre r) (mid ++ [.response id ms]) = usedLegs (asked e pre r) mid ++ legs ms := by
      rw [usedLegs_append, usedLegs, if_pos (left_last hl).1]
      simp [usedLegs]
    have hne : ∀ vl ∈ usedLegs (asked e pre r) mid ++ legs ms, vl.2.wps ≠ [] := by
      rw [← hused]; exact used_wps_ne _ _
    rw [hused]
    show List.map _ (vmap _ _) = _
    rw [hF, start_sums ht]
    simp only [vmap, List.map_map, Function.comp_def]
    refine List.map_congr_left fun t htm => ?_
    simp only [Prod.mk.injEq, true_and]
    rw [← keys_of_task ht htm, List.map_map]
    refine List.map_congr_left fun s hsm => ?_
    have hd := parts_default (List.mem_filter.mp hsm).1
    rw [Function.comp_apply, hb]
    have : s.bare = { vehicle := s.vehicle, initial := s.initial, dest := s.dest } := by
      rw [hd]; rfl
    rw [this, applyLegs_reports e _ _ _ _ hne]
    rfl

/-! ### One plan for each vehicle and task -/

theorem mem_asks_zip {e : Env} {h : List Op} {r : Req} {i : Int} (hi : i ∈ asked e h r) :
    ∃ a ∈ asks r, Out.ask i a ∈ sent e h (.request r) := by
  change i ∈ askIds (sent e h (.request r)) at hi
  obtain ⟨o, ho, hoi⟩ := List.mem_filterMap.mp hi
  cases o with
  | answer => cases hoi
  | ask j a =>
    simp only [Option.some.injEq] at hoi
    subst hoi
    have hr : asks r ≠ [] := by
      intro hh
      obtain ⟨x, hx, _⟩ := C103_at_once e h r (asked_nil.mpr hh)
      rw [hx] at ho; simp at ho
    obtain ⟨⟨ids, _, hlen, hz⟩, _⟩ := C104_sent e h r hr
    refine ⟨a, ?_, ho⟩
    rw [hz] at ho
    have hzip : ∀ (ids : List Int) (as : List Ask), Out.ask j a ∈ List.zipWith Out.ask ids as → a ∈ as := by
      intro ids
      induction ids with
      | nil => intro as h; simp at h
      | cons x ids ih =>
        intro as h
        cases as with
        | nil => simp at h
        | cons b as =>
          rw [List.zipWith_cons_cons, List.mem_cons] at h
          rcases h with h | h
          · simp only [Out.ask.injEq] at h; rw [h.2]; exact List.mem_cons_self ..
          · exact List.mem_cons_of_mem _ (ih as h)
    exact hzip _ _ ho

/-- The legs of plans that each consist of the one leg `g i` of the vehicle and task of its request. -/
theorem usedLegs_plans {g : Int → Int × Leg} : ∀ (h : List Op) (ids : List Int), ids.Nodup →
    (∀ i ms, .response i ms ∈ h → i ∈ ids → legs ms = [g i]) → (∀ i ∈ ids, i ∈ received h) →
    ∃ l : List Int, (∀ i, i ∈ l ↔ i ∈ ids) ∧ l.Nodup ∧ usedLegs ids h = l.map g
  | [], ids, hn, _, hr => by
    cases ids with
    | nil => exact ⟨[], by simp, by simp, rfl⟩
    | cons i ids => exact absurd (hr i (List.mem_cons_self ..)) (by simp [received])
  | o :: h, ids, hn, hg, hr => by
    by_cases ho : ∃ i ms, o = .response i ms
    · obtain ⟨i, ms, rfl⟩ := ho
      rw [usedLegs]
      by_cases hi : i ∈ ids
      · rw [if_pos hi, hg i ms (List.mem_cons_self ..) hi]
        obtain ⟨l, h₁, h₂, h₃⟩ := usedLegs_plans (g := g) h (ids.filter fun x => !(x == i)) (hn.sublist List.filter_sublist)
          (fun j ms' hj hj' => hg j ms' (List.mem_cons_of_mem _ hj) (List.mem_filter.mp hj').1) (by
            intro j hj
            obtain ⟨hj₁, hj₂⟩ := List.mem_filter.mp hj
            have := hr j hj₁
            rw [received_response, List.mem_cons] at this
            rcases this with rfl | this
            · simp at hj₂
            · exact this)
        refine ⟨i :: l, ?_, ?_, by rw [h₃]; rfl⟩
        · intro j
          rw [List.mem_cons, h₁, List.mem_filter]
          constructor
          · rintro (rfl | ⟨hj, _⟩)
            · exact hi
            · exact hj
          · intro hj
            by_cases hji : j = i
            · exact .inl hji
            · exact .inr ⟨hj, by simpa using hji⟩
        · rw [List.nodup_cons, h₁]
          exact ⟨fun hh => by simp [List.mem_filter] at hh, h₂⟩
      · rw [if_neg hi]
        refine usedLegs_plans h ids hn (fun j ms' hj => hg j ms' (List.mem_cons_of_mem _ hj)) ?_
        intro j hj
        have := hr j hj
        rw [received_response, List.mem_cons] at this
        rcases this with rfl | this
        · exact absurd hj hi
        · exact this
    · have hne : ∀ i ms, o ≠ .response i ms := fun i ms hh => ho ⟨i, ms, hh⟩
      rw [usedLegs_other hne]
      refine usedLegs_plans h ids hn (fun j ms' hj => hg j ms' (List.mem_cons_of_mem _ hj)) ?_
      intro j hj
      have := hr j hj
      rw [received_other hne] at this
      exact this

theorem filter_one {α : Type} {l : List α} {a : α} {p : α → Bool} (hn : l.Nodup) (ha : a ∈ l) (h : ∀ b ∈ l, p b = true ↔ b = a) :
    l.filter p = [a] := by
  induction l with
  | nil => cases ha
  | cons b l ih =>
    simp only [List.nodup_cons] at hn
    rw [List.filter_cons]
    by_cases hb : b = a
    · subst hb
      rw [if_pos ((h b (List.mem_cons_self ..)).mpr rfl)]
      have : l.filter p = [] := by
        rw [List.filter_eq_nil_iff]
        intro c hc hp
        exact hn.1 (((h c (List.mem_cons_of_mem _ hc)).mp hp) ▸ hc)
      rw [this]
    · rw [if_neg (fun hp => hb ((h b (List.mem_cons_self ..)).mp hp))]
      refine ih hn.2 ?_ fun c hc => h c (List.mem_cons_of_mem _ hc)
      rcases List.mem_cons.mp ha with hh | hh
      · exact absurd hh.symm hb
      · exact hh

theorem asks_inj {e : Env} {h : List Op} {r : Req} (ht : r.tasks.Nodup) (hv : r.vehicles.Nodup) {i j : Int} {a : Ask}
    (hi : Out.ask i a ∈ sent e h (.request r)) (hj : Out.ask j a ∈ sent e h (.request r)) : i = j := by
  have hr : asks r ≠ [] := by
    intro hh
    obtain ⟨x, hx, _⟩ := C103_at_once e h r (asked_nil.mpr hh)
    rw [hx] at hi; simp at hi
  obtain ⟨⟨ids, hdn, hlen, hz⟩, _⟩ := C104_sent e h r hr
  have hnd := C104_distinct r ht hv
  rw [hz] at hi hj
  generalize asks r = as at hnd hlen hi hj
  clear hz hr hdn
  induction ids generalizing as with
  | nil => simp at hi
  | cons x ids ih =>
    cases as with
    | nil => simp at hi
    | cons b as =>
      have hmem : ∀ (k : Int) (ids : List Int) (as : List Ask), Out.ask k a ∈ List.zipWith Out.ask ids as → a ∈ as := by
        intro k ids
        induction ids with
        | nil => intro as h; simp at h
        | cons x ids ih =>
          intro as h
          cases as with
          | nil => simp at h
          | cons b as =>
            rw [List.zipWith_cons_cons, List.mem_cons] at h
            rcases h with h | h
            · simp only [Out.ask.injEq] at h; rw [h.2]; exact List.mem_cons_self ..
            · exact List.mem_cons_of_mem _ (ih as h)
      simp only [List.nodup_cons] at hnd
      rw [List.zipWith_cons_cons, List.mem_cons] at hi hj
      simp only [Out.ask.injEq] at hi hj
      rcases hi with ⟨rfl, rfl⟩ | hi <;> rcases hj with ⟨rfl, hj⟩ | hj
      · rfl
      · exact absurd (hmem _ _ _ hj) hnd.1
      · subst hj; exact absurd (hmem _ _ _ hi) hnd.1
      · exact ih as hnd.2 (by simpa using hlen) hi hj

/-- **C105** For tasks without relationships: if each automation request, for a task and a vehicle, is answered by a mission that
flies the way to the task, the task and on, then the summary for this vehicle and task has the waypoints of the way and the task
and the one after, the time of the way and the time on the task. -/
theorem C105_planned_partial (e : Env) (pre : List Op) (r : Req) (mid : List Op) (id : Int) (ms : List Mission)
    (hl : LastOf (asked e pre r) mid id) (ht : r.tasks.Nodup) (hv : r.vehicles.Nodup) (h0 : (0 : Int) ∉ r.tasks)
    (hr : r.related = false) (way on : Int → Int → List Wp) (tail : Int → Int → List Wp)
    (hok : ∀ t ∈ r.tasks, ∀ v ∈ r.vehicles, FlightOk true [(way t v, t, on t v)] (tail t v))
    (hplan : ∀ i ms', .response i ms' ∈ mid ++ [.response id ms] → ∀ t v, .ask i ⟨[t], v, [], 0⟩ ∈ sent e pre (.request r) →
      ms' = [⟨v, way t v ++ on t v ++ tail t v⟩]) :
    ∃ a, sent e (pre ++ .request r :: mid) (.response id ms) = [.answer a] ∧ a.id = r.id ∧
      a.sums.map (fun T => (T.task, T.perf.map VSum.bare)) = r.tasks.map fun t => (t, r.vehicles.map fun v =>
        { vehicle := v, initial := 0, dest := t
          wps := way t v ++ on t v ++ (tail t v).head?.toList
          onTask := (times e (way t v ++ on t v ++ (tail t v).head?.toList)).1
          arrive := (times e (way t v ++ on t v ++ (tail t v).head?.toList)).2
          first := match way t v ++ on t v with | w :: _ => w.number | [] => 0 }) := by
  obtain ⟨a, h₁, h₂, h₃⟩ := C105_summaries e pre r mid id ms hl ht hv h0
  refine ⟨a, h₁, h₂, h₃.trans ?_⟩
  refine List.map_congr_left fun t htm => ?_
  simp only [Prod.mk.injEq, true_and]
  rw [keysFor, hr]
  simp only [Bool.false_eq_true, if_false, List.map_map]
  refine List.map_congr_left fun v hvm => ?_
  rw [Function.comp_apply]
  -- the leg of each automation request
  have hask : ∀ i ∈ asked e pre r, ∃ t v, t ∈ r.tasks ∧ v ∈ r.vehicles ∧ Out.ask i ⟨[t], v, [], 0⟩ ∈ sent e pre (.request r) := by
    intro i hi
    obtain ⟨b, hb, hib⟩ := mem_asks_zip hi
    obtain ⟨t, ht', v, hv', h₁, h₂, h₃, h₄⟩ := (C104_pairs r hr b).mp hb
    refine ⟨t, v, ht', hv', ?_⟩
    obtain ⟨bt, bv, br, bg⟩ := b
    simp only at h₁ h₂ h₃ h₄
    subst h₁; subst h₂; subst h₃; subst h₄
    exact hib
  have hnd : (asked e pre r).Nodup := by
    show (askIds (St.request _ r).2).Nodup
    rw [askIds_request]; exact number_nodup ..
  have hleg : ∀ i ms', .response i ms' ∈ mid ++ [.response id ms] → ∀ t v, t ∈ r.tasks → v ∈ r.vehicles →
      Out.ask i ⟨[t], v, [], 0⟩ ∈ sent e pre (.request r) →
      legs ms' = [(v, ⟨0, t, way t v ++ on t v ++ (tail t v).head?.toList⟩)] := by
    intro i ms' hm t v ht' hv' ha
    rw [hplan i ms' hm t v ha]
    have := C105_legs [(way t v, t, on t v)] (tail t v) (hok t ht' v hv') v
    simpa [flightWps, flightLegs] using this
  -- choose the leg by the id
  have hrecv : ∀ i ∈ asked e pre r, i ∈ received (mid ++ [.response id ms]) := by
    intro i hi
    have hsplit : received (mid ++ [.response id ms]) = received mid ++ [id] := by
      unfold received; rw [List.filterMap_append]; rfl
    rw [hsplit, List.mem_append]
    by_cases hii : i = id
    · exact .inr (by simp [hii])
    · exact .inl (hl.2.2 i hi hii)
  have hch : ∀ i, ∃ vl : Int × Leg, ∀ ms', .response i ms' ∈ mid ++ [.response id ms] → i ∈ asked e pre r → legs ms' = [vl] ∧
      ∃ t v, t ∈ r.tasks ∧ v ∈ r.vehicles ∧ Out.ask i ⟨[t], v, [], 0⟩ ∈ sent e pre (.request r) ∧
        vl = (v, ⟨0, t, way t v ++ on t v ++ (tail t v).head?.toList⟩) := by
    intro i
    by_cases hi : i ∈ asked e pre r
    · obtain ⟨t, v, ht', hv', ha⟩ := hask i hi
      exact ⟨_, fun ms' hm _ => ⟨hleg i ms' hm t v ht' hv' ha, t, v, ht', hv', ha, rfl⟩⟩
    · exact ⟨(0, ⟨0, 0, []⟩), fun ms' _ hh => absurd hh hi⟩
  let g : Int → Int × Leg := fun i => (hch i).choose
  have hg := fun i => (hch i).choose_spec
  obtain ⟨l, hlm, hln, hlu⟩ := usedLegs_plans (g := g) (mid ++ [.response id ms]) (asked e pre r) hnd
    (fun i ms' hm hi => (hg i ms' hm hi).1) hrecv
  have hgi : ∀ i ∈ l, ∃ t v, t ∈ r.tasks ∧ v ∈ r.vehicles ∧ Out.ask i ⟨[t], v, [], 0⟩ ∈ sent e pre (.request r) ∧
      g i = (v, ⟨0, t, way t v ++ on t v ++ (tail t v).head?.toList⟩) := by
    intro i hi
    have hia := (hlm i).mp hi
    have hr' := hrecv i hia
    obtain ⟨o, ho, hoi⟩ := List.mem_filterMap.mp hr'
    cases o with
    | response j ms' =>
      simp only [Option.some.injEq] at hoi
      subst hoi
      exact (hg j ms' ho hia).2
    | _ => cases hoi
  -- the automation request for this task and vehicle
  obtain ⟨i₀, hi₀⟩ : ∃ i, Out.ask i ⟨[t], v, [], 0⟩ ∈ sent e pre (.request r) := by
    have hm : (⟨[t], v, [], 0⟩ : Ask) ∈ asks r := (C104_pairs r hr _).mpr ⟨t, htm, v, hvm, rfl, rfl, rfl, rfl⟩
    have hne : asks r ≠ [] := fun hh => by rw [hh] at hm; cases hm
    obtain ⟨⟨ids, hdn, hlen, hz⟩, _⟩ := C104_sent e pre r hne
    rw [hz]
    clear hdn hz hlm hlu hgi hg g
    generalize asks r = as at hm hlen
    clear hne
    induction ids generalizing as with
    | nil =>
      have : as = [] := List.length_eq_zero_iff.mp hlen.symm
      subst this; cases hm
    | cons x ids ih =>
      cases as with
      | nil => cases hm
      | cons b as =>
        rcases List.mem_cons.mp hm with hm | hm
        · exact ⟨x, by rw [List.zipWith_cons_cons, hm]; exact List.mem_cons_self ..⟩
        · obtain ⟨i, hi⟩ := ih as hm (by simpa using hlen)
          exact ⟨i, by rw [List.zipWith_cons_cons]; exact List.mem_cons_of_mem _ hi⟩
  have hi₀l : i₀ ∈ l := (hlm i₀).mpr (List.mem_filterMap.mpr ⟨_, hi₀, rfl⟩)
  have hsel : l.filter (fun i => decide ((v, (0 : Int), t) = ((g i).1, (g i).2.prev, (g i).2.task))) = [i₀] := by
    refine filter_one hln hi₀l fun i hi => ?_
    obtain ⟨t', v', _, _, ha, hgi'⟩ := hgi i hi
    rw [hgi']
    simp only [decide_eq_true_eq, Prod.mk.injEq, true_and]
    constructor
    · rintro ⟨rfl, rfl⟩
      exact asks_inj ht hv ha hi₀
    · rintro rfl
      have hz := hi₀
      have : ∀ (o₁ o₂ : Ask), Out.ask i o₁ ∈ sent e pre (.request r) → Out.ask i o₂ ∈ sent e pre (.request r) → o₁ = o₂ := by
        intro o₁ o₂ ho₁ ho₂
        have hne : asks r ≠ [] := by
          intro hh
          obtain ⟨x, hx, _⟩ := C103_at_once e pre r (asked_nil.mpr hh)
          rw [hx] at ho₁; simp at ho₁
        obtain ⟨⟨ids, hidn, hlen, hz⟩, _⟩ := C104_sent e pre r hne
        rw [hz] at ho₁ ho₂
        clear hz
        have hmem : ∀ (o : Ask) (ids : List Int) (as : List Ask), Out.ask i o ∈ List.zipWith Out.ask ids as → i ∈ ids := by
          intro o ids
          induction ids with
          | nil => intro as h; simp at h
          | cons x ids ih =>
            intro as h
            cases as with
            | nil => simp at h
            | cons b as =>
              rw [List.zipWith_cons_cons, List.mem_cons] at h
              rcases h with h | h
              · simp only [Out.ask.injEq] at h; rw [h.1]; exact List.mem_cons_self ..
              · exact List.mem_cons_of_mem _ (ih as h)
        generalize asks r = as at ho₁ ho₂ hlen
        clear hne
        induction ids generalizing as with
        | nil => simp at ho₁
        | cons x ids ih =>
          cases as with
          | nil => simp at ho₁
          | cons b as =>
            simp only [List.nodup_cons] at hidn
            rw [List.zipWith_cons_cons, List.mem_cons] at ho₁ ho₂
            simp only [Out.ask.injEq] at ho₁ ho₂
            rcases ho₁ with ⟨rfl, rfl⟩ | ho₁ <;> rcases ho₂ with ⟨hx, rfl⟩ | ho₂
            · rfl
            · exact absurd (hmem _ _ _ ho₂) hidn.1
            · subst hx; exact absurd (hmem _ _ _ ho₁) hidn.1
            · exact ih hidn.2 as ho₁ ho₂ (by simpa using hlen)
      have := this _ _ ha hi₀
      simp only [Ask.mk.injEq, List.cons.injEq, and_true] at this
      exact ⟨this.2.symm, this.1.symm⟩
  have hfor : legsFor (v, 0, t) (usedLegs (asked e pre r) (mid ++ [.response id ms])) =
      [⟨0, t, way t v ++ on t v ++ (tail t v).head?.toList⟩] := by
    rw [hlu]
    unfold legsFor
    rw [List.filter_map]
    have : ((fun vl : Int × Leg => decide ((v, (0 : Int), t) = (vl.1, vl.2.prev, vl.2.task))) ∘ g) =
        fun i => decide ((v, (0 : Int), t) = ((g i).1, (g i).2.prev, (g i).2.task)) := rfl
    rw [this, hsel]
    obtain ⟨t', v', _, _, ha, hgi'⟩ := hgi i₀ hi₀l
    have hh : i₀ ∈ l.filter (fun i => decide ((v, (0 : Int), t) = ((g i).1, (g i).2.prev, (g i).2.task))) := by
      rw [hsel]; exact List.mem_cons_self ..
    have hk := (List.mem_filter.mp hh).2
    rw [hgi'] at hk
    simp only [decide_eq_true_eq, Prod.mk.injEq, true_and] at hk
    obtain ⟨rfl, rfl⟩ := hk
    simp [hgi']
  rw [hfor]
  have hone : on t v ≠ [] := (hok t htm v hvm).2.2.1
  simp only [reports, List.flatMap_cons, List.flatMap_nil, List.append_nil, List.getLast?_singleton]
  congr 1
  cases hw : way t v ++ on t v with
  | nil => exact absurd (List.append_eq_nil_iff.mp hw).2 hone
  | cons w ws => rfl

/-- Plans for the example: one waypoint on the way, two on the task, one after. -/
def exWay (_ v : Int) : List Wp := [{ number := v }]
/-- Not in the code: an example. -/
def exOn (t v : Int) : List Wp := [{ number := v + 1, tasks := [t] }, { number := v + 2, tasks := [t] }]
/-- Not in the code: an example. -/
def exTail (_ v : Int) : List Wp := [{ number := v + 3 }]

example : (∀ t ∈ exReq.tasks, ∀ v ∈ exReq.vehicles, FlightOk true [(exWay t v, t, exOn t v)] (exTail t v)) ∧
    ∃ a, sent exEnv [.request exReq, .response 2 [⟨2, exWay 10 2 ++ exOn 10 2 ++ exTail 10 2⟩]]
        (.response 1 [⟨1, exWay 10 1 ++ exOn 10 1 ++ exTail 10 1⟩]) = [.answer a] ∧
      a.sums.map (fun T => (T.task, T.perf.map fun s => (s.vehicle, s.wps.map (·.number), s.onTask, s.arrive))) =
        [(10, [(1, [1, 2, 3, 4], 10, 5), (2, [2, 3, 4, 5], 10, 5)])] := by
  refine ⟨?_, _, rfl, by decide +kernel⟩
  intro t ht v hv
  simp only [exReq, List.mem_cons, List.not_mem_nil, or_false] at ht hv
  subst ht
  refine ⟨by simp [exWay], by simp [exWay], by simp [exOn], by simp [exOn], ⟨by show (-2147483648 : Int) ≤ 10; omega, by show (10 : Int) < 2147483648; omega⟩, by simp [exTail], by simp [exTail]⟩

/-! ### Violations -/

/-- Three tasks in relation, for one vehicle; each automation request is planned as wanted. -/
def exThree : Req := ⟨8, [1], [10, 20, 30], true, 0⟩

/-- A plan for `i` and then `j`. -/
def exPlan (i j : Int) : List Mission :=
  [⟨1, flightWps [([{ number := 1 }], i, [{ number := 2, tasks := [i] }]), ([{ number := 3 }], j, [{ number := 4, tasks := [j] }])]
    [{ number := 5 }]⟩]

/-- **C105** is violated with relationships: the waypoints of the way to a first task are listed once for each task after it. -/
theorem C105_violated_repeated :
    ∃ a, sent exEnv [.request exThree, .response 1 (exPlan 10 20), .response 2 (exPlan 10 30), .response 3 (exPlan 20 10),
        .response 4 (exPlan 20 30), .response 5 (exPlan 30 10)] (.response 6 (exPlan 30 20)) = [.answer a] ∧
      (a.sums.head?.bind fun T => T.perf.head?).map (fun s => (s.key, s.wps.map (·.number))) =
        some ((1, 0, 10), [1, 2, 3, 1, 2, 3]) := ⟨_, rfl, by decide +kernel⟩

/-- **C105** is violated when the plan goes from task to task without a waypoint between: both are counted as the first, and
nothing is reported for the second. -/
theorem C105_violated_merged :
    ∃ a, sent exEnv [.request exRelated, .response 1 [⟨1, [{ number := 1, tasks := [10] }, { number := 2, tasks := [20] }, { number := 3 }]⟩]]
        (.response 2 []) = [.answer a] ∧
      a.sums.flatMap (fun T => T.perf.map fun s => (s.key, s.wps.map (·.number))) =
        [((1, 0, 10), [1, 2, 3]), ((1, 20, 10), []), ((1, 10, 20), []), ((1, 0, 20), [])] := ⟨_, rfl, by decide +kernel⟩

/-- **C105** is violated for task ids that do not fit into 32 bits: the plan is not counted. -/
theorem C105_violated_large (w₁ w₂ : Wp) (t : Int) (ht : w₁.tasks = [t]) (hbig : 2147483648 ≤ t) :
    ∀ l ∈ scan [] true 0 0 [w₁, w₂], l.task ≠ t := by
  intro l hl
  simp [scan, ht] at hl
  rw [hl]
  show toInt32 t ≠ t
  unfold toInt32
  omega

example : sent exEnv [.request ⟨7, [1], [4294967297], false, 0⟩]
    (.response 1 [⟨1, [{ number := 1, tasks := [4294967297] }, { number := 2 }]⟩]) =
    [.answer ⟨7, [⟨4294967297, [⟨1, 0, 4294967297, -1, -1, [], 0, ⟨false, 100000, true⟩⟩]⟩]⟩] := by decide +kernel

end Verif.Batch
