import Verif.PlanBuilder.Derived

/-! Links and numbers of the waypoints of a mission; the ids of mission commands; overrides. -/

namespace Verif.PlanBuilder

open Verif

/-- Each leg leads to the one after it. -/
def Linked : List Leg → Prop
  | [] => True
  | [_] => True
  | a :: b :: l => a.next = b.number ∧ Linked (b :: l)

/-- Numbers counting up from `n`. -/
def CountsFrom (n : Int) (l : List Int) : Prop := ∀ (j : Nat) (x : Int), l[j]? = some x → x = n + j

/-! ### Links -/

theorem linked_append : ∀ {a : List Leg} {b : Leg} {l : List Leg}, Linked a →
    (∀ x, a.getLast? = some x → x.next = b.number) → Linked (b :: l) → Linked (a ++ b :: l)
  | [], _, _, _, _, h => h
  | [x], b, l, _, h1, h2 => ⟨h1 x rfl, h2⟩
  | x :: y :: a, b, l, h, h1, h2 => by
    refine ⟨h.1, ?_⟩
    exact linked_append (a := y :: a) h.2 (fun z hz => h1 z (by simpa using hz)) h2

theorem linked_setLast (n : Int) : ∀ {ws : List Wp}, Linked (ws.map Wp.leg) → Linked ((setLast n ws).map Wp.leg)
  | [], _ => trivial
  | [_], _ => trivial
  | [a, b], h => ⟨h.1, trivial⟩
  | a :: b :: c :: ws, h => by
    have := linked_setLast n (ws := b :: c :: ws) h.2
    exact ⟨h.1, this⟩

theorem setLast_getLast? (n : Int) : ∀ {ws : List Wp} {x : Leg}, ((setLast n ws).map Wp.leg).getLast? = some x → x.next = n
  | [], x, h => by simp [setLast] at h
  | [w], x, h => by
    simp only [setLast, List.map_cons, List.map_nil, List.getLast?_singleton, Option.some.injEq] at h
    rw [← h]; rfl
  | w :: w' :: ws, x, h => by
    refine setLast_getLast? n (ws := w' :: ws) ?_
    cases hs : setLast n (w' :: ws) with
    | nil => cases ws <;> simp [setLast] at hs
    | cons y ys =>
      rw [setLast, hs] at h
      simpa using h

theorem setLast_numbers (n : Int) : ∀ ws : List Wp, (setLast n ws).map (·.number) = ws.map (·.number)
  | [] => rfl
  | [_] => rfl
  | w :: w' :: ws => by
    have := setLast_numbers n (w' :: ws)
    simp only [setLast, List.map_cons] at this ⊢
    rw [this]

theorem setLast_ne (n : Int) : ∀ {ws : List Wp}, ws ≠ [] → setLast n ws ≠ []
  | [], h => absurd rfl h
  | [_], _ => by simp [setLast]
  | w :: w' :: ws, _ => by simp [setLast]

/-- The numbers in a joined list. -/
theorem joined_numbers : ∀ xs : List (List Wp), (joined xs).map (·.number) = xs.flatMap fun ws => ws.map (·.number)
  | [] => rfl
  | [a] => by simp [joined]
  | a :: b :: rest => by
    rw [joined, List.map_append, joined_numbers (b :: rest), ← setLast_eq, setLast_numbers]
    simp

theorem joined_linked : ∀ {xs : List (List Wp)}, (∀ ws ∈ xs, ws ≠ [] ∧ Linked (ws.map Wp.leg)) →
    Linked ((joined xs).map Wp.leg)
  | [], _ => trivial
  | [a], h => (h a (by simp)).2
  | a :: b :: rest, h => by
    have hr : ∀ ws ∈ b :: rest, ws ≠ [] ∧ Linked (ws.map Wp.leg) := fun ws hw => h ws (List.mem_cons_of_mem _ hw)
    have ih := joined_linked hr
    have hne := joined_ne_nil (xs := b :: rest) (by simp) (fun x hx => (hr x hx).1)
    have hnum := joined_numbers (b :: rest)
    rw [joined, ← setLast_eq, List.map_append]
    cases hj : joined (b :: rest) with
    | nil => exact absurd hj hne
    | cons w ws =>
      rw [hj] at ih hnum
      refine linked_append (linked_setLast _ (h a (by simp)).2) ?_ ih
      intro x hx
      rw [setLast_getLast? _ hx]
      cases hb : b with
      | nil => exact absurd hb (hr b (by simp)).1
      | cons y ys =>
        rw [hb] at hnum
        simp only [List.map_cons, List.flatMap_cons, List.cons_append, List.cons.injEq] at hnum
        simp only [List.head?_cons, Option.map_some, Option.getD_some]
        exact hnum.1.symm

theorem apply_leg (os : List Override) (w : Wp) : (os.foldl (fun w o => o.apply w) w).leg = w.leg := by
  induction os generalizing w with
  | nil => rfl
  | cons o os ih => rw [List.foldl_cons, ih]; rfl

theorem apply_number (os : List Override) (w : Wp) : (os.foldl (fun w o => o.apply w) w).number = w.number := by
  have := apply_leg os w
  simp only [Wp.leg, Leg.mk.injEq] at this
  exact this.1

theorem opening_legs {os : List Override} {r : Response} {m : Mission} (h : Opening os r m) :
    m.wps.map Wp.leg = r.wps.map Wp.leg ∧ m.wps.map (·.number) = r.wps.map (·.number) := by
  obtain ⟨os', _, e⟩ := h.wps
  rw [e]
  simp [Function.comp_def, apply_leg, apply_number]

/-! ### Numbers -/

theorem CountsFrom.append {n : Int} {a b : List Int} (ha : CountsFrom n a) (hb : CountsFrom (n + a.length) b) :
    CountsFrom n (a ++ b) := by
  intro j x h
  by_cases hj : j < a.length
  · rw [List.getElem?_append_left hj] at h
    exact ha j x h
  · rw [List.getElem?_append_right (by omega)] at h
    have := hb _ _ h
    omega

theorem CountsFrom.last {n : Int} {a : List Int} (ha : CountsFrom n a) {x : Int} (h : a.getLast? = some x) :
    x = n + a.length - 1 := by
  cases a with
  | nil => simp at h
  | cons y a =>
    rw [List.getLast?_eq_getElem?] at h
    have := ha _ _ h
    simp only [List.length_cons] at this ⊢
    omega

/-- The numbers of the waypoints given for a vehicle. -/
def numbersFor (v : Int) (rs : List Response) : List Int := (givenFor v rs).flatMap fun r => r.wps.map (·.number)

theorem numbersFor_snoc (v : Int) (rs : List Response) (r : Response) :
    numbersFor v (rs ++ [r]) = numbersFor v rs ++ if r.vehicle = v then r.wps.map (·.number) else [] := by
  rw [numbersFor, givenFor_append, List.flatMap_append]
  congr 1
  by_cases hv : r.vehicle = v
  · by_cases hw : r.wps = []
    · rw [if_neg (fun h => h.2 hw), if_pos hv, hw]; rfl
    · rw [if_pos ⟨hv, hw⟩, if_pos hv]; simp
  · rw [if_neg (fun h => hv h.1), if_neg hv]; rfl

/-- The number a vehicle's waypoints go up to. -/
theorem last_number {v : Int} {rs : List Response} (h : CountsFrom 1 (numbersFor v rs)) :
    (match lastFor v rs with
      | none => 0
      | some r => ((r.wps.map (·.number)).getLast?).getD 0) = ((numbersFor v rs).length : Int) := by
  cases hl : lastFor v rs with
  | none =>
    have : givenFor v rs = [] := by simpa [lastFor] using hl
    simp [numbersFor, this]
  | some r =>
    have hmem : r ∈ givenFor v rs := List.mem_of_getLast? hl
    have hne := givenFor_ne hmem
    have : (numbersFor v rs).getLast? = (r.wps.map (·.number)).getLast? := by
      obtain ⟨pre, hpre⟩ : ∃ pre, givenFor v rs = pre ++ [r] := by
        rw [lastFor] at hl
        exact List.getLast?_eq_some_iff.mp hl
      rw [numbersFor, hpre, List.flatMap_append, List.getLast?_append]
      cases hg : (r.wps.map (·.number)).getLast? with
      | none => simp at hg; exact absurd hg hne
      | some x => simp [hg]
    cases hg : (r.wps.map (·.number)).getLast? with
    | none => simp at hg; exact absurd hg hne
    | some x =>
      rw [hg] at this
      have := h.last this
      show ((r.wps.map (·.number)).getLast?).getD 0 = _
      rw [hg, Option.getD_some]
      omega

/-! ### Overrides -/

theorem step_overrides {s : St} {q : Int} {os : List Override} (h : s.overrides = [(q, os)]) {i : In}
    (h1 : ∀ k l, i ≠ .overrides k l) (h2 : i ≠ .impactResponse q) (h3 : plansOf q (step s i).2 = []) :
    (step s i).1.overrides = [(q, os)] := by
  by_cases hub : s.ub = true
  · rw [step_ub hub]; exact h
  · have hst : ∀ x : St × List Out, (if s.ub = true then (s, []) else x) = x := fun x => if_neg hub
    have hsend : ∀ (s : St) k, (s.sendNext k).1.overrides = s.overrides := fun s q => by
      rcases sendNext_cases s q with e | ⟨_, _, _, _, _, _, _, e⟩ <;> rw [e]
    cases i with
    | state v => rw [step, hst]; exact h
    | overrides k l => exact absurd rfl (h1 k l)
    | impactResponse k =>
      rw [step, hst]
      have : q ≠ k := fun e => h2 (by rw [e])
      simp [h, Map.del, this]
    | request r => rw [step, hst]; exact h
    | summary m =>
      rw [step, hst]
      rcases summary_cases s m with ⟨e, he⟩ | ⟨r, _, _, _, he⟩ <;> rw [he]
      · exact h
      · rw [hsend]; exact h
    | response r =>
      rw [step, hst] at h3 ⊢
      rcases response_cases s r with ⟨e, _⟩ | ⟨k, ms, g1, g2, e⟩ <;> rw [e] at h3 ⊢
      · exact h
      · obtain ⟨_, _, _, _, _, _, _, _, _, e5⟩ := taken_get s k r ms g2
        rcases checkNext_cases (s.taken k r ms) k (s.absorbed r ms) with ⟨e, _⟩ | ⟨e, _⟩ | ⟨e, _⟩ | ⟨ms', _, hm, e⟩ <;>
          rw [e] at h3 ⊢
        · exact e5.trans h
        · exact (hsend _ _).trans (e5.trans h)
        · exact e5.trans h
        · by_cases hk : k = q
          · subst hk
            rw [plansOf_append, plansOf_complaint, plansOf_cons, plansOf_plan] at h3
            simp at h3
          · show Map.del _ k = _
            rw [e5, h]
            have : q ≠ k := fun e => hk e.symm
            simp [Map.del, this]

theorem step_overrides_nil {s : St} (h : s.overrides = []) {i : In} (h1 : ∀ k l, i ≠ .overrides k l) :
    (step s i).1.overrides = [] := by
  by_cases hub : s.ub = true
  · rw [step_ub hub]; exact h
  · have hst : ∀ x : St × List Out, (if s.ub = true then (s, []) else x) = x := fun x => if_neg hub
    have hsend : ∀ (s : St) k, (s.sendNext k).1.overrides = s.overrides := fun s q => by
      rcases sendNext_cases s q with e | ⟨_, _, _, _, _, _, _, e⟩ <;> rw [e]
    cases i with
    | state v => rw [step, hst]; exact h
    | overrides k l => exact absurd rfl (h1 k l)
    | impactResponse k => rw [step, hst]; simp [h, Map.del]
    | request r => rw [step, hst]; exact h
    | summary m =>
      rw [step, hst]
      rcases summary_cases s m with ⟨e, he⟩ | ⟨r, _, _, _, he⟩ <;> rw [he]
      · exact h
      · rw [hsend]; exact h
    | response r =>
      rw [step, hst]
      rcases response_cases s r with ⟨e, _⟩ | ⟨k, ms, g1, g2, e⟩ <;> rw [e]
      · exact h
      · obtain ⟨_, _, _, _, _, _, _, _, _, e5⟩ := taken_get s k r ms g2
        rcases checkNext_cases (s.taken k r ms) k (s.absorbed r ms) with ⟨e, _⟩ | ⟨e, _⟩ | ⟨e, _⟩ | ⟨ms', _, hm, e⟩ <;>
          rw [e]
        · exact e5.trans h
        · exact (hsend _ _).trans (e5.trans h)
        · exact e5.trans h
        · show Map.del _ k = _
          rw [e5, h]; rfl

theorem run_overrides {q : Int} {os : List Override} : ∀ (h : List In) (s : St), s.overrides = [(q, os)] →
    (∀ i ∈ h, (∀ k l, i ≠ .overrides k l) ∧ i ≠ .impactResponse q) → plansOf q (sent (events s h)) = [] →
    (runM step s h).1.overrides = [(q, os)]
  | [], _, hs, _, _ => hs
  | i :: h, s, hs, hi, hp => by
    rw [events_cons, show ((i, (step s i).2) :: events (step s i).1 h) = [(i, (step s i).2)] ++ events (step s i).1 h from rfl,
      sent_append, sent_single, plansOf_append, List.append_eq_nil_iff] at hp
    rw [runM_cons]
    have h1 := hi i (by simp)
    exact run_overrides h _ (step_overrides hs h1.1 h1.2 hp.1) (fun x hx => hi x (List.mem_cons_of_mem _ hx)) hp.2

theorem run_overrides_nil : ∀ (h : List In) (s : St), s.overrides = [] →
    (∀ i ∈ h, ∀ k l, i ≠ .overrides k l) → (runM step s h).1.overrides = []
  | [], _, hs, _ => hs
  | i :: h, s, hs, hi => by
    rw [runM_cons]
    exact run_overrides_nil h _ (step_overrides_nil hs (hi i (by simp))) (fun x hx => hi x (List.mem_cons_of_mem _ hx))

/-- An override for request `k` was received, and since then neither an answer to the request from elsewhere nor a plan
for it was seen. -/
def Standing (c : Config) (k : Int) (o : Override) (h : List In) : Prop :=
  ∃ h1 os h2, h = h1 ++ .overrides k os :: h2 ∧ o ∈ os ∧ .impactResponse k ∉ h2 ∧
    plansOf k (sent (events (after c (h1 ++ [.overrides k os])) h2)) = []

theorem mem_del {β : Type} {m : Map β} {k k' : Int} {v : β} (h : (k', v) ∈ m.del k) : (k', v) ∈ m ∧ k' ≠ k := by
  simpa [Map.del] using h

theorem mem_of_get {β : Type} {m : Map β} {k : Int} {v : β} (h : m.get k = some v) : (k, v) ∈ m := by
  simp only [Map.get, Option.map_eq_some_iff] at h
  obtain ⟨p, h1, h2⟩ := h
  have h3 := List.find?_some h1
  have h4 := List.mem_of_find?_eq_some h1
  simp only [beq_iff_eq] at h3
  rw [← h3, ← h2]
  exact h4

theorem step_standing {s : St} (hub : s.ub = false) {i : In} {k : Int} {os : List Override} (h : (k, os) ∈ (step s i).1.overrides) :
    plansOf k (step s i).2 = [] ∧ i ≠ .impactResponse k ∧
    ∀ o ∈ os, (∃ os', (k, os') ∈ s.overrides ∧ o ∈ os') ∨ ∃ l, i = .overrides k l ∧ o ∈ l := by
  · have hst : ∀ x : St × List Out, (if s.ub = true then (s, []) else x) = x := fun x => if_neg (by rw [hub]; simp)
    have hsend : ∀ (s : St) k, (s.sendNext k).1.overrides = s.overrides := fun s q => by
      rcases sendNext_cases s q with e | ⟨_, _, _, _, _, _, _, e⟩ <;> rw [e]
    have hsendp : ∀ (s : St) j, plansOf k (s.sendNext j).2 = [] := fun s q => by
      rcases sendNext_cases s q with e | ⟨_, _, _, _, _, _, _, e⟩ <;> rw [e] <;> rfl
    cases i with
    | state v => rw [step, hst] at h ⊢; exact ⟨rfl, by simp, fun o ho => .inl ⟨os, h, ho⟩⟩
    | overrides j l =>
      rw [step, hst] at h ⊢
      refine ⟨rfl, by simp, fun o ho => ?_⟩
      by_cases hl : l = []
      · rw [if_pos hl] at h
        exact .inl ⟨os, h, ho⟩
      · rw [if_neg hl] at h
        simp only [Map.put, List.mem_cons, Prod.mk.injEq] at h
        rcases h with ⟨rfl, rfl⟩ | h
        · rcases List.mem_append.mp ho with ho | ho
          · cases hg : s.overrides.get k with
            | none => rw [hg] at ho; simp at ho
            | some os' => 
              rw [hg] at ho
              exact .inl ⟨os', mem_of_get hg, ho⟩
          · exact .inr ⟨l, rfl, ho⟩
        · exact .inl ⟨os, (mem_del h).1, ho⟩
    | impactResponse j =>
      rw [step, hst] at h ⊢
      obtain ⟨h1, h2⟩ := mem_del h
      refine ⟨rfl, ?_, fun o ho => .inl ⟨os, h1, ho⟩⟩
      simpa using fun e => h2 e.symm
    | request r => rw [step, hst] at h ⊢; exact ⟨rfl, by simp, fun o ho => .inl ⟨os, h, ho⟩⟩
    | summary m =>
      rw [step, hst] at h ⊢
      rcases summary_cases s m with ⟨e, he⟩ | ⟨r, _, _, _, he⟩ <;> rw [he] at h ⊢
      · exact ⟨rfl, by simp, fun o ho => .inl ⟨os, h, ho⟩⟩
      · rw [hsend] at h
        exact ⟨hsendp _ _, by simp, fun o ho => .inl ⟨os, h, ho⟩⟩
    | response r =>
      rw [step, hst] at h ⊢
      rcases response_cases s r with ⟨e, _⟩ | ⟨j, ms, g1, g2, e⟩ <;> rw [e] at h ⊢
      · exact ⟨rfl, by simp, fun o ho => .inl ⟨os, h, ho⟩⟩
      · obtain ⟨_, _, _, _, _, _, _, _, _, e5⟩ := taken_get s j r ms g2
        rw [plansOf_append, plansOf_complaint, List.nil_append]
        rcases checkNext_cases (s.taken j r ms) j (s.absorbed r ms) with ⟨e, _⟩ | ⟨e, _⟩ | ⟨e, _⟩ | ⟨ms', _, hm, e⟩ <;>
          rw [e] at h ⊢
        · rw [e5] at h
          exact ⟨rfl, by simp, fun o ho => .inl ⟨os, h, ho⟩⟩
        · rw [hsend, e5] at h
          exact ⟨hsendp _ _, by simp, fun o ho => .inl ⟨os, h, ho⟩⟩
        · have h : (k, os) ∈ (s.taken j r ms).overrides := h
          rw [e5] at h
          exact ⟨rfl, by simp, fun o ho => .inl ⟨os, h, ho⟩⟩
        · have h : (k, os) ∈ Map.del (s.taken j r ms).overrides j := h
          rw [e5] at h
          obtain ⟨h1, h2⟩ := mem_del h
          refine ⟨?_, by simp, fun o ho => .inl ⟨os, h1, ho⟩⟩
          have : j ≠ k := fun e => h2 e.symm
          simp [plansOf, this]

theorem standing (c : Config) (h : List In) : (after c h).ub = false → ∀ k os, (k, os) ∈ (after c h).overrides → ∀ o ∈ os, Standing c k o h := by
  induction h using snocRec with
  | nil => intro _ k os hk; simp [after, start] at hk
  | append_singleton h i ih =>
    intro hub k os hk o ho
    have e : after c (h ++ [i]) = (step (after c h) i).1 := by rw [after, runM_snoc]; rfl
    have hub0 : (after c h).ub = false := by
      cases hu : (after c h).ub with
      | false => rfl
      | true => rw [e, step_ub hu, hu] at hub; simp at hub
    rw [e] at hk
    obtain ⟨h1, h2, h3⟩ := step_standing hub0 hk
    rcases h3 o ho with ⟨os', h4, h5⟩ | ⟨l, rfl, h4⟩
    · obtain ⟨g1, l, g2, rfl, g3, g4, g5⟩ := ih hub0 k os' h4 o h5
      refine ⟨g1, l, g2 ++ [i], by simp, g3, ?_, ?_⟩
      · simp only [List.mem_append, List.mem_singleton, not_or]
        exact ⟨g4, fun e => h2 e.symm⟩
      · rw [events_append, sent_append, plansOf_append, g5, List.nil_append, events_cons, runM_after]
        simp only [List.append_assoc, List.cons_append, List.nil_append]
        rw [show events _ [] = [] from rfl, sent_single]
        exact h1
    · exact ⟨h, l, [], rfl, h4, by simp, rfl⟩

/-! ### Command ids -/

/-- The missions of the plans sent. -/
def missionsIn (os : List Out) : List Mission := os.flatMap fun | .plan p => p.missions | _ => []

/-- Not in the code: what is known of the numbers of the commands sent. -/
structure Commands (os : List Out) (pr : Map (Option (List Mission))) (n : Int) : Prop where
  sent : ((missionsIn os).map (·.command)).Nodup
  below : ∀ m ∈ missionsIn os, m.command < n
  one : ∀ q ms, pr.get q = some (some ms) → (ms.map (·.command)).Nodup ∧ (∀ m ∈ ms, m.command < n) ∧
    ∀ m ∈ ms, m.command ∉ (missionsIn os).map (·.command)
  apart : ∀ q q' ms ms', q ≠ q' → pr.get q = some (some ms) → pr.get q' = some (some ms') →
    ∀ m ∈ ms, m.command ∉ ms'.map (·.command)

/-- Not in the code: `Commands` of the parts of a state. -/
abbrev St.Commands (os : List Out) (s : St) : Prop := PlanBuilder.Commands os s.progress s.commandId

theorem missionsIn_append (a b : List Out) : missionsIn (a ++ b) = missionsIn a ++ missionsIn b := by
  simp [missionsIn]

theorem Commands.quiet {os o : List Out} {pr : Map (Option (List Mission))} {n : Int} (h : Commands os pr n)
    (ho : missionsIn o = []) : Commands (os ++ o) pr n := by
  have e : missionsIn (os ++ o) = missionsIn os := by rw [missionsIn_append, ho, List.append_nil]
  exact ⟨by rw [e]; exact h.sent, by rw [e]; exact h.below, by rw [e]; exact h.one, h.apart⟩

theorem Commands.drop {os : List Out} {pr : Map (Option (List Mission))} {n : Int} (h : Commands os pr n) (q : Int)
    (x : Option (List Mission)) (hx : x = none ∨ x = some []) : Commands os (pr.put q x) n := by
  refine ⟨h.sent, h.below, fun k ms hk => ?_, fun k k' ms ms' hkk hk hk' => ?_⟩
  · rw [Map.get_put] at hk
    split at hk
    · rcases hx with rfl | rfl
      · simp at hk
      · simp only [Option.some.injEq] at hk; subst hk; simp
    · exact h.one k ms hk
  · rw [Map.get_put] at hk hk'
    split at hk
    · rcases hx with rfl | rfl
      · simp at hk
      · simp only [Option.some.injEq] at hk; subst hk; simp
    · split at hk'
      · rcases hx with rfl | rfl
        · simp at hk'
        · simp only [Option.some.injEq] at hk'; subst hk'; simp
      · exact h.apart k k' ms ms' hkk hk hk'

theorem sendNext_commands {os : List Out} {s : St} (h : s.Commands os) (q : Int) :
    (s.sendNext q).1.Commands (os ++ (s.sendNext q).2) := by
  rcases sendNext_cases s q with e | ⟨r, t, ts, p, _, _, _, e⟩ <;> rw [e]
  · simpa using h
  · exact h.quiet rfl

theorem course_commands {a b : List Mission} (h : a.map Mission.course = b.map Mission.course) :
    a.map (·.command) = b.map (·.command) := by
  have := congrArg (List.map Course.command) h
  simpa [Function.comp_def, Mission.course] using this

theorem checkNext_commands {os : List Out} {s : St} (h : s.Commands os) (q : Int) (ms : List Mission)
    (hp : s.progress.get q = some (some ms)) :
    (s.checkNext q ms).1.Commands (os ++ (s.checkNext q ms).2) := by
  rcases checkNext_cases s q ms with ⟨e, _⟩ | ⟨e, _⟩ | ⟨e, _⟩ | ⟨ms', hf, _, e⟩ <;> rw [e]
  · simpa using h
  · exact sendNext_commands h q
  · simpa using h
  · have hc : (turned s.cfg ms').map (·.command) = ms.map (·.command) := by
      refine course_commands ?_
      rw [turned_course]
      split at hf
      · exact addLoiters_course hf
      · simp only [Option.some.injEq] at hf; rw [hf]
    have em : ∀ p : Plan, missionsIn (os ++ [.plan p, .done q]) = missionsIn os ++ p.missions := by
      intro p; rw [missionsIn_append]; simp [missionsIn]
    obtain ⟨o1, o2, o3⟩ := h.one q ms hp
    have hmem : ∀ m ∈ turned s.cfg ms', ∃ m' ∈ ms, m'.command = m.command := by
      intro m hm
      have : m.command ∈ ms.map (·.command) := by rw [← hc]; exact List.mem_map_of_mem (f := (·.command)) hm
      simpa using this
    refine ⟨?_, ?_, ?_, ?_⟩
    · rw [em, List.map_append, List.nodup_append, hc]
      refine ⟨h.sent, o1, ?_⟩
      intro a ha b hb hab
      obtain ⟨m, hm, rfl⟩ := List.mem_map.mp hb
      exact o3 m hm (hab ▸ ha)
    · intro m hm
      rw [em] at hm
      rcases List.mem_append.mp hm with hm | hm
      · exact h.below m hm
      · obtain ⟨m', hm', e⟩ := hmem m hm
        rw [← e]; exact o2 m' hm'
    · intro k l hk
      have hk : (s.progress.del q).get k = some (some l) := hk
      rw [Map.get_del] at hk
      split at hk
      · simp at hk
      · rename_i hne
        obtain ⟨a1, a2, a3⟩ := h.one k l hk
        refine ⟨a1, a2, fun m hm => ?_⟩
        rw [em, List.map_append, List.mem_append]
        rintro (hh | hh)
        · exact a3 m hm hh
        · rw [hc] at hh
          exact h.apart k q l ms hne hk hp m hm hh
    · intro k k' l l' hkk hk hk'
      have hk : (s.progress.del q).get k = some (some l) := hk
      have hk' : (s.progress.del q).get k' = some (some l') := hk'
      rw [Map.get_del] at hk hk'
      split at hk
      · simp at hk
      · split at hk'
        · simp at hk'
        · exact h.apart k k' l l' hkk hk hk'

theorem taken_commands {os : List Out} {s : St} (h : s.Commands os) (q : Int) (r : Response) (ms : List Mission)
    (hp : s.progress.get q = some (some ms)) : (s.taken q r ms).Commands os := by
  by_cases hw : r.wps = []
  · rw [St.taken, if_pos hw]; exact h
  · rw [St.taken, if_neg hw]
    obtain ⟨o1, o2, o3⟩ := h.one q ms hp
    by_cases hf : ms.any (·.vehicle == r.vehicle) = true
    · have hc : (s.absorbed r ms).map (·.command) = ms.map (·.command) := by
        rw [St.absorbed, if_neg hw, if_pos hf, extend_commands]
      have hmem : ∀ m ∈ s.absorbed r ms, ∃ m' ∈ ms, m'.command = m.command := by
        intro m hm
        have : m.command ∈ ms.map (·.command) := by rw [← hc]; exact List.mem_map_of_mem (f := (·.command)) hm
        simpa using this
      show PlanBuilder.Commands _ (s.progress.put q _) (if _ then _ else _)
      rw [if_pos hf]
      refine ⟨h.sent, h.below, fun k l hk => ?_, fun k k' l l' hkk hk hk' => ?_⟩
      · rw [Map.get_put] at hk
        split at hk
        · simp only [Option.some.injEq] at hk
          subst hk
          refine ⟨by rw [hc]; exact o1, fun m hm => ?_, fun m hm => ?_⟩ <;> obtain ⟨m', hm', e⟩ := hmem m hm <;> rw [← e]
          · exact o2 m' hm'
          · exact o3 m' hm'
        · exact h.one k l hk
      · rw [Map.get_put] at hk hk'
        split at hk
        · rename_i e; subst e
          rw [if_neg (fun e => hkk e.symm)] at hk'
          simp only [Option.some.injEq] at hk
          subst hk
          intro m hm
          obtain ⟨m', hm', e⟩ := hmem m hm
          rw [← e]
          exact h.apart k k' ms l' hkk hp hk' m' hm'
        · split at hk'
          · rename_i e; subst e
            simp only [Option.some.injEq] at hk'
            subst hk'
            rw [hc]
            exact h.apart k k' l ms hkk hk hp
          · exact h.apart k k' l l' hkk hk hk'
    · have hc : s.absorbed r ms = ms ++ [s.newMission r] := by
        rw [St.absorbed, if_neg hw, if_neg hf]
      show PlanBuilder.Commands _ (s.progress.put q _) (if _ then _ else _)
      rw [if_neg hf, hc]
      have hb : ∀ x ∈ (missionsIn os).map (·.command), x < s.commandId := by
        intro x hx
        obtain ⟨m, hm, rfl⟩ := List.mem_map.mp hx
        exact h.below m hm
      refine ⟨h.sent, fun m hm => by have := h.below m hm; omega, fun k l hk => ?_, fun k k' l l' hkk hk hk' => ?_⟩
      · rw [Map.get_put] at hk
        split at hk
        · simp only [Option.some.injEq] at hk
          subst hk
          refine ⟨?_, fun m hm => ?_, fun m hm => ?_⟩
          · rw [List.map_append, List.nodup_append]
            refine ⟨o1, by simp, ?_⟩
            intro a ha b hb
            obtain ⟨m, hm, rfl⟩ := List.mem_map.mp ha
            have := o2 m hm
            simp only [List.map_cons, List.map_nil, List.mem_singleton, St.newMission] at hb
            omega
          · rcases List.mem_append.mp hm with hm | hm
            · have := o2 m hm; omega
            · simp only [List.mem_singleton] at hm; subst hm
              show s.commandId < _
              omega
          · rcases List.mem_append.mp hm with hm | hm
            · exact o3 m hm
            · simp only [List.mem_singleton] at hm; subst hm
              intro hh
              have := hb _ hh
              simp only [St.newMission] at this
              omega
        · obtain ⟨a1, a2, a3⟩ := h.one k l hk
          exact ⟨a1, fun m hm => by have := a2 m hm; omega, a3⟩
      · rw [Map.get_put] at hk hk'
        split at hk
        · rename_i e; subst e
          rw [if_neg (fun e => hkk e.symm)] at hk'
          simp only [Option.some.injEq] at hk
          subst hk
          intro m hm
          rcases List.mem_append.mp hm with hm | hm
          · exact h.apart k k' ms l' hkk hp hk' m hm
          · simp only [List.mem_singleton] at hm; subst hm
            intro hh
            obtain ⟨m, hm, e⟩ := List.mem_map.mp hh
            have := (h.one k' l' hk').2.1 m hm
            simp only [St.newMission] at e
            omega
        · split at hk'
          · rename_i e; subst e
            simp only [Option.some.injEq] at hk'
            subst hk'
            intro m hm
            rw [List.map_append, List.mem_append]
            rintro (hh | hh)
            · exact h.apart k k' l ms hkk hk hp m hm hh
            · have := (h.one k l hk).2.1 m hm
              simp only [List.map_cons, List.map_nil, List.mem_singleton, St.newMission] at hh
              omega
          · exact h.apart k k' l l' hkk hk hk'

theorem missionsIn_complaint (r : Response) : missionsIn (complaint r) = [] := by
  simp only [complaint]; split <;> rfl

theorem step_commands {os : List Out} {s : St} (h : s.Commands os) (i : In) :
    (step s i).1.Commands (os ++ (step s i).2) := by
  by_cases hub : s.ub = true
  · rw [step_ub hub]; simpa using h
  · have hst : ∀ x : St × List Out, (if s.ub = true then (s, []) else x) = x := fun x => if_neg hub
    cases i with
    | state v => rw [step, hst]; simpa using h
    | overrides k os => rw [step, hst]; dsimp only; split <;> simpa using h
    | impactResponse k => rw [step, hst]; simpa using h
    | request r =>
      rw [step, hst]
      have := h.drop r.id none (.inl rfl)
      simpa using this
    | summary m =>
      rw [step, hst]
      rcases summary_cases s m with ⟨e, he⟩ | ⟨r, _, _, _, he⟩ <;> rw [he]
      · exact h.quiet rfl
      · exact sendNext_commands (s := s.begun m r) (h.drop m.req (some []) (.inr rfl)) m.req
    | response r =>
      rw [step, hst]
      rcases response_cases s r with ⟨e, _⟩ | ⟨k, ms, h1, h2, e⟩ <;> rw [e]
      · simpa using h
      · have h' := taken_commands (h.quiet (missionsIn_complaint r)) k r ms h2
        have := checkNext_commands h' k (s.absorbed r ms) (taken_get s k r ms h2).1
        rwa [List.append_assoc] at this

theorem commands (c : Config) (h : List In) : (after c h).Commands (sentIn c h) := by
  have := runM_induction (step := step) (s0 := start c)
    (P := fun (h : List In) (s : St) (_ : List (List Out)) => s.Commands (sentIn c h))
    (by constructor <;> simp [sentIn, events, PlanBuilder.sent, start, Map.get, missionsIn])
    (by
      intro is i ih
      have := step_commands ih i
      rw [sentIn, events_snoc, sent_append]
      simpa [sentIn] using this)
  exact this h

end Verif.PlanBuilder
