import Verif.Dynamic.Model

/-!
# When routes are asked for, and which (C147, C148)
-/

namespace Verif.Dynamic

open Complex Verif.Blockade

theorem normalize_eq (z : ℂ) : normalize z = z / (‖z‖ : ℂ) := by
  unfold normalize
  by_cases h : ‖z‖ = 0
  · rw [if_pos h, h]; simp
  · rw [if_neg h]
    apply Complex.ext
    · rw [div_ofReal_re]
    · rw [div_ofReal_im]

theorem normalize_norm {z : ℂ} (h : z ≠ 0) : ‖normalize z‖ = 1 := by
  rw [normalize_eq, norm_div, norm_real, norm_norm, div_self (norm_ne_zero_iff.2 h)]

variable {p : Params} {config : ℤ → Option Config}

/-- What the clock of a vehicle is after a state, and when a request is sent. -/
theorem active_clock {s s' : St} {now : ℤ} {v : VState} {loc : Option Loc} {o : Option Request}
    (h : activeEntityState p config s now v loc = .ok (s', o)) :
    (∀ i, i ≠ v.id → s'.clock i = s.clock i) ∧
    (((s.clock v.id).getD now + p.throttle ≤ now ∧ s'.clock v.id = some now) ∨
      (now < (s.clock v.id).getD now + p.throttle ∧ s'.clock v.id = some ((s.clock v.id).getD now) ∧ o = none)) ∧
    ∀ r, o = some r → r.vehicle = v.id := by
  unfold activeEntityState at h
  simp only at h
  by_cases c1 : (s.clock v.id).getD now + p.throttle ≤ now
  · rw [if_pos c1] at h
    have key : (∀ i, i ≠ v.id → s'.clock i = s.clock i) ∧ s'.clock v.id = some now ∧ ∀ r, o = some r → r.vehicle = v.id := by
      split_ifs at h with c2
      · simp only [Outcome.ok.injEq, Prod.mk.injEq] at h
        obtain ⟨rfl, rfl⟩ := h
        exact ⟨fun i hi => Function.update_of_ne hi _ _, Function.update_self _ _ _, fun r hr => by cases hr⟩
      · split at h
        · cases h
        · simp only [Outcome.ok.injEq, Prod.mk.injEq] at h
          obtain ⟨rfl, rfl⟩ := h
          exact ⟨fun i hi => Function.update_of_ne hi _ _, Function.update_self _ _ _, fun r hr => by cases hr⟩
        · split_ifs at h
          all_goals
            simp only [Outcome.ok.injEq, Prod.mk.injEq] at h
            obtain ⟨rfl, rfl⟩ := h
            refine ⟨fun i hi => Function.update_of_ne hi _ _, Function.update_self _ _ _, fun r hr => ?_⟩
            first
              | cases hr; done
              | (rw [Option.some.injEq] at hr; subst hr; rfl)
    exact ⟨key.1, Or.inl ⟨c1, key.2.1⟩, key.2.2⟩
  · rw [if_neg c1] at h
    simp only [Outcome.ok.injEq, Prod.mk.injEq] at h
    obtain ⟨rfl, rfl⟩ := h
    exact ⟨fun i hi => Function.update_of_ne hi _ _, Or.inr ⟨not_le.1 c1, Function.update_self _ _ _, rfl⟩, fun r hr => by cases hr⟩

theorem automation_clock : ∀ (ms : List Mission) (s : St), (automation s ms).clock = s.clock
  | [], s => rfl
  | m :: ms, s => by
      rw [automation, automation_clock ms]
      split <;> rfl

theorem response_clock (s : St) (r : Response) : (response p config s r).1.clock = s.clock := by
  unfold response
  split
  · rfl
  · simp only
    split_ifs <;> rfl

/-- What a step does to the clocks: only a state changes them, and only that of its vehicle. -/
theorem step_clock {s s' : St} {e : Event} {o : Option Out} (h : step p config s e = .ok (s', o)) :
    (s'.clock = s.clock ∧ ∀ r, o ≠ some (.request r)) ∨
    ∃ now v loc, e = .state now v loc ∧ (∀ i, i ≠ v.id → s'.clock i = s.clock i) ∧
      (((s.clock v.id).getD now + p.throttle ≤ now ∧ s'.clock v.id = some now) ∨
        (s'.clock v.id = some ((s.clock v.id).getD now) ∧ o = none)) ∧
      ∀ r, o = some (.request r) → r.vehicle = v.id := by
  cases e with
  | state now v loc =>
      right
      rw [step, Outcome.bind_eq_ok] at h
      obtain ⟨⟨s₁, o₁⟩, h1, h2⟩ := h
      simp only [Outcome.ok.injEq, Prod.mk.injEq] at h2
      obtain ⟨rfl, rfl⟩ := h2
      obtain ⟨a, b, c⟩ := active_clock h1
      refine ⟨now, v, loc, rfl, a, ?_, ?_⟩
      · rcases b with b | ⟨-, b1, rfl⟩
        · exact Or.inl b
        · exact Or.inr ⟨b1, rfl⟩
      · intro r hr
        cases o₁ with
        | none => cases hr
        | some r' =>
            simp only [Option.map_some, Option.some.injEq, Out.request.injEq] at hr
            subst hr
            exact c _ rfl
  | response r =>
      left
      rw [step, Outcome.ok.injEq, Prod.mk.injEq] at h
      obtain ⟨rfl, rfl⟩ := h
      refine ⟨response_clock _ _, fun r' hr => ?_⟩
      cases hm : (response p config s r).2 <;> rw [hm] at hr <;> simp at hr
  | zone i z =>
      left
      rw [step, Outcome.ok.injEq, Prod.mk.injEq] at h
      obtain ⟨rfl, rfl⟩ := h
      exact ⟨rfl, fun r hr => by cases hr⟩
  | region i l =>
      left
      rw [step, Outcome.ok.injEq, Prod.mk.injEq] at h
      obtain ⟨rfl, rfl⟩ := h
      exact ⟨rfl, fun r hr => by cases hr⟩
  | automation ms =>
      left
      rw [step, Outcome.ok.injEq, Prod.mk.injEq] at h
      obtain ⟨rfl, rfl⟩ := h
      exact ⟨automation_clock _ _, fun r hr => by cases hr⟩

/-- A route is asked for at that time for that vehicle. -/
def Asks (x : Event × Option Out) (now id : ℤ) : Prop :=
  ∃ v loc r, x = (.state now v loc, some (.request r)) ∧ r.vehicle = id

theorem run_late (ht : 0 ≤ p.throttle) : ∀ (es : List Event) (s s' : St) (l : List (Event × Option Out)),
    run p config s es = .ok (s', l) → ∀ id c, s.clock id = some c → ∀ x ∈ l, ∀ now, Asks x now id → c + p.throttle ≤ now
  | [], s, s', l, h, id, c, hc, x, hx, now, ha => by
      rw [run, Outcome.ok.injEq, Prod.mk.injEq] at h
      rw [← h.2] at hx; cases hx
  | e :: es, s, s', l, h, id, c, hc, x, hx, now, ha => by
      rw [run, Outcome.bind_eq_ok] at h
      obtain ⟨⟨s₁, o⟩, h1, h2⟩ := h
      rw [Outcome.bind_eq_ok] at h2
      obtain ⟨⟨s₂, l₂⟩, h3, h4⟩ := h2
      simp only [Outcome.ok.injEq, Prod.mk.injEq] at h4
      obtain ⟨rfl, rfl⟩ := h4
      -- the clock after the first message
      have hc1 : ∃ c', s₁.clock id = some c' ∧ c ≤ c' := by
        rcases step_clock h1 with ⟨hs, -⟩ | ⟨n, v, lo, rfl, ha, hb, -⟩
        · exact ⟨c, by rw [hs]; exact hc, le_refl _⟩
        · by_cases hi : id = v.id
          · subst hi
            rw [hc] at hb
            rcases hb with ⟨b1, b2⟩ | ⟨b1, -⟩
            · exact ⟨n, b2, by simp at b1; omega⟩
            · exact ⟨c, b1, le_refl _⟩
          · exact ⟨c, by rw [ha id hi]; exact hc, le_refl _⟩
      rcases List.mem_cons.1 hx with rfl | hx
      · obtain ⟨v, lo, r, hx, rfl⟩ := ha
        rw [Prod.mk.injEq] at hx
        obtain ⟨rfl, rfl⟩ := hx
        rcases step_clock h1 with ⟨-, hs⟩ | ⟨n, v', lo', he, -, hb, hr⟩
        · exact absurd rfl (hs r)
        · simp only [Event.state.injEq] at he
          obtain ⟨rfl, rfl, rfl⟩ := he
          rw [hr r rfl] at hc
          rw [hc] at hb
          rcases hb with ⟨b1, -⟩ | ⟨-, b2⟩
          · simpa using b1
          · cases b2
      · obtain ⟨c', h5, h6⟩ := hc1
        have := run_late ht es s₁ s₂ l₂ h3 id c' h5 x hx now ha
        omega

/-- **C147.**  Routes for the same vehicle are asked for no more often than once in the configured time, whatever happens in
between. -/
theorem C147_pace (ht : 0 ≤ p.throttle) : ∀ (es : List Event) {s s' : St} {l : List (Event × Option Out)},
    run p config s es = .ok (s', l) →
    l.Pairwise (fun x y => ∀ n m id, Asks x n id → Asks y m id → n + p.throttle ≤ m)
  | [], s, s', l, h => by
      rw [run, Outcome.ok.injEq, Prod.mk.injEq] at h
      rw [← h.2]; exact List.Pairwise.nil
  | e :: es, s, s', l, h => by
      rw [run, Outcome.bind_eq_ok] at h
      obtain ⟨⟨s₁, o⟩, h1, h2⟩ := h
      rw [Outcome.bind_eq_ok] at h2
      obtain ⟨⟨s₂, l₂⟩, h3, h4⟩ := h2
      simp only [Outcome.ok.injEq, Prod.mk.injEq] at h4
      obtain ⟨rfl, rfl⟩ := h4
      refine List.Pairwise.cons ?_ (C147_pace ht es h3)
      intro y hy n m id hx hy'
      obtain ⟨v, lo, r, hx, rfl⟩ := hx
      rw [Prod.mk.injEq] at hx
      obtain ⟨rfl, rfl⟩ := hx
      rcases step_clock h1 with ⟨-, hs⟩ | ⟨n', v', lo', he, -, hb, hr⟩
      · exact absurd rfl (hs r)
      · simp only [Event.state.injEq] at he
        obtain ⟨rfl, rfl, rfl⟩ := he
        rcases hb with ⟨-, b2⟩ | ⟨-, b2⟩
        · rw [← hr r rfl] at b2
          exact run_late ht es s₁ s₂ l₂ h3 r.vehicle n b2 y hy m hy'
        · cases b2

/-- Every clock is the time of some state heard. -/
theorem run_heard (ht : 0 < p.throttle) : ∀ (es : List Event) (s s' : St) (l past : List (Event × Option Out)),
    run p config s es = .ok (s', l) →
    (∀ id c, s.clock id = some c → ∃ v loc o, (Event.state c v loc, o) ∈ past ∧ v.id = id) →
    ∀ l₁ x l₂, l = l₁ ++ x :: l₂ → ∀ now id, Asks x now id →
      ∃ n v loc o, (Event.state n v loc, o) ∈ past ++ l₁ ∧ v.id = id ∧ n + p.throttle ≤ now
  | [], s, s', l, past, h, _, l₁, x, l₂, hl, _, _, _ => by
      rw [run, Outcome.ok.injEq, Prod.mk.injEq] at h
      rw [← h.2] at hl; simp at hl
  | e :: es, s, s', l, past, h, hp, l₁, x, l₂, hl, now, id, ha => by
      rw [run, Outcome.bind_eq_ok] at h
      obtain ⟨⟨s₁, o⟩, h1, h2⟩ := h
      rw [Outcome.bind_eq_ok] at h2
      obtain ⟨⟨s₂, l'⟩, h3, h4⟩ := h2
      simp only [Outcome.ok.injEq, Prod.mk.injEq] at h4
      obtain ⟨rfl, rfl⟩ := h4
      cases l₁ with
      | nil =>
          simp only [List.nil_append, List.cons.injEq] at hl
          obtain ⟨rfl, rfl⟩ := hl
          obtain ⟨v, lo, r, hx, rfl⟩ := ha
          rw [Prod.mk.injEq] at hx
          obtain ⟨rfl, rfl⟩ := hx
          rcases step_clock h1 with ⟨-, hs⟩ | ⟨n, v', lo', he, -, hb, hr⟩
          · exact absurd rfl (hs r)
          · simp only [Event.state.injEq] at he
            obtain ⟨rfl, rfl, rfl⟩ := he
            rcases hb with ⟨b1, -⟩ | ⟨-, b2⟩
            · cases hc : s.clock v.id with
              | none => rw [hc] at b1; simp at b1; omega
              | some c =>
                  rw [hc] at b1
                  obtain ⟨v', lo', o', hm, hv⟩ := hp v.id c hc
                  exact ⟨c, v', lo', o', by simpa using hm, by rw [hv, hr r rfl], by simpa using b1⟩
            · cases b2
      | cons y l₁ =>
          simp only [List.cons_append, List.cons.injEq] at hl
          obtain ⟨rfl, rfl⟩ := hl
          have hp1 : ∀ id c, s₁.clock id = some c → ∃ v loc o', (Event.state c v loc, o') ∈ past ++ [(e, o)] ∧ v.id = id := by
            intro i c hc
            rcases step_clock h1 with ⟨hs, -⟩ | ⟨n, v, lo, rfl, ha, hb, -⟩
            · rw [hs] at hc
              obtain ⟨v, lo, o', hm, hv⟩ := hp i c hc
              exact ⟨v, lo, o', List.mem_append_left _ hm, hv⟩
            · by_cases hi : i = v.id
              · subst hi
                rcases hb with ⟨-, b2⟩ | ⟨b2, -⟩
                · rw [b2, Option.some.injEq] at hc
                  subst hc
                  exact ⟨v, lo, o, by simp, rfl⟩
                · rw [b2, Option.some.injEq] at hc
                  cases hs : s.clock v.id with
                  | none =>
                      rw [hs] at hc
                      simp only [Option.getD_none] at hc
                      subst hc
                      exact ⟨v, lo, o, by simp, rfl⟩
                  | some c' =>
                      rw [hs] at hc
                      simp only [Option.getD_some] at hc
                      subst hc
                      obtain ⟨v', lo', o', hm, hv⟩ := hp v.id c' hs
                      exact ⟨v', lo', o', List.mem_append_left _ hm, hv⟩
              · rw [ha i hi] at hc
                obtain ⟨v, lo, o', hm, hv⟩ := hp i c hc
                exact ⟨v, lo, o', List.mem_append_left _ hm, hv⟩
          obtain ⟨n, v, lo, o', hm, hv, hn⟩ := run_heard ht es s₁ s₂ _ (past ++ [(e, o)]) h3 hp1 l₁ x l₂ rfl now id ha
          exact ⟨n, v, lo, o', by simpa using hm, hv, hn⟩

/-- **C147.**  No route is asked for before a state of the vehicle was heard at least the configured time earlier; in
particular not on its first state. -/
theorem C147_first (ht : 0 < p.throttle) {es : List Event} {s' : St} {l₁ l₂ : List (Event × Option Out)} {x : Event × Option Out}
    (h : run p config {} es = .ok (s', l₁ ++ x :: l₂)) {now id : ℤ} (ha : Asks x now id) :
    ∃ n v loc o, (Event.state n v loc, o) ∈ l₁ ∧ v.id = id ∧ n + p.throttle ≤ now := by
  obtain ⟨n, v, lo, o, hm, hv, hn⟩ := run_heard ht es {} s' _ [] h (fun id c hc => by cases hc) l₁ x l₂ rfl now id ha
  exact ⟨n, v, lo, o, by simpa using hm, hv, hn⟩

end Verif.Dynamic
