import Verif.Dynamic.Request

/-!
# When a vehicle is left alone (C148)
-/

namespace Verif.Dynamic

open Complex Verif.Blockade

variable {p : Params} {config : ℤ → Option Config}

theorem active_target {s s' : St} {now : ℤ} {v : VState} {loc : Option Loc} {o : Option Request}
    (h : activeEntityState p config s now v loc = .ok (s', o)) :
    (∀ i, i ≠ v.id → s'.target i = s.target i) ∧
    (∀ q x, s.target v.id = some q → loc = some x → ‖x.place - q.place‖ < p.threshold → s'.target v.id = some q ∧ o = none) := by
  unfold activeEntityState at h
  simp only at h
  split_ifs at h with c1 c2
  · simp only [Outcome.ok.injEq, Prod.mk.injEq] at h
    obtain ⟨rfl, rfl⟩ := h
    exact ⟨fun _ _ => rfl, fun q x hq _ _ => ⟨hq, rfl⟩⟩
  · rcases loc with _ | l
    · split at h
      · cases h
      · simp only [Outcome.ok.injEq, Prod.mk.injEq] at h
        obtain ⟨rfl, rfl⟩ := h
        exact ⟨fun _ _ => rfl, fun q x hq _ _ => ⟨hq, rfl⟩⟩
      · rename_i hl; cases hl
    · simp only at h
      by_cases c3 : ∃ q, s.target v.id = some q ∧ ‖l.place - q.place‖ < p.threshold
      · rw [if_pos c3] at h
        simp only [Outcome.ok.injEq, Prod.mk.injEq] at h
        obtain ⟨rfl, rfl⟩ := h
        exact ⟨fun _ _ => rfl, fun q x hq _ _ => ⟨hq, rfl⟩⟩
      · rw [if_neg c3] at h
        refine ⟨?_, fun q x hq hx hlt => ?_⟩
        · split_ifs at h
          all_goals
            simp only [Outcome.ok.injEq, Prod.mk.injEq] at h
            obtain ⟨rfl, rfl⟩ := h
            exact fun i hi => Function.update_of_ne hi _ _
        · rw [Option.some.injEq] at hx
          subst hx
          exact absurd ⟨q, hq, hlt⟩ c3
  · simp only [Outcome.ok.injEq, Prod.mk.injEq] at h
    obtain ⟨rfl, rfl⟩ := h
    exact ⟨fun _ _ => rfl, fun q x hq _ _ => ⟨hq, rfl⟩⟩

theorem automation_target : ∀ (ms : List Mission) (s : St), (automation s ms).target = s.target
  | [], s => rfl
  | m :: ms, s => by
      rw [automation, automation_target ms]
      split <;> rfl

theorem response_target (s : St) (r : Response) : (response p config s r).1.target = s.target := by
  unfold response
  split
  · rfl
  · simp only
    split_ifs <;> rfl

/-- **C148.**  As long as the place computed for a vehicle stays near the one that was recorded for it, no route is asked for,
whatever else happens. -/
theorem C148_quiet {id : ℤ} {q : Loc} : ∀ (es : List Event) {s s' : St} {l : List (Event × Option Out)},
    run p config s es = .ok (s', l) → s.target id = some q →
    (∀ now v loc, Event.state now v loc ∈ es → v.id = id → ∃ x, loc = some x ∧ ‖x.place - q.place‖ < p.threshold) →
    s'.target id = some q ∧ ∀ x ∈ l, ∀ now, ¬ Asks x now id
  | [], s, s', l, h, hq, _ => by
      rw [run, Outcome.ok.injEq, Prod.mk.injEq] at h
      obtain ⟨rfl, rfl⟩ := h
      exact ⟨hq, fun x hx => by cases hx⟩
  | e :: es, s, s', l, h, hq, hes => by
      rw [run, Outcome.bind_eq_ok] at h
      obtain ⟨⟨s₁, o⟩, h1, h2⟩ := h
      rw [Outcome.bind_eq_ok] at h2
      obtain ⟨⟨s₂, l₂⟩, h3, h4⟩ := h2
      simp only [Outcome.ok.injEq, Prod.mk.injEq] at h4
      obtain ⟨rfl, rfl⟩ := h4
      have key : s₁.target id = some q ∧ ∀ now, ¬ Asks (e, o) now id := by
        cases e with
        | state now v loc =>
            have h1' := h1
            rw [step, Outcome.bind_eq_ok] at h1
            obtain ⟨⟨s₁', o₁⟩, h5, h6⟩ := h1
            simp only [Outcome.ok.injEq, Prod.mk.injEq] at h6
            obtain ⟨rfl, rfl⟩ := h6
            obtain ⟨a, b⟩ := active_target h5
            by_cases hi : v.id = id
            · obtain ⟨x, hx, hlt⟩ := hes now v loc (List.mem_cons_self ..) hi
              obtain ⟨b1, rfl⟩ := b q x (hi ▸ hq) hx hlt
              refine ⟨hi ▸ b1, ?_⟩
              rintro now' ⟨v', loc', r, hx', -⟩
              simp at hx'
            · refine ⟨(a id (Ne.symm hi)).trans hq, ?_⟩
              rintro now' ⟨v', loc', r, hx', hr⟩
              simp only [Prod.mk.injEq, Event.state.injEq] at hx'
              have := (active_clock h5).2.2
              cases o₁ with
              | none => simp at hx'
              | some r' =>
                  simp only [Option.map_some, Option.some.injEq, Out.request.injEq] at hx'
                  rw [← hx'.2, this r' rfl] at hr
                  exact hi hr
        | response r =>
            rw [step, Outcome.ok.injEq, Prod.mk.injEq] at h1
            obtain ⟨rfl, rfl⟩ := h1
            refine ⟨by rw [response_target]; exact hq, ?_⟩
            rintro now' ⟨v', loc', r, hx', -⟩
            simp at hx'
        | zone i z =>
            rw [step, Outcome.ok.injEq, Prod.mk.injEq] at h1
            obtain ⟨rfl, rfl⟩ := h1
            refine ⟨hq, ?_⟩
            rintro now' ⟨v', loc', r, hx', -⟩
            simp at hx'
        | region i z =>
            rw [step, Outcome.ok.injEq, Prod.mk.injEq] at h1
            obtain ⟨rfl, rfl⟩ := h1
            refine ⟨hq, ?_⟩
            rintro now' ⟨v', loc', r, hx', -⟩
            simp at hx'
        | automation ms =>
            rw [step, Outcome.ok.injEq, Prod.mk.injEq] at h1
            obtain ⟨rfl, rfl⟩ := h1
            refine ⟨by rw [automation_target]; exact hq, ?_⟩
            rintro now' ⟨v', loc', r, hx', -⟩
            simp at hx'
      have ih := C148_quiet es h3 key.1 (fun now v loc hm => hes now v loc (List.mem_cons_of_mem _ hm))
      refine ⟨ih.1, fun x hx now => ?_⟩
      rcases List.mem_cons.1 hx with rfl | hx
      · exact key.2 now
      · exact ih.2 x hx now

/-- **C148, violated**: a vehicle that is near its target when this is computed first is never asked a route for until the target
moves, wherever the vehicle goes from there. -/
theorem C148_stuck_violated {id : ℤ} {q : Loc} {s : St} {now c : ℤ} {v : VState} (hv : v.id = id) (hk : v.kind ≠ .air)
    (hq : s.target id = none) (hc : s.clock id = some c) (ht : c + p.throttle ≤ now) (hw : s.lastWaypoint id = none)
    (hn : ‖q.place - v.loc.place‖ < p.threshold) :
    ∃ s₁, step p config s (.state now v (some q)) = .ok (s₁, none) ∧
      ∀ (es : List Event) {s' : St} {l : List (Event × Option Out)}, run p config s₁ es = .ok (s', l) →
        (∀ now v loc, Event.state now v loc ∈ es → v.id = id → ∃ x, loc = some x ∧ ‖x.place - q.place‖ < p.threshold) →
        ∀ x ∈ l, ∀ now, ¬ Asks x now id := by
  subst hv
  have h1 : activeEntityState p config s now v (some q) = .ok ({ s with
      clock := Function.update s.clock v.id (some now)
      target := Function.update s.target v.id (some q) }, none) := by
    unfold activeEntityState
    simp only [hc, Option.getD_some]
    rw [if_pos ht, if_neg (by rintro ⟨-, w, h2, -⟩; rw [hw] at h2; cases h2),
      if_neg (by rintro ⟨q, h1, -⟩; rw [hq] at h1; cases h1)]
    split
    · rename_i h _; exact absurd h hk
    · rw [if_pos hn]
  refine ⟨_, by rw [step, h1]; rfl, fun es s' l h hes => ?_⟩
  exact (C148_quiet es h (Function.update_self _ _ _) hes).2

end Verif.Dynamic
