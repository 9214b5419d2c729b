import Verif.Common

/-!
Histories of a deterministic machine: a step function from states and inputs to states and
outputs.
-/

namespace Verif

variable {σ ι ω : Type}

/-- The final state and the outputs, one per input. -/
def runM (step : σ → ι → σ × ω) (s : σ) : List ι → σ × List ω
  | [] => (s, [])
  | i :: is =>
    let r := step s i
    let q := runM step r.1 is
    (q.1, r.2 :: q.2)

@[simp] theorem runM_nil (step : σ → ι → σ × ω) (s : σ) : runM step s [] = (s, []) := rfl

theorem runM_cons (step : σ → ι → σ × ω) (s : σ) (i : ι) (is : List ι) :
    runM step s (i :: is) =
      ((runM step (step s i).1 is).1, (step s i).2 :: (runM step (step s i).1 is).2) := rfl

theorem runM_append (step : σ → ι → σ × ω) : ∀ (is js : List ι) (s : σ),
    runM step s (is ++ js) =
      ((runM step (runM step s is).1 js).1, (runM step s is).2 ++ (runM step (runM step s is).1 js).2)
  | [], js, s => by simp
  | i :: is, js, s => by
    simp only [List.cons_append, runM_cons, runM_append step is js]

theorem runM_snoc (step : σ → ι → σ × ω) (is : List ι) (i : ι) (s : σ) :
    runM step s (is ++ [i]) =
      ((step (runM step s is).1 i).1, (runM step s is).2 ++ [(step (runM step s is).1 i).2]) := by
  rw [runM_append]; rfl

theorem runM_length (step : σ → ι → σ × ω) : ∀ (is : List ι) (s : σ),
    (runM step s is).2.length = is.length
  | [], _ => rfl
  | i :: is, s => by simp [runM_cons, runM_length step is]

/-- Induction over histories, extending them at the end. -/
theorem runM_induction {step : σ → ι → σ × ω} {s0 : σ} {P : List ι → σ → List ω → Prop}
    (h0 : P [] s0 [])
    (hs : ∀ is i, P is (runM step s0 is).1 (runM step s0 is).2 →
      P (is ++ [i]) (step (runM step s0 is).1 i).1
        ((runM step s0 is).2 ++ [(step (runM step s0 is).1 i).2])) :
    ∀ is, P is (runM step s0 is).1 (runM step s0 is).2 := by
  have key : ∀ (js is : List ι), P is (runM step s0 is).1 (runM step s0 is).2 →
      P (is ++ js) (runM step s0 (is ++ js)).1 (runM step s0 (is ++ js)).2 := by
    intro js
    induction js with
    | nil => intro is h; simpa using h
    | cons j js ih =>
      intro is h
      have h1 := hs is j h
      have h2 := ih (is ++ [j]) (by rw [runM_snoc]; exact h1)
      simpa using h2
  intro is
  simpa using key is [] (by simpa using h0)

/-- Induction that takes the last element off. -/
@[elab_as_elim]
theorem snocRec {α : Type} {P : List α → Prop} (l : List α) (nil : P []) (append_singleton : ∀ l x, P l → P (l ++ [x])) : P l := by
  have key : ∀ l, P (List.reverse l) := by
    intro l
    induction l with
    | nil => exact nil
    | cons x l ih => rw [List.reverse_cons]; exact append_singleton _ x ih
  have := key l.reverse
  rwa [List.reverse_reverse] at this

end Verif
