import Verif.Manager.Model
import Verif.Sentinel.Lemmas

/-! The replacement loop does what its name says. -/

namespace Verif.Manager

open Verif Verif.Sentinel

/-- `Replaced old new s t`: `t` is `s` with every occurrence of `old`, found from left to right and without overlap,
replaced by `new`. -/
inductive Replaced (old new : Str) : Str → Str → Prop
  | done : Replaced old new [] []
  | keep (x : Char) {s t : Str} : ¬ old <+: x :: s → Replaced old new s t → Replaced old new (x :: s) (x :: t)
  | swap {s t : Str} : Replaced old new s t → Replaced old new (old ++ s) (new ++ t)

theorem Replaced.of_not_infix {old new : Str} : ∀ {s : Str}, ¬ old <:+: s → Replaced old new s s
  | [], _ => .done
  | x :: s, h => by
    rw [List.infix_cons_iff] at h
    exact .keep x (fun hh => h (.inl hh)) (.of_not_infix fun hh => h (.inr hh))

/-- A part without an occurrence that starts in it stays. -/
theorem Replaced.prepend {old new : Str} : ∀ {a s t : Str}, (∀ j, j < a.length → ¬ old <+: (a ++ s).drop j) →
    Replaced old new s t → Replaced old new (a ++ s) (a ++ t)
  | [], _, _, _, h => h
  | x :: a, s, t, hj, h => by
    refine .keep x (by simpa using hj 0 (by simp)) (Replaced.prepend (fun j hl => ?_) h)
    simpa using hj (j + 1) (by simpa using hl)

theorem Replaced.unique {old new : Str} (hold : old ≠ []) : ∀ {s t t' : Str}, Replaced old new s t →
    Replaced old new s t' → t = t' := by
  intro s t t' h
  induction h generalizing t' with
  | done =>
    intro h'
    generalize hs : ([] : Str) = s at h'
    cases h' with
    | done => rfl
    | keep => simp at hs
    | swap =>
      have := List.append_eq_nil_iff.mp hs.symm
      exact absurd this.1 hold
  | keep x hn hr ih =>
    rename_i s t
    intro h'
    generalize hs : x :: s = u at h'
    cases h' with
    | done => simp at hs
    | keep y hn' hr' =>
      simp only [List.cons.injEq] at hs
      obtain ⟨rfl, rfl⟩ := hs
      rw [ih hr']
    | swap => exact absurd (hs ▸ List.prefix_append _ _) hn
  | swap hr ih =>
    rename_i s t
    intro h'
    generalize hs : old ++ s = u at h'
    cases h' with
    | done => exact absurd (List.append_eq_nil_iff.mp hs).1 hold
    | keep y hn' hr' => exact absurd (hs ▸ List.prefix_append _ _) hn'
    | swap hr' =>
      have := List.append_cancel_left hs
      subst this
      rw [ih hr']

theorem replaceLoop_spec {old new : Str} (hold : old ≠ []) : ∀ (fuel : Nat) (pre s : Str), s.length < fuel →
    ∃ t, replaceLoop old new fuel (pre ++ s) pre.length = some (pre ++ t) ∧ Replaced old new s t
  | 0, _, _, h => by omega
  | fuel + 1, pre, s, h => by
    simp only [replaceLoop, List.drop_left]
    cases hf : findStr old s with
    | none => exact ⟨s, rfl, .of_not_infix (findStr_none hf)⟩
    | some i =>
      obtain ⟨h1, h2, h3⟩ := findStr_some hf
      obtain ⟨u, hu⟩ := h1
      have hl : 0 < old.length := List.length_pos_iff.mpr hold
      have hs : s = s.take i ++ (old ++ u) := by rw [hu, List.take_append_drop]
      have hti : (s.take i).length = i := by simp; omega
      have e1 : (pre ++ s).take (pre.length + i) ++ new ++ (pre ++ s).drop (pre.length + i + old.length) =
          (pre ++ s.take i ++ new) ++ u := by
        have : (pre ++ s).drop (pre.length + i + old.length) = u := by
          rw [Nat.add_assoc, ← List.drop_drop, List.drop_left, ← List.drop_drop, ← hu, List.drop_left]
        rw [this, List.take_append, List.take_of_length_le (by omega)]
        simp
      have e2 : pre.length + i + new.length = (pre ++ s.take i ++ new).length := by
        simp only [List.length_append, hti]
      obtain ⟨t, ht, hr⟩ := replaceLoop_spec hold fuel (pre ++ s.take i ++ new) u (by
        have := congrArg List.length hs
        simp only [List.length_append, hti] at this
        omega)
      refine ⟨s.take i ++ (new ++ t), ?_, ?_⟩
      · show replaceLoop old new fuel ((pre ++ s).take (pre.length + i) ++ new ++
          (pre ++ s).drop (pre.length + i + old.length)) (pre.length + i + new.length) = _
        rw [e1, e2, ht]; simp
      · have := Replaced.prepend (a := s.take i) (s := old ++ u) (fun j hj => by
          rw [← hs]; exact h2 j (by omega)) (Replaced.swap (new := new) hr)
        rwa [← hs] at this

theorem replaceAll_spec {s old new : Str} (hold : old ≠ []) :
    ∃ t, replaceAll s old new = some t ∧ Replaced old new s t := by
  obtain ⟨t, h, hr⟩ := replaceLoop_spec (new := new) hold (s.length + 1) [] s (by omega)
  exact ⟨t, by simpa [replaceAll] using h, hr⟩

theorem replaceAll_iff {s t old new : Str} (hold : old ≠ []) :
    replaceAll s old new = some t ↔ Replaced old new s t := by
  obtain ⟨u, h, hr⟩ := replaceAll_spec (s := s) (new := new) hold
  constructor
  · intro h'
    rw [h] at h'
    simp only [Option.some.injEq] at h'
    rwa [← h']
  · intro h'
    rw [h, hr.unique hold h']

/-- A pattern without the new character starts in the result only where it started in the text. -/
theorem Replaced.prefix_iff {old : Str} {c : Char} {pat : Str} (hc : c ∉ pat) : ∀ {s t : Str}, Replaced old [c] s t →
    pat <+: t → pat <+: s := by
  intro s t h
  induction h generalizing pat with
  | done => exact id
  | keep x hn hr ih =>
    intro hp
    cases pat with
    | nil => exact List.nil_prefix
    | cons y pat =>
      rw [List.cons_prefix_cons] at hp ⊢
      exact ⟨hp.1, ih (fun hm => hc (List.mem_cons_of_mem _ hm)) hp.2⟩
  | swap hr ih =>
    intro hp
    cases pat with
    | nil => exact List.nil_prefix
    | cons y pat =>
      simp only [List.cons_append, List.nil_append] at hp
      rw [List.cons_prefix_cons] at hp
      exact absurd (hp.1 ▸ List.mem_cons_self) hc

theorem Replaced.not_infix_of {old : Str} {c : Char} {pat : Str} (hne : pat ≠ []) (hc : c ∉ pat) {s t : Str}
    (h : Replaced old [c] s t) (hn : ¬ pat <:+: s) : ¬ pat <:+: t := by
  induction h with
  | done => exact hn
  | keep x hx hr ih =>
    rw [List.infix_cons_iff] at hn ⊢
    rintro (hp | hp)
    · exact hn (.inl (Replaced.prefix_iff hc (.keep x hx hr) hp))
    · exact ih (fun hh => hn (.inr hh)) hp
  | swap hr ih =>
    rename_i s t
    simp only [List.cons_append, List.nil_append]
    rw [List.infix_cons_iff]
    rintro (hp | hp)
    · cases pat with
      | nil => exact hne rfl
      | cons y pat =>
        rw [List.cons_prefix_cons] at hp
        exact absurd (hp.1 ▸ List.mem_cons_self) hc
    · exact ih (fun hh => hn (hh.trans (List.suffix_append _ _).isInfix)) hp

/-- Nothing is left to replace. -/
theorem Replaced.not_infix {old : Str} {c : Char} (hold : old ≠ []) (hc : c ∉ old) {s t : Str}
    (h : Replaced old [c] s t) : ¬ old <:+: t := by
  induction h with
  | done => simpa using hold
  | keep x hx hr ih =>
    rw [List.infix_cons_iff]
    rintro (hp | hp)
    · exact hx (Replaced.prefix_iff hc (.keep x hx hr) hp)
    · exact ih hp
  | swap hr ih =>
    simp only [List.cons_append, List.nil_append]
    rw [List.infix_cons_iff]
    rintro (hp | hp)
    · cases old with
      | nil => exact hold rfl
      | cons y pat =>
        rw [List.cons_prefix_cons] at hp
        exact absurd (hp.1 ▸ List.mem_cons_self) hc
    · exact ih hp

/-! ### Single characters -/

/-- Every `c` of a text replaced. -/
def subst (c : Char) (new s : Str) : Str := s.flatMap fun x => if x = c then new else [x]

theorem replaced_subst (c : Char) (new : Str) : ∀ s, Replaced [c] new s (subst c new s)
  | [] => .done
  | x :: s => by
    by_cases hx : x = c
    · subst hx
      have := Replaced.swap (old := [x]) (new := new) (replaced_subst x new s)
      simpa [subst] using this
    · have := Replaced.keep (old := [c]) (new := new) x (by simpa [List.cons_prefix_cons] using fun hh => hx hh.symm)
        (replaced_subst c new s)
      simpa [subst, hx] using this

theorem subst_cons_ne {c x : Char} (h : x ≠ c) (new s : Str) : subst c new (x :: s) = x :: subst c new s := by
  simp [subst, h]

theorem subst_cons_eq (c : Char) (new s : Str) : subst c new (c :: s) = new ++ subst c new s := by simp [subst]

/-- A part that does not use `c` or the first character of the new text starts in the result only where it started in the
text. -/
theorem prefix_subst {c y : Char} {new : Str} : ∀ {w s : Str}, c ∉ w → y ∉ w → w <+: subst c (y :: new) s → w <+: s
  | [], _, _, _, _ => List.nil_prefix
  | z :: w, [], _, _, h => by simp [subst] at h
  | z :: w, x :: s, hc, hy, h => by
    by_cases hx : x = c
    · subst hx
      rw [subst_cons_eq, List.cons_append, List.cons_prefix_cons] at h
      exact absurd (h.1 ▸ List.mem_cons_self) hy
    · rw [subst_cons_ne hx, List.cons_prefix_cons] at h
      rw [List.cons_prefix_cons]
      exact ⟨h.1, prefix_subst (fun hm => hc (List.mem_cons_of_mem _ hm)) (fun hm => hy (List.mem_cons_of_mem _ hm)) h.2⟩

/-- Replacing back gives the text when the replacement `y :: new` does not occur in it. -/
theorem replaced_back {c y : Char} {new : Str} (hy : y ∉ new) (hcy : c ≠ y) (hcn : c ∉ new) : ∀ {s : Str},
    ¬ (y :: new) <:+: s → Replaced (y :: new) [c] (subst c (y :: new) s) s
  | [], _ => .done
  | x :: s, h => by
    rw [List.infix_cons_iff] at h
    have ih := replaced_back hy hcy hcn (s := s) fun hh => h (.inr hh)
    by_cases hx : x = c
    · subst hx
      rw [subst_cons_eq]
      exact .swap ih
    · rw [subst_cons_ne hx]
      refine .keep x (fun hp => h (.inl ?_)) ih
      rw [List.cons_prefix_cons] at hp ⊢
      exact ⟨hp.1, prefix_subst hcn hy hp.2⟩


end Verif.Manager
