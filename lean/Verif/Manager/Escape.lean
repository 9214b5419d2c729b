import Verif.Manager.Replace
import Verif.Manager.Spec

/-! The XML of a new service survives the trip to the service manager: C64. -/

namespace Verif.Manager

open Verif Verif.Sentinel

/-- Not in the code: the text `&lt;`. -/
abbrev lt : Str := ['&', 'l', 't', ';']
/-- Not in the code: the text `&gt;`. -/
abbrev gt : Str := ['&', 'g', 't', ';']

theorem lt_eq : "&lt;".toList = lt := rfl
theorem gt_eq : "&gt;".toList = gt := rfl

theorem subst_comm : ∀ s, subst '>' gt (subst '<' lt s) = subst '<' lt (subst '>' gt s)
  | [] => rfl
  | x :: s => by
    by_cases h1 : x = '<'
    · subst h1
      rw [subst_cons_eq, subst_cons_ne (c := '>') (by decide), subst_cons_eq]
      simp only [lt, List.cons_append, List.nil_append]
      rw [subst_cons_ne (by decide), subst_cons_ne (by decide), subst_cons_ne (by decide), subst_cons_ne (by decide),
        subst_comm s]
    · by_cases h2 : x = '>'
      · subst h2
        rw [subst_cons_eq, subst_cons_ne (c := '<') (by decide), subst_cons_eq]
        simp only [gt, List.cons_append, List.nil_append]
        rw [subst_cons_ne (by decide), subst_cons_ne (by decide), subst_cons_ne (by decide), subst_cons_ne (by decide),
          subst_comm s]
      · rw [subst_cons_ne h1, subst_cons_ne h2, subst_cons_ne h2, subst_cons_ne h1, subst_comm s]

theorem not_infix_subst : ∀ {s : Str}, ¬ lt <:+: s → ¬ lt <:+: subst '>' gt s
  | [], h => h
  | x :: s, h => by
    rw [List.infix_cons_iff] at h
    have ih := not_infix_subst (s := s) fun hh => h (.inr hh)
    by_cases hx : x = '>'
    · subst hx
      rw [subst_cons_eq]
      simp only [gt, List.cons_append, List.nil_append]
      rw [List.infix_cons_iff, List.infix_cons_iff, List.infix_cons_iff, List.infix_cons_iff]
      simp only [List.cons_prefix_cons]
      rintro (hh | hh | hh | hh | hh)
      · exact absurd hh.2.1 (by decide)
      · exact absurd hh.1 (by decide)
      · exact absurd hh.1 (by decide)
      · exact absurd hh.1 (by decide)
      · exact ih hh
    · rw [subst_cons_ne hx, List.infix_cons_iff]
      rintro (hh | hh)
      · rw [List.cons_prefix_cons] at hh
        refine h (.inl ?_)
        rw [List.cons_prefix_cons]
        exact ⟨hh.1, prefix_subst (by decide) (by decide) hh.2⟩
      · exact ih hh

theorem escape_eq (s : Str) : escape s = some (subst '>' gt (subst '<' lt s)) := by
  have h1 : replaceAll s ['<'] "&lt;".toList = some (subst '<' lt s) :=
    (replaceAll_iff (by simp)).mpr (replaced_subst _ _ _)
  have h2 : replaceAll (subst '<' lt s) ['>'] "&gt;".toList = some (subst '>' gt (subst '<' lt s)) :=
    (replaceAll_iff (by simp)).mpr (replaced_subst _ _ _)
  simp only [escape, h1, Option.bind_some, h2]

theorem unescape_spec (u : Str) : ∃ v w, unescape u = some w ∧ Replaced lt ['<'] u v ∧ Replaced gt ['>'] v w := by
  obtain ⟨v, h1, hv⟩ := replaceAll_spec (s := u) (old := lt) (new := ['<']) (by simp)
  obtain ⟨w, h2, hw⟩ := replaceAll_spec (s := v) (old := gt) (new := ['>']) (by simp)
  exact ⟨v, w, by simp only [unescape, lt_eq, gt_eq, h1, Option.bind_some, h2], hv, hw⟩

theorem unescape_of {u v w : Str} (h1 : Replaced lt ['<'] u v) (h2 : Replaced gt ['>'] v w) : unescape u = some w := by
  have e1 := (replaceAll_iff (by simp)).mpr h1
  have e2 := (replaceAll_iff (by simp)).mpr h2
  simp only [unescape, lt_eq, gt_eq, e1, Option.bind_some, e2]

/-- What comes out of `unescape` has no `&lt;` and no `&gt;` left. -/
theorem unescape_clean {u w : Str} (h : unescape u = some w) : ¬ lt <:+: w ∧ ¬ gt <:+: w := by
  obtain ⟨v, w', h', h1, h2⟩ := unescape_spec u
  rw [h] at h'
  simp only [Option.some.injEq] at h'
  subst h'
  exact ⟨h2.not_infix_of (by simp) (by decide) (h1.not_infix (by simp) (by decide)), h2.not_infix (by simp) (by decide)⟩

/-- C64: for every text, replacing `<` and `>` for the message and replacing them back in the service manager gives the
text again exactly when it contains neither `&lt;` nor `&gt;`. -/
theorem C64_escape_round_trip (s : Str) :
    (escape s).bind unescape = some s ↔ ¬ "&lt;".toList <:+: s ∧ ¬ "&gt;".toList <:+: s := by
  rw [escape_eq, Option.bind_some, lt_eq, gt_eq]
  constructor
  · exact unescape_clean
  · rintro ⟨h1, h2⟩
    have b1 : Replaced lt ['<'] (subst '<' lt (subst '>' gt s)) (subst '>' gt s) :=
      replaced_back (by decide) (by decide) (by decide) (not_infix_subst h1)
    have b2 : Replaced gt ['>'] (subst '>' gt s) s := replaced_back (by decide) (by decide) (by decide) h2
    rw [subst_comm]
    exact unescape_of b1 b2

/-- Non-vacuity: a text with both characters and a lone `&`. -/
example : ¬ "&lt;".toList <:+: "<a b=\"1&2\"/>".toList ∧ ¬ "&gt;".toList <:+: "<a b=\"1&2\"/>".toList := by decide +kernel
example : escape "<a>&".toList = some "&lt;a&gt;&".toList := by decide +kernel

/-- The message never holds `<` or `>`, and the replacement always returns. -/
theorem C64_escaped (s : Str) : ∃ t, escape s = some t ∧ '<' ∉ t ∧ '>' ∉ t := by
  refine ⟨_, escape_eq s, ?_, ?_⟩
  · rw [subst_comm]
    simp only [subst, List.mem_flatMap, not_exists, not_and]
    intro x _
    split
    · decide
    · next h => simpa using fun hh => h hh.symm
  · simp only [subst, List.mem_flatMap, not_exists, not_and]
    intro x _
    split
    · decide
    · next h => simpa using fun hh => h hh.symm

/-- C64 is false as an unconditional round trip: a task whose XML writes `<` as `&lt;`. -/
theorem C64_round_trip_violated :
    ∃ s : Str, (escape s).bind unescape = some "<Label>a<b</Label>".toList ∧ s = "<Label>a&lt;b</Label>".toList :=
  ⟨_, by decide +kernel, rfl⟩

/-- Replacing anything for the empty text would not end. -/
theorem C64_empty_pattern_violated (s new : Str) : ∀ fuel start, start ≤ s.length →
    replaceLoop [] new fuel s start = none := by
  intro fuel
  induction fuel generalizing s with
  | zero => intros; rfl
  | succ n ih =>
    intro start hs
    simp only [replaceLoop]
    have : findStr [] (s.drop start) = some 0 := findStr_eq_some List.nil_prefix (by omega)
    simp only [this]
    refine ih _ _ ?_
    simp only [List.length_append, List.length_take, List.length_drop]
    simp only [List.length_nil]
    omega

/-- C64: the service manager gets the text of the task manager followed by the objects, each on its own line. -/
theorem C64_service_text (c : Create) (x : Str) (hx : c.xml = escape x)
    (h1 : ¬ "&lt;".toList <:+: x) (h2 : ¬ "&gt;".toList <:+: x) :
    serviceText c = some (x ++ ['\n'] ++
      ((c.configs.map (·.2) ++ c.states.map (·.2) ++ c.missions.map (·.2) ++ c.areas ++ c.lines ++ c.points ++
        c.keepIn.map (·.2) ++ c.keepOut.map (·.2) ++ c.regions.map (·.2)).map (· ++ ['\n'])).flatten ++
        "</Service>".toList) := by
  have key : ∀ p : Str, p.getLast? = some ';' → ¬ p <:+: x → ¬ p <:+: x ++ ['\n'] := by
    intro p hl hp hh
    obtain ⟨a, b, hab⟩ := hh
    rcases List.eq_nil_or_concat b with rfl | ⟨b', z, rfl⟩
    · rw [List.append_nil] at hab
      have := congrArg List.getLast? hab
      rw [List.getLast?_append, hl] at this
      simp at this
    · rw [List.concat_eq_append, ← List.append_assoc] at hab
      have := List.append_inj_left' hab rfl
      exact hp ⟨a, b', this⟩
  have hh := (C64_escape_round_trip (x ++ ['\n'])).mpr ⟨key _ rfl h1, key _ rfl h2⟩
  rw [escape_eq, Option.bind_some] at hh
  have hs : subst '>' gt (subst '<' lt (x ++ ['\n'])) = subst '>' gt (subst '<' lt x) ++ ['\n'] := by
    simp [subst]
  rw [hs] at hh
  simp only [serviceText, hx, escape_eq, hh, Option.map_some]

end Verif.Manager
