import Verif.Options.Model
import Verif.Assign.Props

/-!
How compositions are read: the expression that a text stands for and its allowed orders.
-/

namespace Verif.Options

open Verif Verif.Algebra
open Verif.Assign (toStringInt)

/-- The composition `c` (up to blanks at the end) is the text of an operator expression over the options `ids` whose allowed
orders are those for which `W` holds. -/
def Means (c : Str) (ids : List Int) (W : List Int → Prop) : Prop :=
  ∃ t s b, c = s ++ b ∧ Blanks b ∧ Written t s ∧ (∃ o cs, t = .op o cs) ∧ (∀ a, a ∈ objectives t ↔ a ∈ ids) ∧
    ∀ w, Word t w ↔ W w

theorem toString_idText (a : Int) : toStringInt a = idText a := rfl

theorem blanks_nil : Blanks [] := by simp [Blanks]

theorem blanks_one : Blanks [' '] := by simp [Blanks]

theorem body_nil : WrittenBody [] [] := .nil blanks_nil

/-- A blank before a body. -/
theorem body_blank {cs : List Tree} {s : Str} (h : WrittenBody cs s) : WrittenBody cs (' ' :: s) := by
  cases h with
  | nil hb => exact .nil (by intro c hc; rcases List.mem_cons.mp hc with rfl | hc; · rfl
                             · exact hb c hc)
  | @cons b c s cs rest hb hw hr ht =>
    refine WrittenBody.cons (b := ' ' :: b) ?_ hw hr ht
    intro c hc
    rcases List.mem_cons.mp hc with rfl | hc
    · rfl
    · exact hb c hc

/-- References before a body. -/
theorem body_refs {cs : List Tree} {s : Str} (h : WrittenBody cs s) : ∀ ids : List Int,
    WrittenBody (ids.map .action ++ cs) (refs ids ++ s)
  | [] => by simpa [refs] using h
  | i :: ids => by
    have ih := body_blank (body_refs h ids)
    have := WrittenBody.cons (b := []) blanks_nil (Written.action i) ih (fun _ => .inr ⟨_, rfl⟩)
    simpa [refs, ref, toString_idText] using this

/-- An operator before a body. -/
theorem body_op {o : OpType} {cs ds : List Tree} {s r : Str} (h : Written (.op o cs) s) (hr : WrittenBody ds r) :
    WrittenBody (.op o cs :: ds) (s ++ r) := by
  have := WrittenBody.cons (b := []) blanks_nil h hr (fun ⟨a, ha⟩ => by cases ha)
  simpa using this

theorem written_op (o : OpType) {cs : List Tree} {s : Str} (h : WrittenBody cs s) :
    Written (.op o cs) (opText o :: '(' :: (s ++ [')'])) := .op h

/-! ### Orders -/

theorem word_alt {cs : List Tree} {w : List Int} : Word (.op .alt cs) w ↔ ∃ c ∈ cs, Word c w := by
  rw [Word]
  induction cs with
  | nil => simp [WordAlt]
  | cons c cs ih => simp [WordAlt, ih]

theorem word_alt_actions {ids w : List Int} : Word (.op .alt (ids.map .action)) w ↔ ∃ i ∈ ids, w = [i] := by
  rw [word_alt]
  constructor
  · rintro ⟨c, hc, hw⟩
    obtain ⟨i, hi, rfl⟩ := List.mem_map.mp hc
    exact ⟨i, hi, by simpa only [Word] using hw⟩
  · rintro ⟨i, hi, rfl⟩
    exact ⟨.action i, List.mem_map.mpr ⟨i, hi, rfl⟩, by simp only [Word]⟩

theorem word_seq_actions {w : List Int} : ∀ {ids : List Int}, Word (.op .seq (ids.map .action)) w ↔ w = ids := by
  intro ids
  rw [Word]
  induction ids generalizing w with
  | nil => simp [WordSeq]
  | cons i ids ih =>
    simp only [List.map_cons, WordSeq, Word, ih]
    constructor
    · rintro ⟨u, v, rfl, rfl, rfl⟩; rfl
    · rintro rfl; exact ⟨[i], ids, rfl, rfl, rfl⟩

theorem objectives_actions (o : OpType) (ids : List Int) : objectives (.op o (ids.map .action)) = ids := by
  rw [objectives]
  induction ids with
  | nil => rfl
  | cons i ids ih => simp [objectivesL, objectives, ih]

/-- The text of alternatives. -/
theorem means_alternatives (ids : List Int) :
    Means ('+' :: '(' :: (refs ids ++ [')'])) ids (fun w => ∃ i ∈ ids, w = [i]) := by
  have h := written_op .alt (by simpa using body_refs body_nil ids)
  exact ⟨_, _, [], by simp [opText], blanks_nil, h, ⟨_, _, rfl⟩, by simp [objectives_actions], fun w => word_alt_actions⟩

/-- The text of a sequence. -/
theorem means_sequence (ids : List Int) : Means ('.' :: '(' :: (refs ids ++ [')'])) ids (fun w => w = ids) := by
  have h := written_op .seq (by simpa using body_refs body_nil ids)
  exact ⟨_, _, [], by simp [opText], blanks_nil, h, ⟨_, _, rfl⟩, by simp [objectives_actions], fun w => word_seq_actions⟩

theorem Means.congr {c : Str} {ids ids' : List Int} {W W' : List Int → Prop} (h : Means c ids W)
    (hi : ∀ a, a ∈ ids ↔ a ∈ ids') (hw : ∀ w, W w ↔ W' w) : Means c ids' W' := by
  obtain ⟨t, s, b, h₁, h₂, h₃, h₄, h₅, h₆⟩ := h
  exact ⟨t, s, b, h₁, h₂, h₃, h₄, fun a => (h₅ a).trans (hi a), fun w => (h₆ w).trans (hw w)⟩

end Verif.Options
