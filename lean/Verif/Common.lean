/-!
Shared vocabulary of the model.

Strings of the C++ code (`std::string`, sequences of bytes) are lists of
characters; a character with code point below 256 stands for the byte with that
value.  All theorems hold for every character list, hence for every byte string.
-/

namespace Verif

/-- `std::string` as a list of characters (bytes). -/
abbrev Str := List Char

/-- Result of calling a C++ function: normal return, an escaping exception, or
undefined behaviour (null dereference, `back()` of an empty vector, ...). -/
inductive Outcome (α : Type) where
  | ok (a : α)
  | throws
  | ub
deriving Repr, DecidableEq

namespace Outcome

/-- Sequencing of calls: faults propagate. -/
def bind {α β : Type} (x : Outcome α) (f : α → Outcome β) : Outcome β :=
  match x with
  | ok a => f a
  | throws => throws
  | ub => ub

/-- The call returned normally. -/
def isOk {α : Type} : Outcome α → Bool
  | ok _ => true
  | _ => false

@[simp] theorem bind_ok {α β : Type} (a : α) (f : α → Outcome β) : bind (ok a) f = f a := rfl
@[simp] theorem bind_throws {α β : Type} (f : α → Outcome β) : bind throws f = throws := rfl
@[simp] theorem bind_ub {α β : Type} (f : α → Outcome β) : bind ub f = ub := rfl

theorem bind_eq_ok {α β : Type} {x : Outcome α} {f : α → Outcome β} {b : β} :
    bind x f = ok b ↔ ∃ a, x = ok a ∧ f a = ok b := by
  cases x <;> simp [bind]

end Outcome

/-- `std::to_string` of an unsigned number. -/
def decimal (n : Nat) : Str := Nat.toDigits 10 n

/-- Value of a digit string (as read by `std::stoi`, `std::stoll`, `atoll`). -/
def decimalValue (s : Str) : Nat := Nat.ofDigitChars 10 s 0

theorem decimalValue_decimal (n : Nat) : decimalValue (decimal n) = n :=
  Nat.ofDigitChars_ten_toDigits

theorem decimal_isDigit {n : Nat} {c : Char} (h : c ∈ decimal n) : c.isDigit = true :=
  Nat.isDigit_of_mem_toDigits (by decide) (by decide) h

theorem decimal_ne_nil (n : Nat) : decimal n ≠ [] := Nat.toDigits_ne_nil

theorem decimal_injective {m n : Nat} (h : decimal m = decimal n) : m = n := by
  rw [← decimalValue_decimal m, ← decimalValue_decimal n, h]

/-- `s.find(c)`: index of the first occurrence of a character. -/
def findChar (c : Char) (s : Str) : Option Nat := s.findIdx? (· == c)

theorem findChar_append {c : Char} {a b : Str} (h : c ∉ a) :
    findChar c (a ++ c :: b) = some a.length := by
  induction a with
  | nil => simp [findChar, List.findIdx?_cons]
  | cons x xs ih =>
    simp only [List.mem_cons, not_or] at h
    have hx : (x == c) = false := by simpa using fun e => h.1 e.symm
    have := ih h.2
    simp only [findChar] at this ⊢
    simp [List.findIdx?_cons, hx, this]

theorem findChar_eq_none {c : Char} {s : Str} : findChar c s = none ↔ c ∉ s := by
  simp only [findChar, List.findIdx?_eq_none_iff]
  constructor
  · intro h hc; simpa using h c hc
  · intro h x hx
    have : x ≠ c := fun e => h (e ▸ hx)
    simpa using this

theorem findChar_eq_some {c : Char} {s : Str} {i : Nat} (h : findChar c s = some i) :
    ∃ a b, s = a ++ c :: b ∧ a.length = i ∧ c ∉ a := by
  induction s generalizing i with
  | nil => simp [findChar] at h
  | cons x xs ih =>
    by_cases hx : x = c
    · subst hx
      simp [findChar, List.findIdx?_cons] at h
      exact ⟨[], xs, by simp, by simp [h], by simp⟩
    · have hx' : (x == c) = false := by simpa using hx
      simp only [findChar, List.findIdx?_cons, hx'] at h
      simp only [Bool.false_eq_true, if_false, Option.map_eq_some_iff] at h
      obtain ⟨j, hj, rfl⟩ := h
      obtain ⟨a, b, rfl, ha, hc⟩ := ih (i := j) hj
      refine ⟨x :: a, b, by simp, by simp [ha], ?_⟩
      simp only [List.mem_cons, not_or]
      exact ⟨fun e => hx e.symm, hc⟩

end Verif
