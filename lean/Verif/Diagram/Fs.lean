import Verif.Common
import Mathlib.Data.Nat.Notation
import Mathlib.Data.List.Basic
import Mathlib.Data.List.Induction
import Mathlib.Data.List.Nodup

/-!
# Files and directories with numbers (C188)

`src/cpp/Utilities/FileSystemUtilities.cpp` (the variant for Linux), `src/cpp/Includes/Constants/Constants_FileSystem.h`.

The file system is a list of directories and a list of files with their texts, in the order in which they are listed.  `.`, `..` and links
are not modelled, and whether a path is absolute is left out (all are, or none).  The time in names is a parameter.
-/

namespace Verif.Diagram

open Verif

/-- A path (boost): the names in it. -/
abbrev Path := List Str

/-- The parts of a path before and behind its first slash (paths of boost). -/
def parts : Str → Str × Path
  | [] => ([], [])
  | c :: s =>
      let r := parts s
      if c = '/' then ([], if r.1 = [] then r.2 else r.1 :: r.2) else (c :: r.1, r.2)

/-- The names in a path; slashes at the end and several in a row do not matter (paths of boost). -/
def comps (s : Str) : Path := if (parts s).1 = [] then (parts s).2 else (parts s).1 :: (parts s).2

/-- A file system, see above. -/
structure Fs where
  dirs : List Path
  files : List (Path × Str)
deriving Repr, DecidableEq

/-- Is it a directory?  Where one starts is one. -/
def Fs.isDir (fs : Fs) (p : Path) : Bool := decide (p = []) || decide (p ∈ fs.dirs)

/-- Is it a file? -/
def Fs.isFile (fs : Fs) (p : Path) : Bool := fs.files.any fun f => decide (f.1 = p)

/-- The names of the directories in a directory (`directory_iterator`, `is_directory`). -/
def Fs.subs (fs : Fs) (p : Path) : List Str := fs.dirs.filterMap fun q => if q.dropLast = p then q.getLast? else none

/-- The files in a directory. -/
def Fs.here (fs : Fs) (p : Path) : List (Path × Str) := fs.files.filter fun f => decide (f.1.dropLast = p)

/-- How many entries a directory has. -/
def Fs.entries (fs : Fs) (p : Path) : ℕ := (fs.subs p).length + (fs.here p).length

/-- The directories on the way to a path, and it. -/
def prefixes (p : Path) : List Path := (List.range p.length).map fun i => p.take (i + 1)

/-- FileSystemUtilities.cpp 264-293, `bCreateDirectory`.  `ok`: whether the system allows it.  A file counts as there, unless a slash
follows.  (When it fails, directories on the way may be left; here none are.) -/
def Fs.mkdir (fs : Fs) (ok : Bool) (s : Str) : Fs × Bool :=
  let p := comps s
  if fs.isDir p || (fs.isFile p && decide (s.getLast? ≠ some '/')) then (fs, true)
  else if ok && (prefixes p).all (fun q => !fs.isFile q) then
    ({ fs with dirs := fs.dirs ++ (prefixes p).filter fun q => !fs.isDir q }, true)
  else (fs, false)

/-- `std::ofstream` with `app`, and what is written: a new file, or more text in an old one. -/
def Fs.append (fs : Fs) (p : Path) (text : Str) : Fs :=
  if fs.isFile p then { fs with files := fs.files.map fun f => if f.1 = p then (p, f.2 ++ text) else f }
  else if fs.isDir p.dropLast && !fs.isDir p then { fs with files := fs.files ++ [(p, text)] }
  else fs

/-- `std::setfill('0') << std::setw(4)`; Constants_FileSystem.h 46. -/
def pad (n : ℕ) : Str := List.replicate (4 - (decimal n).length) '0' ++ decimal n

/-- FileSystemUtilities.cpp 103-105, 120-123 and 216-218, 227-230: the number of a name `\d{4}_.*`. -/
def numbered (name : Str) : Option ℕ :=
  if (name.take 4).length = 4 ∧ (name.take 4).all Char.isDigit ∧ name[4]? = some '_' then some (decimalValue (name.take 4)) else none

/-- FileSystemUtilities.cpp 57-67. -/
def fileName (n : ℕ) (base : Str) (ext : Bool) (now : Str) : Str :=
  pad n ++ '_' :: base ++ (if ext then '_' :: base ++ '_' :: now else [])

/-- FileSystemUtilities.cpp 38-74, `bFindUniqueFileName`: the file system (a directory may be made), and the path if there is one. -/
def Fs.findUnique (fs : Fs) (ok : Bool) (base path : Str) (ext : Bool) (now : Str) : Outcome (Fs × Option Str) :=
  let r := fs.mkdir ok path
  if r.2 then
    if r.1.isDir (comps path) then .ok (r.1, some (path ++ '/' :: fileName (r.1.entries (comps path) + 1) base ext now))
    else .throws
  else .ok (r.1, none)

/-- FileSystemUtilities.cpp 76-91, `bSaveStringToUniqueFile`. -/
def Fs.saveUnique (fs : Fs) (ok : Bool) (text base path : Str) (ext : Bool) (now : Str) : Outcome (Fs × Bool) :=
  (fs.findUnique ok base path ext now).bind fun r =>
    match r.2 with
    | some f => .ok (r.1.append (comps f) (text ++ ['\n']), true)
    | none => .ok (r.1, false)

/-- FileSystemUtilities.cpp 113-138: the directory with the greatest number from 1 on, the first one of several. -/
def pick (names : List Str) : ℕ × Option Str :=
  names.foldl (fun m name => match numbered name with
    | some n => if m.1 < n then (n, some name) else m
    | none => m) (0, none)

/-- FileSystemUtilities.cpp 202-262, `bCreateUniqueDirectory`: the file system, the new path, and whether it is there. -/
def Fs.createUnique (fs : Fs) (ok : Bool) (path pre now : Str) : Outcome (Fs × Str × Bool) :=
  let r := fs.mkdir ok path
  if r.2 then
    if r.1.isDir (comps path) then
      let new := path ++ (pad ((pick (r.1.subs (comps path))).1 + 1) ++ '_' :: pre ++ '_' :: now ++ ['/'])
      let q := r.1.mkdir ok new
      .ok (q.1, new, q.2)
    else .throws
  else .ok (r.1, [], false)

/-- FileSystemUtilities.cpp 150-154 and 168-174: the name of a file in a subdirectory. -/
def subName (n : ℕ) (base now : Str) : Str := pad n ++ '_' :: base ++ '_' :: now

/-- FileSystemUtilities.cpp 93-200, `bSaveStringToFile`.  (Subdirectories are added to the path as it is, 179.) -/
def Fs.saveSub (fs : Fs) (ok : Bool) (text base path pre : Str) (limit : ℕ) (now : Str) : Outcome (Fs × Bool) :=
  let r := fs.mkdir ok path
  if r.2 then
    if r.1.isDir (comps path) then
      let m := pick (r.1.subs (comps path))
      let fresh : Outcome (Fs × Bool) :=
        let sub := path ++ (pad (m.1 + 1) ++ '_' :: pre)
        let q := r.1.mkdir ok sub
        if q.2 then .ok (q.1.append (comps (sub ++ '/' :: subName 1 base now)) (text ++ ['\n']), true) else .ok (q.1, false)
      match m.2 with
      | some d =>
          let n := r.1.entries (comps path ++ [d])
          if limit ≤ n then fresh
          else .ok (r.1.append (comps path ++ [d, subName (n + 1) base now]) (text ++ ['\n']), true)
      | none => fresh
    else .throws
  else .ok (r.1, true)

/-! ### Paths -/

theorem parts_append (a b : Str) : parts (a ++ '/' :: b) = ((parts a).1, (parts a).2 ++ comps b) := by
  induction a with
  | nil => simp [parts, comps]
  | cons c a ih =>
      rw [List.cons_append, parts, ih]
      by_cases hc : c = '/'
      · simp only [hc, if_true, parts]
        split <;> simp
      · simp only [hc, if_false, parts]

theorem comps_slash (a b : Str) : comps (a ++ '/' :: b) = comps a ++ comps b := by
  conv_lhs => rw [comps, parts_append]
  unfold comps
  by_cases h : (parts a).1 = [] <;> simp [h]

theorem comps_end (a : Str) : comps (a ++ ['/']) = comps a := by
  rw [comps_slash]; simp [comps, parts]

theorem parts_name : ∀ {s : Str}, '/' ∉ s → parts s = (s, [])
  | [], _ => rfl
  | c :: s, h => by
      simp only [List.mem_cons, not_or] at h
      rw [parts, parts_name h.2, if_neg (Ne.symm h.1)]

theorem comps_name {s : Str} (h : '/' ∉ s) (hne : s ≠ []) : comps s = [s] := by
  rw [comps, parts_name h, if_neg hne]

/-! ### Numbers -/

theorem pad_digit {n : ℕ} {c : Char} (h : c ∈ pad n) : c.isDigit = true := by
  rw [pad, List.mem_append] at h
  rcases h with h | h
  · rw [List.eq_of_mem_replicate h]; decide
  · exact decimal_isDigit h

theorem pad_value (n : ℕ) : decimalValue (pad n) = n := by
  rw [decimalValue, pad, Nat.ofDigitChars_append, Nat.ofDigitChars_replicate_zero, Nat.mul_zero]
  exact decimalValue_decimal n

theorem pad_no {n : ℕ} {c : Char} (h : c.isDigit = false) : c ∉ pad n := fun hc => by
  have := pad_digit hc; rw [h] at this; exact absurd this (by simp)

theorem pad_length {n : ℕ} (h : n < 10000) : (pad n).length = 4 := by
  have : (decimal n).length ≤ 4 := (Nat.length_toDigits_le_iff (by decide) (by decide)).2 (by simpa using h)
  simp [pad]; omega

theorem pad_ne (n : ℕ) : pad n ≠ [] := by
  simp [pad, decimal_ne_nil]

theorem numbered_pad {n : ℕ} (h : n < 10000) (s : Str) : numbered (pad n ++ '_' :: s) = some n := by
  have hl := pad_length h
  have ht : (pad n ++ '_' :: s).take 4 = pad n := List.take_left' hl
  have hg : (pad n ++ '_' :: s)[4]? = some '_' := by rw [List.getElem?_append_right (by omega), hl]; rfl
  rw [numbered, ht, if_pos ⟨hl, by rw [List.all_eq_true]; exact fun c hc => pad_digit hc, hg⟩, pad_value]

theorem pad_inj {a b : ℕ} {x y : Str} (h : pad a ++ '_' :: x = pad b ++ '_' :: y) : a = b := by
  have e1 := findChar_append (b := x) (pad_no (n := a) (c := '_') (by decide))
  have e2 := findChar_append (b := y) (pad_no (n := b) (c := '_') (by decide))
  rw [h, e2, Option.some.injEq] at e1
  have := congrArg (List.take (pad a).length) h
  rw [List.take_left', ← e1, List.take_left'] at this
  · rw [← pad_value a, ← pad_value b, this]
  · rfl
  · rfl

/-! ### What the pick is -/

theorem pick_append (l : List Str) (a : Str) : pick (l ++ [a]) =
    match numbered a with
    | some n => if (pick l).1 < n then (n, some a) else pick l
    | none => pick l := by
  unfold pick; rw [List.foldl_append]; rfl

theorem pick_ge (l : List Str) : ∀ {a : Str} {n : ℕ}, a ∈ l → numbered a = some n → n ≤ (pick l).1 := by
  induction l using List.reverseRecOn with
  | nil => intro a n h; simp at h
  | append_singleton l b ih =>
      intro a n h hn
      rw [pick_append]
      rw [List.mem_append, List.mem_singleton] at h
      rcases h with h | rfl
      · have := ih h hn
        cases numbered b with
        | none => exact this
        | some m => simp only; split <;> simp_all <;> omega
      · simp only [hn]; split
        · exact Nat.le_refl _
        · omega

theorem mkdir_there {fs : Fs} {ok : Bool} {s : Str} (h : fs.isDir (comps s) = true) : fs.mkdir ok s = (fs, true) := by
  unfold Fs.mkdir; simp [h]

theorem mem_subs {fs : Fs} {p : Path} {a : Str} : a ∈ fs.subs p ↔ p ++ [a] ∈ fs.dirs := by
  unfold Fs.subs
  rw [List.mem_filterMap]
  constructor
  · rintro ⟨q, hq, h⟩
    split at h
    · rename_i hd
      obtain ⟨q', rfl⟩ : ∃ q', q = q' ++ [a] := by
        have := List.dropLast_append_getLast? a h
        exact ⟨_, this.symm⟩
      simp at hd; rw [← hd]; exact hq
    · simp at h
  · intro h
    exact ⟨_, h, by simp⟩

/-- New directories in a directory that is there. -/
theorem mkdir_new {fs : Fs} {s : Str} {p : Path} {a : Str} (hs : comps s = p ++ [a]) (hp : fs.isDir p = true) (hall : ∀ q ∈ prefixes p, q ∈ fs.dirs)
    (hf : ∀ q ∈ prefixes (p ++ [a]), fs.isFile q = false) (hn : p ++ [a] ∉ fs.dirs) :
    fs.mkdir true s = ({ fs with dirs := fs.dirs ++ [p ++ [a]] }, true) := by
  have hpre : prefixes (p ++ [a]) = prefixes p ++ [p ++ [a]] := by
    unfold prefixes
    rw [List.length_append, List.length_singleton, List.range_succ, List.map_append]
    congr 1
    · apply List.map_congr_left
      intro i hi
      rw [List.mem_range] at hi
      rw [List.take_append_of_le_length (by omega)]
    · simp [List.take_of_length_le]
  have hself : fs.isFile (p ++ [a]) = false := hf _ (by rw [hpre]; simp)
  unfold Fs.mkdir
  rw [hs]
  have h1 : fs.isDir (p ++ [a]) = false := by simp [Fs.isDir, hn]
  have h2 : ((prefixes (p ++ [a])).all fun q => !fs.isFile q) = true := by
    rw [List.all_eq_true]; intro q hq; simp [hf q hq]
  have h3 : (prefixes (p ++ [a])).filter (fun q => !fs.isDir q) = [p ++ [a]] := by
    rw [hpre, List.filter_append]
    have : (prefixes p).filter (fun q => !fs.isDir q) = [] := by
      rw [List.filter_eq_nil_iff]; intro q hq; simp [Fs.isDir, hall q hq]
    rw [this]; simp [h1]
  simp only [h1, hself, h2, h3]
  simp

end Verif.Diagram
