import Verif.Log.Model
import Mathlib.Data.List.Induction
import Mathlib.Data.List.Nodup

/-! # Log files (C185) -/

namespace Verif.Log

open Verif

/-- When the file `i` is opened: the first at `t`, the others with the line after which the file before is full. -/
def timeAt (k t : ℕ) (l : List Wrote) (i : ℕ) : ℕ := if i = 0 then t else (l.getD (i * k - 1) ([], 0, false)).2.1

/-- The lines of the file `i`: `k` of them, after those of the files before. -/
def chunk (k : ℕ) (l : List Wrote) (i : ℕ) : List Str := ((l.map (·.1)).drop (i * k)).take k

/-- Not in the code: the file with the number `i`, counted from 0. -/
def fileAt (location : Str) (stamp : Bool) (k t : ℕ) (l : List Wrote) (i : ℕ) : Str × List Str :=
  (fileName location stamp ((i + 1) % 2 ^ 32) (timeAt k t l i), chunk k l i)

theorem chunk_full {k : ℕ} {l : List Wrote} {w : Wrote} {i : ℕ} (h : (i + 1) * k ≤ l.length) : chunk k (l ++ [w]) i = chunk k l i := by
  unfold chunk
  have h' : i * k + k ≤ l.length := by rw [Nat.succ_mul] at h; exact h
  rw [List.map_append, List.drop_append_of_le_length (by simp; omega), List.take_append_of_le_length (by simp; omega)]

theorem chunk_last {k : ℕ} {l : List Wrote} {w : Wrote} {i : ℕ} (h : i * k ≤ l.length) (h' : l.length < (i + 1) * k) :
    chunk k (l ++ [w]) i = chunk k l i ++ [w.1] := by
  unfold chunk
  rw [Nat.succ_mul] at h'
  rw [List.map_append, List.drop_append_of_le_length (by simp; omega), List.take_of_length_le (by simp; omega),
    List.take_of_length_le (by simp; omega)]
  rfl

theorem chunk_beyond {k : ℕ} {l : List Wrote} {i : ℕ} (h : l.length ≤ i * k) : chunk k l i = [] := by
  unfold chunk
  rw [List.drop_of_length_le (by simp; omega), List.take_nil]

theorem timeAt_append {k t : ℕ} {l : List Wrote} {w : Wrote} {i : ℕ} (hk : 1 ≤ k) (h : i * k ≤ l.length) :
    timeAt k t (l ++ [w]) i = timeAt k t l i := by
  unfold timeAt
  split
  · rfl
  · rename_i hi
    have : 1 ≤ i * k := Nat.mul_pos (by omega) hk
    rw [List.getD_eq_getElem?_getD, List.getD_eq_getElem?_getD, List.getElem?_append_left (by omega)]

theorem timeAt_new {k t : ℕ} {l : List Wrote} {w : Wrote} {i : ℕ} (hi : i ≠ 0) (h : i * k = l.length + 1) :
    timeAt k t (l ++ [w]) i = w.2.1 := by
  unfold timeAt
  rw [if_neg hi, h, List.getD_eq_getElem?_getD]
  simp

/-- What holds after all lines. -/
structure Written (location : Str) (stamp : Bool) (k t : ℕ) (l : List Wrote) (f : FileLog) : Prop where
  loc : f.location = location
  stm : f.stamp = stamp
  limit : f.limit = k
  isOpen : f.isOpen = true
  failures : f.failures = 0
  fileCount : f.fileCount = (l.length / k + 1) % 2 ^ 32
  count : f.count = l.length % k + 1
  files : f.files = (List.range (l.length / k + 1)).map (fileAt location stamp k t l)

theorem written_open (location : Str) (stamp : Bool) {k : ℕ} (hk : 1 ≤ k) (t : ℕ) :
    Written location stamp k t [] (fileLog location stamp k t) := by
  constructor <;> simp [fileLog, FileLog.open, fileAt, timeAt, chunk]

theorem written_write {location : Str} {stamp : Bool} {k t : ℕ} {l : List Wrote} {f : FileLog} (hk : 1 ≤ k) (hk2 : k + 1 < 2 ^ 32)
    (h : Written location stamp k t l f) (w : Wrote) (hw : w.2.2 = true) :
    Written location stamp k t (l ++ [w]) (f.write w.1 w.2.1 w.2.2) := by
  have hdm := Nat.div_add_mod l.length k
  have hm := Nat.mod_lt l.length hk
  set q := l.length / k with hq
  have hqk : q * k ≤ l.length := by rw [Nat.mul_comm]; omega
  have hqk' : l.length < (q + 1) * k := by rw [Nat.succ_mul, Nat.mul_comm]; omega
  have hp : (f.put w.1).files = (List.range (q + 1)).map (fileAt location stamp k t (l ++ [w])) := by
    unfold FileLog.put
    rw [if_pos h.isOpen]
    simp only
    rw [h.files, List.range_succ, List.map_append, List.map_append]
    simp only [List.map_cons, List.map_nil, List.dropLast_concat, List.getLast?_concat, Option.map_some, Option.toList_some]
    congr 1
    · apply List.map_congr_left
      intro i hi
      rw [List.mem_range] at hi
      have : (i + 1) * k ≤ q * k := Nat.mul_le_mul_right _ hi
      have : i * k ≤ (i + 1) * k := Nat.mul_le_mul_right _ (by omega)
      unfold fileAt
      rw [chunk_full (by omega), timeAt_append hk (by omega)]
    · unfold fileAt
      rw [chunk_last hqk hqk', timeAt_append hk hqk]
  have hput : f.put w.1 = { f with files := (f.put w.1).files } := by
    unfold FileLog.put; rw [if_pos h.isOpen]
  have hc : (f.count + 1) % 2 ^ 32 = l.length % k + 2 := by
    rw [h.count, Nat.mod_eq_of_lt (by omega)]
  unfold FileLog.write
  rw [hput, hp]
  unfold FileLog.roll
  simp only [h.limit, hc]
  by_cases hr : k < l.length % k + 2
  · have hrk : l.length % k + 1 = k := by omega
    have hlen : l.length + 1 = (q + 1) * k := by rw [Nat.succ_mul, Nat.mul_comm]; omega
    have hd : (l ++ [w]).length / k = q + 1 := by
      rw [List.length_append, List.length_singleton, hlen, Nat.mul_div_cancel _ hk]
    have hmod : (l ++ [w]).length % k = 0 := by
      rw [List.length_append, List.length_singleton, hlen, Nat.mul_mod_left]
    rw [if_pos hr, hw]
    simp only [FileLog.close, FileLog.open, h.isOpen, h.failures]
    simp only [reduceCtorEq, and_false, if_false, if_true, Nat.lt_irrefl]
    have hfc : (f.fileCount + 1) % 2 ^ 32 = (q + 1 + 1) % 2 ^ 32 := by rw [h.fileCount, Nat.mod_add_mod]
    constructor
    · exact h.loc
    · exact h.stm
    · rfl
    · rfl
    · rfl
    · simp only [hfc, hd]
    · simp only [hmod]
    · simp only [hfc, hd]
      rw [List.range_succ (n := q + 1), List.map_append]
      congr 1
      simp only [List.map_cons, List.map_nil]
      unfold fileAt
      rw [chunk_beyond (i := q + 1) (by rw [List.length_append, List.length_singleton]; exact Nat.le_of_eq hlen), timeAt_new (i := q + 1) (Nat.succ_ne_zero q) hlen.symm, h.loc, h.stm]
  · have hd : (l ++ [w]).length / k = q := by
      rw [List.length_append, List.length_singleton]
      refine Nat.div_eq_of_lt_le ?_ ?_
      · omega
      · rw [Nat.succ_mul, Nat.mul_comm]; omega
    have hmod : (l ++ [w]).length % k = l.length % k + 1 := by
      rw [List.length_append, List.length_singleton]
      have := Nat.div_add_mod (l.length + 1) k
      have e : (l.length + 1) / k = q := by simpa using hd
      rw [e] at this
      omega
    rw [if_neg hr]
    constructor
    · exact h.loc
    · exact h.stm
    · rfl
    · exact h.isOpen
    · exact h.failures
    · rw [hd]; exact h.fileCount
    · simp only [hmod]
    · simp only [hd]

theorem written (location : Str) (stamp : Bool) {k : ℕ} (hk : 1 ≤ k) (hk2 : k + 1 < 2 ^ 32) (t : ℕ) (l : List Wrote)
    (hl : ∀ w ∈ l, w.2.2 = true) : Written location stamp k t l ((fileLog location stamp k t).writes l) := by
  induction l using List.reverseRecOn with
  | nil => exact written_open location stamp hk t
  | append_singleton l w ih =>
      have e : (fileLog location stamp k t).writes (l ++ [w]) = ((fileLog location stamp k t).writes l).write w.1 w.2.1 w.2.2 := by
        unfold FileLog.writes; rw [List.foldl_append]; rfl
      rw [e]
      exact written_write hk hk2 (ih fun x hx => hl x (by simp [hx])) w (hl w (by simp))

/-- **C185.**  As long as files can be opened: the lines are in the files in order, as many as the limit in each but the last. -/
theorem C185_files (location : Str) (stamp : Bool) {k : ℕ} (hk : 1 ≤ k) (hk2 : k + 1 < 2 ^ 32) (t : ℕ) (l : List Wrote)
    (hl : ∀ w ∈ l, w.2.2 = true) :
    ((fileLog location stamp k t).writes l).files.map (·.2) =
      (List.range (l.length / k + 1)).map fun i => ((l.map (·.1)).drop (i * k)).take k := by
  rw [(written location stamp hk hk2 t l hl).files, List.map_map]
  rfl

theorem chunks_flatten (k : ℕ) (l : List Str) : ∀ n, ((List.range n).flatMap fun i => (l.drop (i * k)).take k) = l.take (n * k)
  | 0 => by simp
  | n + 1 => by
      rw [List.range_succ, List.flatMap_append, chunks_flatten k l n, Nat.succ_mul, List.take_add]
      simp

/-- **C185.**  Nothing is lost. -/
theorem C185_complete (location : Str) (stamp : Bool) {k : ℕ} (hk : 1 ≤ k) (hk2 : k + 1 < 2 ^ 32) (t : ℕ) (l : List Wrote)
    (hl : ∀ w ∈ l, w.2.2 = true) : ((fileLog location stamp k t).writes l).files.flatMap (·.2) = l.map (·.1) := by
  have := C185_files location stamp hk hk2 t l hl
  rw [List.flatMap_def, this, ← List.flatMap_def, chunks_flatten, List.take_of_length_le]
  have := Nat.div_add_mod l.length k
  have := Nat.mod_lt l.length hk
  simp only [List.length_map]
  rw [Nat.succ_mul, Nat.mul_comm]; omega

theorem fileName_inj {location : Str} {stamp : Bool} {n m t u : ℕ} (h : fileName location stamp n t = fileName location stamp m u) : n = m := by
  unfold fileName at h
  rw [List.append_assoc, List.append_assoc, List.append_cancel_left_eq, List.cons_append, List.cons_append, List.cons.injEq] at h
  have h := h.2
  cases stamp with
  | false => simp at h; exact decimal_injective h
  | true =>
      simp only [if_true] at h
      have d1 : '_' ∉ decimal n := fun hh => absurd (decimal_isDigit hh) (by decide)
      have d2 : '_' ∉ decimal m := fun hh => absurd (decimal_isDigit hh) (by decide)
      have e1 := findChar_append (b := decimal t) d1
      have e2 := findChar_append (b := decimal u) d2
      rw [h, e2, Option.some.injEq] at e1
      have := congrArg (List.take (decimal n).length) h
      rw [List.take_left', ← e1, List.take_left'] at this
      · exact decimal_injective this
      · rfl
      · rfl

/-- **C185.**  No file is opened twice, for fewer than 2^32 files. -/
theorem C185_names (location : Str) (stamp : Bool) {k : ℕ} (hk : 1 ≤ k) (hk2 : k + 1 < 2 ^ 32) (t : ℕ) (l : List Wrote)
    (hl : ∀ w ∈ l, w.2.2 = true) (h : l.length / k + 1 < 2 ^ 32) :
    (((fileLog location stamp k t).writes l).files.map (·.1)).Nodup := by
  rw [(written location stamp hk hk2 t l hl).files, List.map_map]
  refine List.Nodup.map_on ?_ List.nodup_range
  intro x hx y hy e
  rw [List.mem_range] at hx hy
  have := fileName_inj e
  rw [Nat.mod_eq_of_lt (by omega), Nat.mod_eq_of_lt (by omega)] at this
  omega

/-- Five lines, two in a file. -/
def exLines : List Wrote := [("a".toList, 1, true), ("b".toList, 2, true), ("c".toList, 3, true), ("d".toList, 4, true), ("e".toList, 5, true)]

example : ((fileLog "log".toList true 2 0).writes exLines).files.map (fun f => (String.ofList f.1, f.2.map String.ofList)) =
    [("log_1_0", ["a", "b"]), ("log_2_2", ["c", "d"]), ("log_3_4", ["e"])] := by decide +kernel

/-- The same, but the second and third file cannot be opened. -/
def exFails : List Wrote := [("a".toList, 1, false), ("b".toList, 2, false), ("c".toList, 3, true), ("d".toList, 4, true), ("e".toList, 5, true)]

/-- **C185, what fails.**  What is written while a file cannot be opened is lost, though the call succeeds.  The next file says that
`log_2` could not be closed, not `log_3` (neither was open), and all files from then on tell how often that failed. -/
theorem C185_lost_violated : ((fileLog "log".toList false 1 0).writes exFails).files.map (fun f => (String.ofList f.1, f.2.map String.ofList)) =
    [("log_1", ["a"]),
     ("log_4", ["FileLogger::closeAndOpenStream WARN: FileLogger failed to close log file [log_2]",
        "FileLogger::closeAndOpenStream WARN: FileLogger close log file failure count [2]", "d"]),
     ("log_5", ["FileLogger::closeAndOpenStream WARN: FileLogger close log file failure count [2]", "e"]),
     ("log_6", ["FileLogger::closeAndOpenStream WARN: FileLogger close log file failure count [2]"])] := by decide +kernel

/-- A log whose first file cannot be opened: that is not noted in the second file, and the line is lost. -/
example : (((({ location := "log".toList, stamp := false, limit := 1 } : FileLog).open 0 false).writes
      [("a".toList, 1, true), ("b".toList, 2, true)]).files.map fun f => (String.ofList f.1, f.2.map String.ofList)) =
    [("log_2", ["b"]), ("log_3", [])] := by decide +kernel

end Verif.Log
