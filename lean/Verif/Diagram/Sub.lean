import Verif.Diagram.Unique

/-! # Texts spread over subdirectories (C188): `src/cpp/Utilities/FileSystemUtilities.cpp` 93-200 -/

namespace Verif.Diagram

open Verif

/-- The name of a subdirectory. -/
def subDir (pre : Str) (n : ℕ) : Str := pad n ++ '_' :: pre

theorem pick_range (pre : Str) : ∀ m, m ≤ 9999 → pick ((List.range m).map fun j => subDir pre (j + 1)) =
    (m, if m = 0 then none else some (subDir pre m))
  | 0, _ => rfl
  | m + 1, h => by
      rw [List.range_succ, List.map_append, List.map_singleton, pick_append, pick_range pre m (by omega)]
      have : numbered (subDir pre (m + 1)) = some (m + 1) := numbered_pad (by omega) _
      simp [this]

/-- How many of the first `n` are in the part `j` of `k`. -/
theorem count_part {k : ℕ} (hk : 0 < k) (j : ℕ) : ∀ n, ((List.range n).filter fun i => decide (i / k = j)).length = min (n - j * k) k
  | 0 => by simp
  | n + 1 => by
      rw [List.range_succ, List.filter_append, List.length_append, count_part hk j n]
      have hiff : n / k = j ↔ j * k ≤ n ∧ n < j * k + k := by
        rw [Nat.div_eq_iff hk, Nat.lt_iff_add_one_le]; omega
      by_cases h : n / k = j
      · have := hiff.1 h
        simp [h]; omega
      · have : ¬ (j * k ≤ n ∧ n < j * k + k) := fun hh => h (hiff.2 hh)
        simp [h]; omega

/-- Texts, one after the other; text, name and time. -/
def Fs.saveSubs (fs : Fs) (path pre : Str) (k : ℕ) : List (Str × Str × Str) → Outcome Fs
  | [] => .ok fs
  | s :: l => (fs.saveSub true s.1 s.2.1 path pre k s.2.2).bind fun r => r.1.saveSubs path pre k l

theorem saveSubs_append (path pre : Str) (k : ℕ) (s : Str × Str × Str) : ∀ (l : List (Str × Str × Str)) (fs : Fs),
    fs.saveSubs path pre k (l ++ [s]) =
      (fs.saveSubs path pre k l).bind fun r => (r.saveSub true s.1 s.2.1 path pre k s.2.2).bind fun q => .ok q.1
  | [], fs => by simp [Fs.saveSubs]
  | a :: l, fs => by
      simp only [List.cons_append, Fs.saveSubs]
      cases fs.saveSub true a.1 a.2.1 path pre k a.2.2 with
      | ok r => simp only [Outcome.bind_ok]; exact saveSubs_append path pre k s l r.1
      | throws => rfl
      | ub => rfl

/-- The directories for `n` texts, `k` in each. -/
def subDirs (p : Path) (pre : Str) (k n : ℕ) : List Path := (List.range ((n + k - 1) / k)).map fun j => p ++ [subDir pre (j + 1)]

/-- The file of a text. -/
def subFile (p : Path) (pre : Str) (k : ℕ) (i : ℕ) (s : Str × Str × Str) : Path × Str :=
  (p ++ [subDir pre (i / k + 1), subName (i % k + 1) s.2.1 s.2.2], s.1 ++ ['\n'])

theorem subDir_inj {pre : Str} {a b : ℕ} (h : subDir pre a = subDir pre b) : a = b := pad_inj h

theorem subName_inj {a b : ℕ} {x y z w : Str} (h : subName a x y = subName b z w) : a = b := by
  unfold subName at h
  rw [List.append_assoc, List.append_assoc] at h
  exact pad_inj h

theorem subDir_name {pre : Str} (h : '/' ∉ pre) (n : ℕ) : '/' ∉ subDir pre n ∧ subDir pre n ≠ [] := by
  have := pad_no (n := n) (c := '/') (by decide)
  exact ⟨by simp only [subDir, List.mem_append, List.mem_cons, not_or]; exact ⟨this, by decide, h⟩, by simp [subDir]⟩

theorem subName_name {x y : Str} (hx : '/' ∉ x) (hy : '/' ∉ y) (n : ℕ) : '/' ∉ subName n x y ∧ subName n x y ≠ [] := by
  have := pad_no (n := n) (c := '/') (by decide)
  exact ⟨by simp only [subName, List.mem_append, List.mem_cons, not_or]; exact ⟨⟨this, by decide, hx⟩, by decide, hy⟩, by simp [subName]⟩

/-- What there is after `l`. -/
def subFs (fs : Fs) (p : Path) (pre : Str) (k : ℕ) (l : List (Str × Str × Str)) : Fs :=
  { dirs := fs.dirs ++ subDirs p pre k l.length, files := fs.files ++ l.mapIdx (subFile p pre k) }

section
variable {fs : Fs} (hg : fs.Good) {p : Path} (he : fs.entries p = 0) {pre : Str} {k : ℕ} (hk : 0 < k) (l : List (Str × Str × Str))

include he in
theorem empty_subs : fs.subs p = [] ∧ fs.here p = [] := by
  unfold Fs.entries at he
  exact ⟨List.length_eq_zero_iff.1 (by omega), List.length_eq_zero_iff.1 (by omega)⟩

include he hg in
/-- Nothing is below a directory that is not there. -/
theorem below (a : Str) : (∀ q ∈ fs.dirs, q.dropLast ≠ p ++ [a]) ∧ (∀ f ∈ fs.files, f.1.dropLast ≠ p ++ [a]) := by
  have hno : p ++ [a] ∉ fs.dirs := by
    intro h
    have := (mem_subs (fs := fs)).2 h
    rw [(empty_subs he).1] at this; simp at this
  refine ⟨fun q hq e => hno ?_, fun f hf e => hno ?_⟩
  · obtain ⟨b, rfl⟩ : ∃ b, q = (p ++ [a]) ++ [b] := by
      have hne : q ≠ [] := by rintro rfl; simp at e
      exact ⟨q.getLast hne, by rw [← e, List.dropLast_append_getLast]⟩
    refine hg.up _ hq _ ?_
    rw [prefixes_append, prefixes_append]; simp
  · have := hg.parent f hf
    rw [e] at this
    simpa [Fs.isDir] using this

include he in
theorem subFs_subs : (subFs fs p pre k l).subs p = (List.range ((l.length + k - 1) / k)).map fun j => subDir pre (j + 1) := by
  unfold Fs.subs subFs
  simp only
  rw [List.filterMap_append]
  have : fs.dirs.filterMap (fun q => if q.dropLast = p then q.getLast? else none) = [] := (empty_subs he).1
  rw [this, List.nil_append, subDirs, List.filterMap_map]
  rw [show ((fun q : Path => if q.dropLast = p then q.getLast? else none) ∘ fun j => p ++ [subDir pre (j + 1)]) =
    fun j => some (subDir pre (j + 1)) from by funext j; simp]
  rw [← List.filterMap_eq_map]
  rfl

include he hg hk in
theorem subFs_entries (j : ℕ) : (subFs fs p pre k l).entries (p ++ [subDir pre (j + 1)]) = min (l.length - j * k) k := by
  obtain ⟨b1, b2⟩ := below hg he (subDir pre (j + 1))
  have h1 : (subFs fs p pre k l).subs (p ++ [subDir pre (j + 1)]) = [] := by
    unfold Fs.subs
    rw [List.filterMap_eq_nil_iff]
    intro q hq
    simp only [subFs, List.mem_append, subDirs, List.mem_map] at hq
    rcases hq with hq | ⟨i, -, rfl⟩
    · rw [if_neg (b1 q hq)]
    · rw [if_neg]
      intro e
      have := congrArg List.length e
      simp at this
  have h2 : (subFs fs p pre k l).here (p ++ [subDir pre (j + 1)]) =
      (l.mapIdx (subFile p pre k)).filter fun f => decide (f.1.dropLast = p ++ [subDir pre (j + 1)]) := by
    unfold Fs.here subFs
    simp only
    rw [List.filter_append]
    have : fs.files.filter (fun f => decide (f.1.dropLast = p ++ [subDir pre (j + 1)])) = [] := by
      rw [List.filter_eq_nil_iff]; intro f hf; simp [b2 f hf]
    rw [this, List.nil_append]
  rw [Fs.entries, h1, h2, ← count_part hk j l.length]
  simp only [List.length_nil, Nat.zero_add]
  induction l using List.reverseRecOn with
  | nil => rfl
  | append_singleton l s ih =>
      rw [List.mapIdx_append, List.filter_append, List.length_append]
      rw [List.length_append, List.length_singleton, List.range_succ, List.filter_append, List.length_append]
      have hh := ih (by
        unfold Fs.subs
        rw [List.filterMap_eq_nil_iff]
        intro q hq
        simp only [subFs, List.mem_append, subDirs, List.mem_map] at hq
        rcases hq with hq | ⟨i, -, rfl⟩
        · rw [if_neg (b1 q hq)]
        · rw [if_neg]
          intro e
          have := congrArg List.length e
          simp at this) (by
        unfold Fs.here subFs
        simp only
        rw [List.filter_append]
        have : fs.files.filter (fun f => decide (f.1.dropLast = p ++ [subDir pre (j + 1)])) = [] := by
          rw [List.filter_eq_nil_iff]; intro f hf; simp [b2 f hf]
        rw [this, List.nil_append])
      rw [hh]
      congr 1
      have e : (decide ((subFile p pre k l.length s).1.dropLast = p ++ [subDir pre (j + 1)])) = decide (l.length / k = j) := by
        have : (subFile p pre k l.length s).1.dropLast = p ++ [subDir pre (l.length / k + 1)] := by
          simp [subFile]
        rw [this]
        rw [decide_eq_decide]
        constructor
        · intro h
          simp only [List.append_cancel_left_eq, List.cons.injEq, and_true] at h
          have := subDir_inj h; omega
        · intro h; rw [h]
      simp only [List.mapIdx_cons, List.mapIdx_nil, Nat.zero_add]
      rw [List.filter_singleton, List.filter_singleton, e]
      cases decide (l.length / k = j) <;> rfl

include he hg in
/-- The file of the next text is not there yet. -/
theorem next_new (s : Str × Str × Str) : (subFs fs p pre k l).isFile (subFile p pre k l.length s).1 = false ∧
    (subFs fs p pre k l).isDir (subFile p pre k l.length s).1 = false := by
  obtain ⟨b1, b2⟩ := below hg he (subDir pre (l.length / k + 1))
  have hd : (subFile p pre k l.length s).1.dropLast = p ++ [subDir pre (l.length / k + 1)] := by simp [subFile]
  constructor
  · unfold Fs.isFile
    rw [List.any_eq_false]
    intro f hf
    simp only [decide_eq_true_eq]
    intro e
    simp only [subFs, List.mem_append] at hf
    rcases hf with hf | hf
    · exact b2 f hf (by rw [e, hd])
    · rw [List.mem_mapIdx] at hf
      obtain ⟨i, hi, rfl⟩ := hf
      simp only [subFile, List.append_cancel_left_eq, List.cons.injEq, and_true] at e
      have h1 := subDir_inj e.1
      have h2 := subName_inj e.2
      have h3 := Nat.div_add_mod i k
      have h4 := Nat.div_add_mod l.length k
      rw [show i / k = l.length / k by omega, show i % k = l.length % k by omega] at h3
      omega
  · simp only [Fs.isDir, Bool.or_eq_false_iff, decide_eq_false_iff_not]
    refine ⟨by simp [subFile], fun hm => ?_⟩
    simp only [subFs, List.mem_append, subDirs, List.mem_map] at hm
    rcases hm with hm | ⟨i, -, e⟩
    · exact b1 _ hm hd
    · have := congrArg List.length e
      simp [subFile] at this

theorem append_new {fs : Fs} {q : Path} {t : Str} (h1 : fs.isFile q = false) (h2 : fs.isDir q = false) (h3 : fs.isDir q.dropLast = true) :
    fs.append q t = { fs with files := fs.files ++ [(q, t)] } := by
  unfold Fs.append; simp [h1, h2, h3]

theorem Fs.Good.append {fs : Fs} (h : fs.Good) {q : Path} {t : Str} (h2 : fs.isDir q = false) (h3 : fs.isDir q.dropLast = true) :
    Fs.Good { fs with files := fs.files ++ [(q, t)] } := by
  refine ⟨h.up, fun f hf => ?_, fun f hf => ?_⟩
  · rw [List.mem_append, List.mem_singleton] at hf
    rcases hf with hf | rfl
    · exact h.files f hf
    · exact h2
  · rw [List.mem_append, List.mem_singleton] at hf
    rcases hf with hf | rfl
    · exact h.parent f hf
    · exact h3

theorem dirs_count {n k : ℕ} (hk : 0 < k) : (n + k - 1) / k = if n % k = 0 then n / k else n / k + 1 := by
  have h := Nat.div_add_mod n k
  have hm := Nat.mod_lt n hk
  split
  · rw [Nat.div_eq_iff hk]
    rw [Nat.mul_comm] at h
    omega
  · rw [Nat.div_eq_iff hk]
    rw [Nat.mul_comm] at h
    rw [Nat.succ_mul]
    omega

theorem files_next (fs : Fs) (p : Path) (pre : Str) (k : ℕ) (l : List (Str × Str × Str)) (s : Str × Str × Str) :
    (subFs fs p pre k (l ++ [s])).files = (subFs fs p pre k l).files ++ [subFile p pre k l.length s] := by
  simp [subFs, List.mapIdx_append]

include hg he hk in
/-- **C188.**  Texts saved one after the other under an empty directory (the path has a slash at its end), at most 9999 times the limit:
they are spread over numbered subdirectories, as many as the limit in each but the last, each text in a file of its own. -/
theorem C188_sub {path : Str} (hp : comps (path ++ ['/']) = p) (hd : fs.isDir p = true) (hpre : '/' ∉ pre)
    (hl : ∀ s ∈ l, '/' ∉ s.2.1 ∧ '/' ∉ s.2.2) (hn : l.length ≤ 9999 * k) :
    fs.saveSubs (path ++ ['/']) pre k l = .ok (subFs fs p pre k l) := by
  suffices h : fs.saveSubs (path ++ ['/']) pre k l = .ok (subFs fs p pre k l) ∧ (subFs fs p pre k l).Good from h.1
  induction l using List.reverseRecOn with
  | nil =>
      have : (k - 1) / k = 0 := Nat.div_eq_of_lt (by omega)
      have e : subFs fs p pre k [] = fs := by simp [subFs, subDirs, this]
      rw [e]; exact ⟨rfl, hg⟩
  | append_singleton l s ih =>
      have hs := hl s (by simp)
      rw [List.length_append, List.length_singleton] at hn
      obtain ⟨ih1, ih2⟩ := ih (fun x hx => hl x (by simp [hx])) (by omega)
      rw [saveSubs_append, ih1]
      simp only [Outcome.bind_ok]
      have hd1 : (subFs fs p pre k l).isDir p = true := by
        simp only [Fs.isDir, Bool.or_eq_true, decide_eq_true_eq, subFs, List.mem_append] at hd ⊢; tauto
      obtain ⟨n1, n2⟩ := next_new hg he (pre := pre) (k := k) l s
      have hdl : (subFile p pre k l.length s).1.dropLast = p ++ [subDir pre (l.length / k + 1)] := by simp [subFile]
      have hdm := Nat.div_add_mod l.length k
      have hmlt := Nat.mod_lt l.length hk
      have hq : l.length / k < 9999 := by
        rw [Nat.div_lt_iff_lt_mul hk]; omega
      have hcount := dirs_count (n := l.length) hk
      have hcount' := dirs_count (n := l.length + 1) hk
      have hnext : (l.length + 1 + k - 1) / k = l.length / k + 1 := by
        rw [show l.length + 1 + k - 1 = l.length + k by omega, Nat.add_div_right _ hk]
      have hpick := pick_range pre ((l.length + k - 1) / k) (by rw [hcount]; split <;> omega)
      have hsubs := subFs_subs he (pre := pre) (k := k) l
      unfold Fs.saveSub
      rw [mkdir_there (by rw [hp]; exact hd1)]
      simp only [if_true, hp, hd1, hsubs, hpick]
      by_cases hr : l.length % k = 0
      · -- a new directory
        rw [if_pos hr] at hcount
        set a := subDir pre (l.length / k + 1) with ha
        obtain ⟨ha1, ha2⟩ := subDir_name hpre (l.length / k + 1)
        have hc1 : comps (path ++ ['/'] ++ (pad ((l.length + k - 1) / k + 1) ++ '_' :: pre)) = p ++ [a] := by
          rw [hcount, List.append_assoc, List.singleton_append, comps_slash]
          rw [comps_end] at hp
          rw [hp]
          rw [show comps (pad (l.length / k + 1) ++ '_' :: pre) = [a] from comps_name ha1 ha2]
        obtain ⟨hb1, hb2⟩ := subName_name hs.1 hs.2 1
        have hc2 : comps (path ++ ['/'] ++ (pad ((l.length + k - 1) / k + 1) ++ '_' :: pre) ++ '/' :: subName 1 s.2.1 s.2.2) =
            (subFile p pre k l.length s).1 := by
          rw [comps_slash, hc1, comps_name hb1 hb2]
          simp [subFile, hr, ← ha]
        have hnd : p ++ [a] ∉ (subFs fs p pre k l).dirs := by
          intro hm
          have := (mem_subs (fs := subFs fs p pre k l)).2 hm
          rw [hsubs, List.mem_map] at this
          obtain ⟨j, hj, e⟩ := this
          rw [List.mem_range, hcount] at hj
          have := subDir_inj e
          omega
        have hnf : (subFs fs p pre k l).isFile (p ++ [a]) = false := by
          unfold Fs.isFile
          rw [List.any_eq_false]
          intro f hf
          simp only [decide_eq_true_eq]
          intro e
          simp only [subFs, List.mem_append] at hf
          rcases hf with hf | hf
          · have : f ∈ fs.here p := by unfold Fs.here; rw [List.mem_filter]; exact ⟨hf, by simp [e]⟩
            rw [(empty_subs he).2] at this; simp at this
          · rw [List.mem_mapIdx] at hf
            obtain ⟨i, hi, rfl⟩ := hf
            have := congrArg List.length e
            simp [subFile] at this
        obtain ⟨m1, m2⟩ := ih2.mkdir hc1 hd1 hnf hnd
        set fs2 : Fs := { subFs fs p pre k l with dirs := (subFs fs p pre k l).dirs ++ [p ++ [a]] } with hfs2
        have k1 : fs2.isFile (subFile p pre k l.length s).1 = false := n1
        have k2 : fs2.isDir (subFile p pre k l.length s).1 = false := by
          simp only [Fs.isDir, Bool.or_eq_false_iff, decide_eq_false_iff_not, hfs2, List.mem_append, List.mem_singleton, not_or] at n2 ⊢
          refine ⟨n2.1, n2.2, fun e => ?_⟩
          have := congrArg List.length e
          simp [subFile] at this
        have k3 : fs2.isDir (subFile p pre k l.length s).1.dropLast = true := by
          rw [hdl]; simp [Fs.isDir, hfs2, ha]
        have hfinal : subFs fs p pre k (l ++ [s]) = { fs2 with files := fs2.files ++ [((subFile p pre k l.length s).1, s.1 ++ ['\n'])] } := by
          have e1 := files_next fs p pre k l s
          have e2 : (subFs fs p pre k (l ++ [s])).dirs = fs2.dirs := by
            simp only [subFs, hfs2, subDirs, List.length_append, List.length_singleton]
            rw [hnext, hcount, List.range_succ, List.map_append, List.append_assoc]
            rfl
          show Fs.mk (subFs fs p pre k (l ++ [s])).dirs (subFs fs p pre k (l ++ [s])).files = _
          rw [e1, e2]
          rfl
        have hfresh : ((if (Fs.mkdir (subFs fs p pre k l) true (path ++ ['/'] ++ (pad ((l.length + k - 1) / k + 1) ++ '_' :: pre))).2 = true then
              Outcome.ok ((Fs.mkdir (subFs fs p pre k l) true (path ++ ['/'] ++ (pad ((l.length + k - 1) / k + 1) ++ '_' :: pre))).1.append
                (comps (path ++ ['/'] ++ (pad ((l.length + k - 1) / k + 1) ++ '_' :: pre) ++ '/' :: subName 1 s.2.1 s.2.2)) (s.1 ++ ['\n']), true)
            else Outcome.ok ((Fs.mkdir (subFs fs p pre k l) true (path ++ ['/'] ++ (pad ((l.length + k - 1) / k + 1) ++ '_' :: pre))).1, false)) :
              Outcome (Fs × Bool)) = .ok (subFs fs p pre k (l ++ [s]), true) := by
          rw [m1]
          simp only [if_true]
          rw [hc2, append_new k1 k2 k3, hfinal]
        refine ⟨?_, by rw [hfinal]; exact m2.append k2 k3⟩
        by_cases h0 : (l.length + k - 1) / k = 0
        · rw [if_pos h0]
          simp only
          rw [hfresh]
          rfl
        · rw [if_neg h0]
          simp only
          have hent := subFs_entries hg he (pre := pre) hk l ((l.length + k - 1) / k - 1)
          rw [Nat.sub_add_cancel (Nat.pos_of_ne_zero h0)] at hent
          have hq1 : (l.length / k - 1) * k + k = l.length := by
            rw [Nat.sub_mul, Nat.one_mul, Nat.mul_comm]
            rw [hcount] at h0
            have : k * 1 ≤ k * (l.length / k) := Nat.mul_le_mul_left k (Nat.pos_of_ne_zero h0)
            omega
          rw [if_pos (by rw [hent, hcount]; omega), hfresh]
          rfl
      · -- the last directory
        rw [if_neg hr] at hcount
        have h0 : (l.length + k - 1) / k ≠ 0 := by rw [hcount]; exact Nat.succ_ne_zero _
        rw [if_neg h0]
        simp only
        have hent := subFs_entries hg he (pre := pre) hk l (l.length / k)
        have hmod : l.length - l.length / k * k = l.length % k := by rw [Nat.mul_comm]; omega
        rw [hmod, Nat.min_eq_left (by omega)] at hent
        rw [hcount, hent, if_neg (by omega)]
        have k3 : (subFs fs p pre k l).isDir (subFile p pre k l.length s).1.dropLast = true := by
          rw [hdl]
          simp only [Fs.isDir, Bool.or_eq_true, decide_eq_true_eq]
          right
          simp only [subFs, subDirs, List.mem_append, List.mem_map]
          right
          exact ⟨l.length / k, by rw [List.mem_range, hcount]; omega, rfl⟩
        have hfinal : subFs fs p pre k (l ++ [s]) =
            { subFs fs p pre k l with files := (subFs fs p pre k l).files ++ [((subFile p pre k l.length s).1, s.1 ++ ['\n'])] } := by
          have e1 := files_next fs p pre k l s
          have e2 : (subFs fs p pre k (l ++ [s])).dirs = (subFs fs p pre k l).dirs := by
            simp only [subFs, subDirs, List.length_append, List.length_singleton]
            rw [hnext, hcount]
          show Fs.mk (subFs fs p pre k (l ++ [s])).dirs (subFs fs p pre k (l ++ [s])).files = _
          rw [e1, e2]
          rfl
        refine ⟨?_, by rw [hfinal]; exact ih2.append n2 k3⟩
        have : (subFile p pre k l.length s).1 = p ++ [subDir pre (l.length / k + 1), subName (l.length % k + 1) s.2.1 s.2.2] := rfl
        rw [← this, append_new n1 n2 k3, hfinal]
        rfl

end

/-! ### Cases -/

/-- Three texts, two in a directory. -/
def exTexts : List (Str × Str × Str) :=
  [("s".toList, "a".toList, "1".toList), ("t".toList, "a".toList, "2".toList), ("u".toList, "a".toList, "3".toList)]

example : exEmpty.Good ∧ exEmpty.entries ["d".toList] = 0 := ⟨⟨by decide, by decide, by decide⟩, by decide +kernel⟩

example : exEmpty.saveSubs "d/".toList "p".toList 2 exTexts =
    .ok { dirs := [["d".toList], ["d".toList, "0001_p".toList], ["d".toList, "0002_p".toList]],
          files := [(["d".toList, "0001_p".toList, "0001_a_1".toList], "s\n".toList), (["d".toList, "0001_p".toList, "0002_a_2".toList], "t\n".toList),
            (["d".toList, "0002_p".toList, "0001_a_3".toList], "u\n".toList)] } := by decide +kernel

/-- **C188, what fails.**  Without a slash at its end the texts are beside the path, all of them in one directory as number 1. -/
theorem C188_slash_violated : exEmpty.saveSubs "d".toList "p".toList 2 exTexts =
    .ok { dirs := [["d".toList], ["d0001_p".toList]],
          files := [(["d0001_p".toList, "0001_a_1".toList], "s\n".toList), (["d0001_p".toList, "0001_a_2".toList], "t\n".toList),
            (["d0001_p".toList, "0001_a_3".toList], "u\n".toList)] } := by decide +kernel

/-- All numbers used, the last directory full. -/
def exFull : Fs := { dirs := [["d".toList], ["d".toList, "9999_p".toList]], files := [(["d".toList, "9999_p".toList, "0001_a_0".toList], [])] }

/-- **C188, what fails.**  Behind 9999 there is one more directory, without limit, and texts saved at the same time are one file. -/
theorem C188_limit_violated : exFull.saveSubs "d/".toList "p".toList 1
      [("s".toList, "a".toList, "1".toList), ("t".toList, "a".toList, "2".toList), ("u".toList, "a".toList, "2".toList)] =
    .ok { dirs := exFull.dirs ++ [["d".toList, "10000_p".toList]],
          files := exFull.files ++ [(["d".toList, "10000_p".toList, "0001_a_1".toList], "s\n".toList),
            (["d".toList, "10000_p".toList, "0001_a_2".toList], "t\nu\n".toList)] } := by decide +kernel

/-- **C188, what fails.**  When the directory cannot be made, nothing is saved and that is reported as success. -/
theorem C188_success_violated : Fs.saveSub ⟨[], []⟩ false "s".toList "a".toList "d/".toList "p".toList 1 "1".toList = .ok (⟨[], []⟩, true) := by
  decide +kernel

end Verif.Diagram
