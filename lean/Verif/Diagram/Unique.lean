import Verif.Diagram.Fs

/-! # New directories and files are new (C188) -/

namespace Verif.Diagram

open Verif

/-- What holds of file systems: a directory is in a directory, so is a file, and nothing is both. -/
structure Fs.Good (fs : Fs) : Prop where
  up : ∀ q ∈ fs.dirs, ∀ r ∈ prefixes q, r ∈ fs.dirs
  files : ∀ f ∈ fs.files, fs.isDir f.1 = false
  parent : ∀ f ∈ fs.files, fs.isDir f.1.dropLast = true

theorem prefixes_append (p : Path) (a : Str) : prefixes (p ++ [a]) = prefixes p ++ [p ++ [a]] := by
  unfold prefixes
  rw [List.length_append, List.length_singleton, List.range_succ, List.map_append]
  congr 1
  · apply List.map_congr_left
    intro i hi
    rw [List.mem_range] at hi
    rw [List.take_append_of_le_length (by omega)]
  · simp [List.take_of_length_le]

theorem Fs.Good.all {fs : Fs} (h : fs.Good) {p : Path} (hp : fs.isDir p = true) : ∀ q ∈ prefixes p, q ∈ fs.dirs := by
  simp only [Fs.isDir, Bool.or_eq_true, decide_eq_true_eq] at hp
  rcases hp with rfl | hp
  · intro q hq; simp [prefixes] at hq
  · exact h.up p hp

theorem Fs.Good.notFile {fs : Fs} (h : fs.Good) {p : Path} (hp : fs.isDir p = true) : fs.isFile p = false := by
  unfold Fs.isFile
  rw [List.any_eq_false]
  intro f hf
  simp only [decide_eq_true_eq]
  intro e
  have := h.files f hf
  rw [e, hp] at this
  exact absurd this (by simp)

/-- A new directory. -/
theorem Fs.Good.mkdir {fs : Fs} (h : fs.Good) {s : Str} {p : Path} {a : Str} (hs : comps s = p ++ [a]) (hp : fs.isDir p = true)
    (hf : fs.isFile (p ++ [a]) = false) (hn : p ++ [a] ∉ fs.dirs) :
    fs.mkdir true s = ({ fs with dirs := fs.dirs ++ [p ++ [a]] }, true) ∧ Fs.Good { fs with dirs := fs.dirs ++ [p ++ [a]] } := by
  refine ⟨mkdir_new hs hp (h.all hp) ?_ hn, ⟨?_, ?_, ?_⟩⟩
  · intro q hq
    rw [prefixes_append, List.mem_append, List.mem_singleton] at hq
    rcases hq with hq | rfl
    · exact h.notFile (by simp [Fs.isDir, h.all hp q hq])
    · exact hf
  · intro q hq r hr
    simp only [List.mem_append, List.mem_singleton] at hq ⊢
    rcases hq with hq | rfl
    · exact .inl (h.up q hq r hr)
    · rw [prefixes_append, List.mem_append, List.mem_singleton] at hr
      rcases hr with hr | hr
      · exact .inl (h.all hp r hr)
      · exact .inr hr
  · intro f hf'
    have h1 := h.files f hf'
    simp only [Fs.isDir, Bool.or_eq_false_iff, decide_eq_false_iff_not, List.mem_append, List.mem_singleton, not_or] at h1 ⊢
    refine ⟨h1.1, h1.2, fun e => ?_⟩
    rw [Fs.isFile, List.any_eq_false] at hf
    exact hf f hf' (by simp [e])
  · intro f hf'
    have h1 := h.parent f hf'
    simp only [Fs.isDir, Bool.or_eq_true, decide_eq_true_eq, List.mem_append, List.mem_singleton] at h1 ⊢
    tauto

/-- The names of new directories: numbers in order behind those that are there. -/
def dirName (n : ℕ) (c : Str × Str) : Str := pad n ++ '_' :: c.1 ++ '_' :: c.2

/-- Several directories, one after the other; `c` has the prefix and the time. -/
def Fs.creates (fs : Fs) (path : Str) : List (Str × Str) → Outcome (Fs × List Str)
  | [] => .ok (fs, [])
  | c :: l => (fs.createUnique true path c.1 c.2).bind fun r => (r.1.creates path l).bind fun q => .ok (q.1, r.2.1 :: q.2)

/-- The greatest number of a directory. -/
def Fs.top (fs : Fs) (p : Path) : ℕ := ((fs.subs p).filterMap numbered).foldr max 0

theorem foldr_max_append (l : List ℕ) (a : ℕ) : (l ++ [a]).foldr max 0 = max (l.foldr max 0) a := by
  induction l with
  | nil => simp
  | cons b l ih => simp only [List.cons_append, List.foldr_cons, ih, Nat.max_assoc]

theorem pick_top (l : List Str) : (pick l).1 = (l.filterMap numbered).foldr max 0 := by
  induction l using List.reverseRecOn with
  | nil => rfl
  | append_singleton l a ih =>
      rw [pick_append, List.filterMap_append]
      cases h : numbered a with
      | none => simp [h, ih]
      | some n =>
          have : [a].filterMap numbered = [n] := by simp [h]
          rw [this, foldr_max_append, ← ih]
          simp only
          split
          · show n = _; omega
          · omega

theorem le_top {fs : Fs} {p : Path} {a : Str} {n : ℕ} (h : p ++ [a] ∈ fs.dirs) (hn : numbered a = some n) : n ≤ fs.top p := by
  rw [Fs.top, ← pick_top]
  exact pick_ge _ (mem_subs.2 h) hn

theorem subs_append (fs : Fs) (p : Path) (a : Str) : Fs.subs { fs with dirs := fs.dirs ++ [p ++ [a]] } p = fs.subs p ++ [a] := by
  simp [Fs.subs, List.filterMap_append]

/-- No file has a number in its name. -/
def Fs.NoNumbers (fs : Fs) (p : Path) : Prop := ∀ a, fs.isFile (p ++ [a]) = true → numbered a = none

theorem create_one {fs : Fs} (h : fs.Good) {path : Str} {p : Path} (hp : comps (path ++ ['/']) = p) (hd : fs.isDir p = true)
    (hno : fs.NoNumbers p) {c : Str × Str} (hc : '/' ∉ c.1 ∧ '/' ∉ c.2) (ht : fs.top p < 9999) :
    let fs' : Fs := { fs with dirs := fs.dirs ++ [p ++ [dirName (fs.top p + 1) c]] }
    ∃ new, fs.createUnique true (path ++ ['/']) c.1 c.2 = .ok (fs', new, true) ∧ comps new = p ++ [dirName (fs.top p + 1) c] ∧
      fs'.Good ∧ fs'.top p = fs.top p + 1 ∧ p ++ [dirName (fs.top p + 1) c] ∉ fs.dirs := by
  intro fs'
  have hnum : numbered (dirName (fs.top p + 1) c) = some (fs.top p + 1) := by
    unfold dirName; rw [List.append_assoc]; exact numbered_pad (by omega) _
  have hslash : '/' ∉ dirName (fs.top p + 1) c := by
    unfold dirName
    have := pad_no (n := fs.top p + 1) (c := '/') (by decide)
    simp only [List.mem_append, List.mem_cons, not_or]
    exact ⟨⟨this, by decide, hc.1⟩, by decide, hc.2⟩
  have hne : dirName (fs.top p + 1) c ≠ [] := by simp [dirName]
  have hnew : p ++ [dirName (fs.top p + 1) c] ∉ fs.dirs := by
    intro hm
    have := le_top hm hnum
    omega
  have hfile : fs.isFile (p ++ [dirName (fs.top p + 1) c]) = false := by
    cases hh : fs.isFile (p ++ [dirName (fs.top p + 1) c]) with
    | false => rfl
    | true => rw [hno _ hh] at hnum; exact absurd hnum (by simp)
  have hcomps : comps ((path ++ ['/']) ++ (dirName (fs.top p + 1) c ++ ['/'])) = p ++ [dirName (fs.top p + 1) c] := by
    rw [← List.append_assoc, comps_end, List.append_assoc, List.singleton_append, comps_slash, comps_name hslash hne, ← hp, comps_end]
  obtain ⟨h1, h2⟩ := h.mkdir hcomps hd hfile hnew
  have e : (pick (fs.subs p)).1 = fs.top p := pick_top _
  refine ⟨(path ++ ['/']) ++ (dirName (fs.top p + 1) c ++ ['/']), ?_, hcomps, h2, ?_, hnew⟩
  · unfold Fs.createUnique
    rw [mkdir_there (by rw [hp]; exact hd)]
    simp only [if_true, hp, hd, e]
    rw [show (pad (fs.top p + 1) ++ '_' :: c.1 ++ '_' :: c.2 ++ ['/']) = dirName (fs.top p + 1) c ++ ['/'] from rfl, h1]
  · show (List.filterMap numbered (Fs.subs fs' p)).foldr max 0 = _
    have : Fs.subs fs' p = fs.subs p ++ [dirName (fs.top p + 1) c] := subs_append fs p _
    rw [this, List.filterMap_append]
    have e1 : [dirName (fs.top p + 1) c].filterMap numbered = [fs.top p + 1] := by simp [hnum]
    rw [e1, foldr_max_append]
    show max (fs.top p) _ = _
    omega

/-- **C188.**  Directories made one after the other in a directory get the next numbers, up to 9999. -/
theorem C188_directories {path : Str} {p : Path} (hp : comps (path ++ ['/']) = p) : ∀ {fs : Fs} (_ : fs.Good) (_ : fs.isDir p = true)
    (_ : fs.NoNumbers p) {l : List (Str × Str)} (_ : ∀ c ∈ l, '/' ∉ c.1 ∧ '/' ∉ c.2) (_ : fs.top p + l.length ≤ 9999),
    ∃ paths, fs.creates (path ++ ['/']) l =
        .ok ({ fs with dirs := fs.dirs ++ l.mapIdx fun i c => p ++ [dirName (fs.top p + 1 + i) c] }, paths) ∧
      paths.map comps = l.mapIdx (fun i c => p ++ [dirName (fs.top p + 1 + i) c]) := by
  intro fs h hd hno l
  induction l generalizing fs with
  | nil => intro _ _; exact ⟨[], by simp [Fs.creates], rfl⟩
  | cons c l ih =>
      intro hc ht
      obtain ⟨new, h1, h2, h3, h4, -⟩ := create_one h hp hd hno (hc c (by simp)) (by simp at ht; omega)
      obtain ⟨paths, h5, h6⟩ := ih h3 (by simp only [Fs.isDir, Bool.or_eq_true, decide_eq_true_eq] at hd ⊢; simp; tauto) hno
        (fun x hx => hc x (by simp [hx])) (by rw [h4]; simp at ht; omega)
      have e : (fun i (c : Str × Str) => p ++ [dirName (fs.top p + 1 + 1 + i) c]) = fun i c => p ++ [dirName (fs.top p + 1 + (i + 1)) c] := by
        funext i c
        rw [show fs.top p + 1 + 1 + i = fs.top p + 1 + (i + 1) by omega]
      rw [h4, e] at h5 h6
      refine ⟨new :: paths, ?_, ?_⟩
      · rw [Fs.creates, h1]
        simp only [Outcome.bind_ok]
        rw [h5]
        simp only [Outcome.bind_ok, List.mapIdx_cons, List.append_assoc, Nat.add_zero, List.singleton_append]
      · rw [List.map_cons, h2, h6, List.mapIdx_cons]

/-- **C188.**  The new directories are different from each other and from those of before. -/
theorem C188_distinct {fs : Fs} {p : Path} {l : List (Str × Str)} (ht : fs.top p + l.length ≤ 9999) (hd : fs.dirs.Nodup) :
    (fs.dirs ++ l.mapIdx fun i c => p ++ [dirName (fs.top p + 1 + i) c]).Nodup := by
  have hnum : ∀ i c, i < l.length → numbered (dirName (fs.top p + 1 + i) c) = some (fs.top p + 1 + i) := fun i c hi => by
    unfold dirName; rw [List.append_assoc]; exact numbered_pad (by omega) _
  rw [List.nodup_append]
  refine ⟨hd, ?_, ?_⟩
  · rw [List.nodup_iff_injective_get]
    intro a b hab
    have ha := a.2
    have hb := b.2
    simp only [List.length_mapIdx] at ha hb
    simp only [List.get_eq_getElem, List.getElem_mapIdx, List.append_cancel_left_eq, List.cons.injEq, and_true] at hab
    have h1 := hnum a l[a.1] ha
    rw [hab, hnum b _ hb] at h1
    apply Fin.ext
    simp at h1
    omega
  · intro a ha b hb e
    rw [List.mem_mapIdx] at hb
    obtain ⟨i, hi, rfl⟩ := hb
    subst e
    have := le_top ha (hnum i _ hi)
    omega

/-! ### Files -/

/-- A text that is saved: text, name, whether the time is added, time. -/
structure Save where
  text : Str
  base : Str
  ext : Bool
  now : Str

/-- Texts, one after the other. -/
def Fs.saves (fs : Fs) (path : Str) : List Save → Outcome Fs
  | [] => .ok fs
  | s :: l => (fs.saveUnique true s.text s.base path s.ext s.now).bind fun r => r.1.saves path l

theorem saves_append (path : Str) (s : Save) : ∀ (l : List Save) (fs : Fs),
    fs.saves path (l ++ [s]) = (fs.saves path l).bind fun r => (r.saveUnique true s.text s.base path s.ext s.now).bind fun q => .ok q.1
  | [], fs => by simp [Fs.saves]
  | a :: l, fs => by
      simp only [List.cons_append, Fs.saves]
      cases fs.saveUnique true a.text a.base path a.ext a.now with
      | ok r => simp only [Outcome.bind_ok]; exact saves_append path s l r.1
      | throws => rfl
      | ub => rfl

/-- The files. -/
def savedFiles (p : Path) (l : List Save) : List (Path × Str) :=
  l.mapIdx fun i s => (p ++ [fileName (i + 1) s.base s.ext s.now], s.text ++ ['\n'])

theorem fileName_inj {a b : ℕ} {s t : Save} (h : fileName a s.base s.ext s.now = fileName b t.base t.ext t.now) : a = b := by
  unfold fileName at h
  rw [List.append_assoc, List.append_assoc, List.cons_append, List.cons_append] at h
  exact pad_inj h

theorem savedFiles_append (p : Path) (l : List Save) (s : Save) :
    savedFiles p (l ++ [s]) = savedFiles p l ++ [(p ++ [fileName (l.length + 1) s.base s.ext s.now], s.text ++ ['\n'])] := by
  simp [savedFiles, List.mapIdx_append]

/-- **C188.**  Texts saved one after the other in an empty directory are each in a file of their own, numbered from 1. -/
theorem C188_files {fs : Fs} {path : Str} {p : Path} (hp : comps path = p) (hd : fs.isDir p = true) (he : fs.entries p = 0)
    (l : List Save) (hl : ∀ s ∈ l, '/' ∉ s.base ∧ '/' ∉ s.now) :
    fs.saves path l = .ok { fs with files := fs.files ++ savedFiles p l } ∧ ((savedFiles p l).map (·.1)).Nodup := by
  have hs : fs.subs p = [] ∧ fs.here p = [] := by
    unfold Fs.entries at he
    exact ⟨List.length_eq_zero_iff.1 (by omega), List.length_eq_zero_iff.1 (by omega)⟩
  constructor
  · induction l using List.reverseRecOn with
    | nil => simp [Fs.saves, savedFiles]
    | append_singleton l s ih =>
        have hsl := hl s (by simp)
        rw [saves_append, ih fun x hx => hl x (by simp [hx])]
        simp only [Outcome.bind_ok]
        generalize hn : fileName (l.length + 1) s.base s.ext s.now = name
        have hslash : '/' ∉ name := by
          rw [← hn]; unfold fileName
          have := pad_no (n := l.length + 1) (c := '/') (by decide)
          simp only [List.mem_append, List.mem_cons, not_or]
          refine ⟨⟨this, by decide, hsl.1⟩, ?_⟩
          split
          · simp only [List.mem_append, List.mem_cons, not_or]; exact ⟨⟨by decide, hsl.1⟩, by decide, hsl.2⟩
          · simp
        have hne : name ≠ [] := by rw [← hn]; simp [fileName]
        set fs1 : Fs := { fs with files := fs.files ++ savedFiles p l } with hfs1
        have hd1 : fs1.isDir p = true := hd
        have hent : fs1.entries p = l.length := by
          have h1 : fs1.subs p = [] := hs.1
          have h2 : fs1.here p = savedFiles p l := by
            show (fs.files ++ savedFiles p l).filter _ = _
            rw [List.filter_append]
            have : fs.files.filter (fun f => decide (f.1.dropLast = p)) = [] := hs.2
            rw [this, List.nil_append, List.filter_eq_self]
            intro f hf
            rw [savedFiles, List.mem_mapIdx] at hf
            obtain ⟨i, hi, rfl⟩ := hf
            simp
          rw [Fs.entries, h1, h2]; simp [savedFiles]
        have hnf : fs1.isFile (p ++ [name]) = false := by
          unfold Fs.isFile
          rw [List.any_eq_false]
          intro f hf
          simp only [decide_eq_true_eq]
          intro e
          simp only [hfs1, List.mem_append] at hf
          rcases hf with hf | hf
          · have : f ∈ fs.here p := by
              unfold Fs.here; rw [List.mem_filter]; exact ⟨hf, by simp [e]⟩
            rw [hs.2] at this; simp at this
          · rw [savedFiles, List.mem_mapIdx] at hf
            obtain ⟨i, hi, rfl⟩ := hf
            simp only [List.append_cancel_left_eq, List.cons.injEq, and_true] at e
            rw [← hn] at e
            have := fileName_inj e
            omega
        have hnd : fs1.isDir (p ++ [name]) = false := by
          simp only [Fs.isDir, Bool.or_eq_false_iff, decide_eq_false_iff_not]
          refine ⟨by simp, fun hm => ?_⟩
          have := (mem_subs (fs := fs)).2 hm
          rw [hs.1] at this; simp at this
        have hc : comps (path ++ '/' :: name) = p ++ [name] := by rw [comps_slash, hp, comps_name hslash hne]
        unfold Fs.saveUnique Fs.findUnique
        rw [mkdir_there (by rw [hp]; exact hd1)]
        simp only [if_true, hp, hd1, hent, hn, Outcome.bind_ok, hc]
        unfold Fs.append
        simp only [hnf, Bool.false_eq_true, if_false, List.dropLast_concat, hd1, hnd, Bool.not_false, Bool.and_self, if_true]
        rw [savedFiles_append, hn]
        simp [hfs1]
  · have e : (savedFiles p l).map (·.1) = l.mapIdx fun i s => p ++ [fileName (i + 1) s.base s.ext s.now] := by
      apply List.ext_getElem <;> simp [savedFiles]
    rw [e, List.nodup_iff_injective_get]
    intro a b hab
    simp only [List.get_eq_getElem, List.getElem_mapIdx, List.append_cancel_left_eq, List.cons.injEq,
      and_true] at hab
    have := fileName_inj hab
    apply Fin.ext; omega

/-! ### Cases -/

/-- A directory with two numbered directories and another. -/
def exFs : Fs :=
  { dirs := [["d".toList], ["d".toList, "0007_x".toList], ["d".toList, "0002_y".toList], ["d".toList, "12345_z".toList]],
    files := [(["d".toList, "notes".toList], "n".toList)] }

example : exFs.creates "d/".toList [("a".toList, "1".toList), ("b".toList, "1".toList)] =
    .ok ({ exFs with dirs := exFs.dirs ++ [["d".toList, "0008_a_1".toList], ["d".toList, "0009_b_1".toList]] },
      ["d/0008_a_1/".toList, "d/0009_b_1/".toList]) := by decide +kernel

example : exFs.top ["d".toList] + 2 ≤ 9999 := by decide +kernel

example : exFs.Good := ⟨by decide +kernel, by decide +kernel, by decide +kernel⟩

example : exFs.NoNumbers ["d".toList] := by
  intro a h
  simp only [exFs, Fs.isFile, List.any_cons, List.any_nil, Bool.or_false, decide_eq_true_eq, List.cons_append, List.nil_append, List.cons.injEq,
    true_and, and_true] at h
  rw [← h]; decide

/-- An empty directory. -/
def exEmpty : Fs := { dirs := [["d".toList]], files := [] }

example : exEmpty.saves "d".toList [⟨"s".toList, "a".toList, false, []⟩, ⟨"t".toList, "a".toList, true, "9".toList⟩] =
    .ok { exEmpty with files := [(["d".toList, "0001_a".toList], "s\n".toList), (["d".toList, "0002_a_a_9".toList], "t\n".toList)] } := by
  decide +kernel

/-- A directory in which all numbers are used. -/
def exLast : Fs := { dirs := [["d".toList], ["d".toList, "9999_x".toList]], files := [] }

/-- **C188, what fails.**  Behind 9999 all directories get the number 10000: at the same time, the same one. -/
theorem C188_overflow_violated : exLast.creates "d/".toList [("a".toList, "1".toList), ("a".toList, "1".toList)] =
    .ok ({ exLast with dirs := exLast.dirs ++ [["d".toList, "10000_a_1".toList]] }, ["d/10000_a_1/".toList, "d/10000_a_1/".toList]) := by
  decide +kernel

/-- A directory from which the first of two files has been removed. -/
def exRemoved : Fs := { dirs := [["d".toList]], files := [(["d".toList, "0002_a".toList], "old\n".toList)] }

/-- **C188, what fails.**  When a file has been removed, the next text is added to another one. -/
theorem C188_removed_violated : exRemoved.saves "d".toList [⟨"new".toList, "a".toList, false, []⟩] =
    .ok { exRemoved with files := [(["d".toList, "0002_a".toList], "old\nnew\n".toList)] } := by
  decide +kernel

/-- What `bCreateDirectory` does to a file system: files stay, directories stay, and no directory is made at or below a file. -/
theorem mkdir_safe (fs : Fs) (ok : Bool) (s : Str) : (fs.mkdir ok s).1.files = fs.files ∧ fs.dirs ⊆ (fs.mkdir ok s).1.dirs ∧
    ∀ q ∈ (fs.mkdir ok s).1.dirs, q ∉ fs.dirs → ∀ r, r <+: q → r ≠ [] → fs.isFile r = false := by
  unfold Fs.mkdir
  dsimp only
  split
  · exact ⟨rfl, List.Subset.refl _, fun q hq h => absurd hq h⟩
  · split
    · rename_i h
      refine ⟨rfl, List.subset_append_left _ _, ?_⟩
      intro q hq hn r hr hr0
      rw [List.mem_append] at hq
      rcases hq with hq | hq
      · exact absurd hq hn
      · have hq := (List.mem_filter.1 hq).1
        have h2 := (Bool.and_eq_true _ _ ▸ h).2
        rw [List.all_eq_true] at h2
        have : r ∈ prefixes (comps s) := by
          unfold prefixes at hq ⊢
          obtain ⟨i, hi, rfl⟩ := List.mem_map.1 hq
          have hp : r <+: comps s := hr.trans (List.take_prefix _ _)
          have hl : 0 < r.length := List.length_pos_of_ne_nil hr0
          refine List.mem_map.2 ⟨r.length - 1, by have := hp.length_le; simp; omega, ?_⟩
          rw [show r.length - 1 + 1 = r.length by omega]
          exact (List.prefix_iff_eq_take.1 hp).symm
        simpa using h2 r this
    · exact ⟨rfl, List.Subset.refl _, fun q hq h => absurd hq h⟩

/-- A path that ends with a slash: what was asked for is a directory exactly when success is reported. -/
theorem mkdir_reported (fs : Fs) (ok : Bool) (s : Str) (hs : s.getLast? = some '/') :
    (fs.mkdir ok s).2 = (fs.mkdir ok s).1.isDir (comps s) := by
  unfold Fs.mkdir
  dsimp only
  by_cases h : fs.isDir (comps s) = true
  · simp [h]
  · simp only [h, hs]
    by_cases h2 : (ok && (prefixes (comps s)).all fun q => !fs.isFile q) = true
    · simp only [h2]
      have hne : comps s ≠ [] := by
        intro e; apply h; simp [Fs.isDir, e]
      have : comps s ∈ prefixes (comps s) := by
        unfold prefixes
        have := List.length_pos_of_ne_nil hne
        exact List.mem_map.2 ⟨(comps s).length - 1, by simp; omega, by rw [show (comps s).length - 1 + 1 = (comps s).length by omega]; simp⟩
      simp [Fs.isDir, this, h]
      right; right
      simpa [Fs.isDir] using h
    · simp [h2, h]

/-- **C188 (what is reported).**  Whatever is in the file system and whether or not the system allows it: when `bCreateUniqueDirectory`
returns, all files are as before, all directories are there, none was made at or below a file, and the path that it gives, if it
gives one, is a directory exactly when success is reported. -/
theorem C188_reported {fs fs' : Fs} {ok b : Bool} {path pre now new : Str} (h : fs.createUnique ok path pre now = .ok (fs', new, b)) :
    fs'.files = fs.files ∧ fs.dirs ⊆ fs'.dirs ∧ (∀ q ∈ fs'.dirs, q ∉ fs.dirs → ∀ r, r <+: q → r ≠ [] → fs.isFile r = false) ∧
      (new ≠ [] → (b = true ↔ fs'.isDir (comps new) = true)) ∧ (new = [] → b = false ∧ fs' = fs) := by
  unfold Fs.createUnique at h
  dsimp only at h
  obtain ⟨a1, a2, a3⟩ := mkdir_safe fs ok path
  split at h
  · split at h
    · injection h with h
      obtain ⟨h1, h2⟩ := Prod.mk.inj h
      obtain ⟨h3, h4⟩ := Prod.mk.inj h2
      obtain ⟨b1, b2, b3⟩ := mkdir_safe (fs.mkdir ok path).1 ok new
      rw [h3] at h1 h4
      rw [h1] at b1 b2 b3
      have hl : new.getLast? = some '/' := by rw [← h3, ← List.append_assoc]; exact List.getLast?_concat
      have hr := mkdir_reported (fs.mkdir ok path).1 ok new hl
      rw [h1, h4] at hr
      refine ⟨b1.trans a1, a2.trans b2, ?_, fun _ => by rw [hr], fun e => by rw [e] at hl; simp at hl⟩
      intro q hq hn r hr hr0
      by_cases hm : q ∈ (fs.mkdir ok path).1.dirs
      · exact a3 q hm hn r hr hr0
      · have := b3 q hq hm r hr hr0
        unfold Fs.isFile at this ⊢
        rwa [a1] at this
    · cases h
  · rename_i hf
    injection h with h
    obtain ⟨h1, h2⟩ := Prod.mk.inj h
    obtain ⟨h3, h4⟩ := Prod.mk.inj h2
    rw [h1] at a1 a2 a3
    refine ⟨a1, a2, a3, fun e => absurd h3.symm e, fun _ => ⟨h4.symm, ?_⟩⟩
    rw [← h1]
    unfold Fs.mkdir at hf ⊢
    dsimp only at hf ⊢
    split
    · rfl
    · rename_i c1
      rw [if_neg c1] at hf
      split
      · rename_i c2; rw [if_pos c2] at hf; exact absurd rfl hf
      · rfl

/-- A file with the name of the next directory, and the time at which it happens. -/
def exInWay : Fs := { dirs := [["d".toList]], files := [(["d".toList, "0001_a_1".toList], [])] }

example : exInWay.createUnique true "d/".toList "a".toList "1".toList = .ok (exInWay, "d/0001_a_1/".toList, false) := by decide +kernel
example : exInWay.createUnique true "d/0001_a_1/x/".toList "a".toList "1".toList = .ok (exInWay, [], false) := by decide +kernel
example : exEmpty.createUnique false "d/".toList "a".toList "1".toList = .ok (exEmpty, "d/0001_a_1/".toList, false) := by decide +kernel

/-- **C188, what fails.**  When a file is in the place of the directory, and the path has no slash at its end, the directory counts as there
and looking into it throws. -/
theorem C188_file_violated : exInWay.createUnique true "d/0001_a_1".toList "a".toList "1".toList = .throws := by decide +kernel

end Verif.Diagram
