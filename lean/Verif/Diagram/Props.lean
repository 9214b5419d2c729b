import Verif.Diagram.Model
import Verif.Diagram.Sub

/-! # What is saved with a response (C189) -/

namespace Verif.Diagram

open Verif
open Verif.Assign (toStringInt)

/-! ### Names -/

theorem toStringInt_inj {a b : Int} (h : toStringInt a = toStringInt b) : a = b := by
  unfold toStringInt at h
  have hd : ∀ {n : ℕ} {s : Str}, decimal n ≠ '-' :: s := fun {n s} e => by
    have : '-' ∈ decimal n := by rw [e]; simp
    exact absurd (decimal_isDigit this) (by decide)
  split at h <;> split at h
  · have := decimal_injective (List.cons.inj h).2; omega
  · exact absurd h.symm hd
  · exact absurd h hd
  · have := decimal_injective h; omega

theorem word_inj {a b : Kind} (h : a.word = b.word) : a = b := by
  cases a <;> cases b <;> first | rfl | exact absurd h (by decide)

theorem word_no (k : Kind) : '_' ∉ k.word := by cases k <;> decide

theorem name_inj {a b : Kind} {i j : Int} (h : a.name i = b.name j) : a = b ∧ i = j := by
  unfold Kind.name at h
  simp only [List.append_assoc] at h
  have e : ∀ (s : Str), "_Id_".toList ++ s = '_' :: ("Id_".toList ++ s) := fun _ => rfl
  rw [e, e] at h
  have e1 := findChar_append (b := "Id_".toList ++ (toStringInt i ++ ".xml".toList)) (word_no a)
  have e2 := findChar_append (b := "Id_".toList ++ (toStringInt j ++ ".xml".toList)) (word_no b)
  rw [h, e2, Option.some.injEq] at e1
  have hw : a.word = b.word := by
    have := congrArg (List.take a.word.length) h
    rw [List.take_left' rfl, ← e1, List.take_left' rfl] at this
    exact this
  have hab := word_inj hw
  subst hab
  simp only [List.append_cancel_left_eq, List.cons.injEq, true_and, List.append_cancel_right_eq] at h
  exact ⟨rfl, toStringInt_inj h⟩

theorem toStringInt_no {i : Int} {c : Char} (h : c.isDigit = false) (hc : c ≠ '-') : c ∉ toStringInt i := by
  unfold toStringInt
  have hd : c ∉ decimal i.natAbs := fun hh => by rw [decimal_isDigit hh] at h; simp at h
  split
  · simp only [List.mem_cons, not_or]; exact ⟨hc, hd⟩
  · exact hd

theorem name_good (k : Kind) (i : Int) : '/' ∉ k.name i ∧ k.name i ≠ [] := by
  have h : '/' ∉ toStringInt i := toStringInt_no (by decide) (by decide)
  constructor
  · unfold Kind.name
    simp only [List.mem_append, not_or]
    exact ⟨⟨⟨by cases k <;> decide, by decide⟩, h⟩, by decide⟩
  · simp [Kind.name]

theorem name_not_script (k : Kind) (i : Int) : k.name i ∉ scriptNames := by
  intro h
  have hu : '_' ∈ k.name i := by simp [Kind.name]
  simp only [scriptNames, List.mem_cons, List.not_mem_nil, or_false] at h
  rcases h with h | h | h | h | h <;> rw [h] at hu <;> exact absurd hu (by decide)

theorem script_good : ∀ n ∈ scriptNames, '/' ∉ n ∧ n ≠ [] := by decide +kernel

/-! ### Files in a new directory -/

/-- Files written to a directory in which nothing is: each name once, with its text (the same each time). -/
theorem put_all {d : Path} (hdne : d ≠ []) : ∀ (ws : List (Str × Str)) {fs : Fs} (_ : fs.Good) (_ : fs.isDir d = true)
    (_ : ∀ n, fs.isDir (d ++ [n]) = false) (_ : ∀ n, fs.isFile (d ++ [n]) = false) (_ : ∀ n t t', (n, t) ∈ ws → (n, t') ∈ ws → t = t'),
    ∃ added : List (Str × Str), ws.foldl (fun f w => f.put (d ++ [w.1]) w.2) fs =
        { fs with files := fs.files ++ added.map fun a => (d ++ [a.1], a.2) } ∧
      (∀ w, w ∈ added ↔ w ∈ ws) ∧ (added.map (·.1)).Nodup ∧ Fs.Good { fs with files := fs.files ++ added.map fun a => (d ++ [a.1], a.2) } := by
  intro ws
  induction ws using List.reverseRecOn with
  | nil => intro fs hg _ _ _ _; exact ⟨[], by simp, by simp, by simp, by simpa using hg⟩
  | append_singleton ws w ih =>
      intro fs hg hd hnd hnf hc
      obtain ⟨added, h1, h2, h3, h4⟩ := ih hg hd hnd hnf fun n t t' h h' => hc n t t' (by simp [h]) (by simp [h'])
      rw [List.foldl_append, h1]
      simp only [List.foldl_cons, List.foldl_nil]
      set fs1 : Fs := { fs with files := fs.files ++ added.map fun a => (d ++ [a.1], a.2) } with hfs1
      by_cases hw : w.1 ∈ added.map (·.1)
      · -- again
        obtain ⟨a, ha, e⟩ := List.mem_map.1 hw
        have hat : a.2 = w.2 := hc w.1 a.2 w.2 (by rw [List.mem_append]; left; rw [← h2, ← e]; exact ha) (by simp)
        have hwa : a = w := Prod.ext e hat
        refine ⟨added, ?_, ?_, h3, h4⟩
        · have hf : fs1.isFile (d ++ [w.1]) = true := by
            unfold Fs.isFile
            rw [List.any_eq_true]
            exact ⟨(d ++ [a.1], a.2), by simp only [hfs1, List.mem_append, List.mem_map]; exact .inr ⟨a, ha, rfl⟩, by simp [e]⟩
          unfold Fs.put
          rw [if_pos hf]
          have : fs1.files.map (fun f => if f.1 = d ++ [w.1] then (d ++ [w.1], w.2) else f) = fs1.files := by
            conv_rhs => rw [← List.map_id fs1.files]
            apply List.map_congr_left
            intro f hf
            simp only [id]
            split
            · rename_i hfw
              simp only [hfs1, List.mem_append, List.mem_map] at hf
              rcases hf with hf | ⟨b, hb, rfl⟩
              · have := hnf w.1
                rw [Fs.isFile, List.any_eq_false] at this
                exact absurd (by simp [hfw]) (this f hf)
              · simp only [List.append_cancel_left_eq, List.cons.injEq, and_true] at hfw
                have : b.2 = w.2 := hc w.1 b.2 w.2 (by rw [List.mem_append]; left; rw [← h2, ← hfw]; exact hb) (by simp)
                simp [hfw, this]
            · rfl
          rw [this]
        · intro x
          rw [h2, List.mem_append, List.mem_singleton]
          constructor
          · exact .inl
          · rintro (h | rfl)
            · exact h
            · rw [← h2, ← hwa]; exact ha
      · -- new
        have hf : fs1.isFile (d ++ [w.1]) = false := by
          unfold Fs.isFile
          rw [List.any_eq_false]
          intro f hf
          simp only [decide_eq_true_eq]
          intro e
          simp only [hfs1, List.mem_append, List.mem_map] at hf
          rcases hf with hf | ⟨b, hb, rfl⟩
          · have := hnf w.1
            rw [Fs.isFile, List.any_eq_false] at this
            exact this f hf (by simp [e])
          · simp only [List.append_cancel_left_eq, List.cons.injEq, and_true] at e
            exact hw (List.mem_map.2 ⟨b, hb, e⟩)
        have hd1 : fs1.isDir d = true := hd
        have hnd1 : fs1.isDir (d ++ [w.1]) = false := hnd w.1
        have hput : fs1.put (d ++ [w.1]) w.2 = { fs1 with files := fs1.files ++ [(d ++ [w.1], w.2)] } := by
          unfold Fs.put; simp [hf, hd1, hnd1]
        have hnew : (fs1.files ++ [(d ++ [w.1], w.2)]) = fs.files ++ (added ++ [w]).map fun a => (d ++ [a.1], a.2) := by simp [hfs1]
        refine ⟨added ++ [w], ?_, ?_, ?_, ?_⟩
        · rw [hput, hnew]
        · intro x; simp [h2]
        · rw [List.map_append, List.nodup_append]
          refine ⟨h3, by simp, ?_⟩
          intro a ha b hb e
          simp at hb
          subst hb
          exact hw (e ▸ ha)
        · rw [← hnew]
          exact h4.append hnd1 (by simpa using hd1)

/-! ### What a response saves -/

/-- The text that a file is to have, from what is known. -/
def Wanted (s : State) (r : Request) (i : Int) (xml : Str) : Kind → Int → Str → Prop
  | .entity, j, t => (j ∈ r.entities ∨ (r.entities = [] ∧ (s.states.get j).isSome)) ∧
      (((j, t) ∈ (r.plan.filter fun p => decide (p.1 = j)).take 1) ∨ ((∀ p ∈ r.plan, p.1 ≠ j) ∧ s.states.get j = some t))
  | .task, j, t => j ∈ r.tasks ∧ ∃ k, s.tasks.get j = some k ∧ k.xml = t
  | .area, j, t => 0 < j ∧ (∃ a ∈ r.tasks, ∃ k, s.tasks.get a = some k ∧ k.about = .area j) ∧ s.areas.get j = some t
  | .line, j, t => 0 < j ∧ (∃ a ∈ r.tasks, ∃ k, s.tasks.get a = some k ∧ k.about = .line j) ∧ s.lines.get j = some t
  | .point, j, t => 0 < j ∧ (∃ a ∈ r.tasks, ∃ k, s.tasks.get a = some k ∧ k.about = .point j) ∧ s.points.get j = some t
  | .watched, j, t => 0 < j ∧ (∃ a ∈ r.tasks, ∃ k, s.tasks.get a = some k ∧ k.about = .watched j) ∧ s.states.get j = some t
  | .blocked, j, t => 0 < j ∧ (∃ a ∈ r.tasks, ∃ k, s.tasks.get a = some k ∧ k.about = .blocked j) ∧ s.states.get j = some t
  | .keepIn, j, t => 0 < r.region ∧ ∃ g, s.regions.get r.region = some g ∧ j ∈ g.keepIn ∧ s.zones.get j = some t
  | .keepOut, j, t => 0 < r.region ∧ ∃ g, s.regions.get r.region = some g ∧ j ∈ g.keepOut ∧ s.zones.get j = some t
  | .response, j, t => j = i ∧ t = xml

theorem Wanted.unique {s : State} {r : Request} {i : Int} {xml : Str} {k : Kind} {j : Int} {t t' : Str}
    (h : Wanted s r i xml k j t) (h' : Wanted s r i xml k j t') : t = t' := by
  cases k <;> simp only [Wanted] at h h'
  · rcases h.2 with h1 | h1 <;> rcases h'.2 with h2 | h2
    · cases hl : (r.plan.filter fun p => decide (p.1 = j)) with
      | nil => rw [hl] at h1; simp at h1
      | cons a l => rw [hl] at h1 h2; simp at h1 h2; rw [← h1] at h2; exact (Prod.mk.inj h2).2.symm
    · have := List.mem_of_mem_take h1
      rw [List.mem_filter] at this
      exact absurd (by simp) (h2.1 _ this.1)
    · have := List.mem_of_mem_take h2
      rw [List.mem_filter] at this
      exact absurd (by simp) (h1.1 _ this.1)
    · rw [h1.2] at h2; exact Option.some.inj h2.2
  · obtain ⟨-, k, h1, rfl⟩ := h
    obtain ⟨-, k', h2, rfl⟩ := h'
    rw [h1] at h2; rw [Option.some.inj h2]
  all_goals first
    | (obtain ⟨-, -, h1⟩ := h; obtain ⟨-, -, h2⟩ := h'; rw [h1] at h2; exact Option.some.inj h2)
    | (obtain ⟨-, g, -, -, h1⟩ := h; obtain ⟨-, g', -, -, h2⟩ := h'; rw [h1] at h2; exact Option.some.inj h2)
    | (rw [h.2, h'.2])

theorem known_iff {k : Kind} {m : Map Str} {i : Int} {w : Write} :
    known k m i = some w ↔ 0 < i ∧ ∃ x, m.get i = some x ∧ w = ((k, i), x) := by
  unfold known
  split
  · cases h : m.get i with
    | none => simp
    | some x => simp [eq_comm]; omega
  · simp; omega

theorem find_take (l : List (Int × Str)) (j : Int) :
    (l.find? fun p => p.1 == j) = ((l.filter fun p => decide (p.1 = j)).take 1).head? := by
  induction l with
  | nil => rfl
  | cons a l ih =>
      rw [List.find?_cons, List.filter_cons]
      by_cases h : a.1 = j
      · simp [h]
      · simp only [h, decide_false, Bool.false_eq_true, if_false]
        rw [show (a.1 == j) = false by simp [h]]
        exact ih

theorem mem_keys {β : Type} {m : Map β} {j : Int} : j ∈ m.map (·.1) ↔ (m.get j).isSome = true := by
  unfold Map.get
  rw [Option.isSome_map, List.find?_isSome, List.mem_map]
  constructor
  · rintro ⟨p, hp, rfl⟩; exact ⟨p, hp, by simp⟩
  · rintro ⟨p, hp, h⟩; exact ⟨p, hp, by simpa using h⟩

theorem entityFile_iff {s : State} {r : Request} {a : Int} {w : Write} : s.entityFile r a = some w ↔
    w.1 = (.entity, a) ∧ (((a, w.2) ∈ (r.plan.filter fun p => decide (p.1 = a)).take 1) ∨
      ((∀ p ∈ r.plan, p.1 ≠ a) ∧ s.states.get a = some w.2)) := by
  unfold State.entityFile
  cases hf : r.plan.find? (fun p => p.1 == a) with
  | some p =>
      have hp : p.1 = a := by simpa using List.find?_some hf
      rw [find_take] at hf
      cases hl : (r.plan.filter fun p => decide (p.1 = a)) with
      | nil => rw [hl] at hf; simp at hf
      | cons q l =>
          rw [hl] at hf
          simp at hf
          subst hf
          have hm : q ∈ r.plan := List.mem_of_mem_filter (by rw [hl]; simp)
          simp only [Option.some.injEq, List.take_succ_cons, List.take_zero, List.mem_singleton]
          constructor
          · rintro rfl; exact ⟨rfl, .inl (Prod.ext hp.symm rfl)⟩
          · rintro ⟨h1, h2 | h2⟩
            · exact Prod.ext h1.symm (by rw [← h2])
            · exact absurd hp (h2.1 q hm)
  | none =>
      rw [List.find?_eq_none] at hf
      have hl : (r.plan.filter fun p => decide (p.1 = a)) = [] := by
        rw [List.filter_eq_nil_iff]; intro p hp; simpa using hf p hp
      have hno : ∀ p ∈ r.plan, p.1 ≠ a := fun p hp => by simpa using hf p hp
      rw [hl]
      simp only [Option.map_eq_some_iff, List.take_nil, List.not_mem_nil, false_or]
      constructor
      · rintro ⟨x, hx, rfl⟩; exact ⟨rfl, hno, hx⟩
      · rintro ⟨h1, -, h2⟩; exact ⟨w.2, h2, Prod.ext h1.symm rfl⟩

theorem mem_taskFiles {s : State} {a : Int} {w : Write} : w ∈ s.taskFiles a ↔ ∃ k, s.tasks.get a = some k ∧
    (w = ((.task, a), k.xml) ∨ ∃ j, 0 < j ∧
      ((k.about = .area j ∧ ∃ x, s.areas.get j = some x ∧ w = ((.area, j), x)) ∨
       (k.about = .line j ∧ ∃ x, s.lines.get j = some x ∧ w = ((.line, j), x)) ∨
       (k.about = .point j ∧ ∃ x, s.points.get j = some x ∧ w = ((.point, j), x)) ∨
       (k.about = .watched j ∧ ∃ x, s.states.get j = some x ∧ w = ((.watched, j), x)) ∨
       (k.about = .blocked j ∧ ∃ x, s.states.get j = some x ∧ w = ((.blocked, j), x)))) := by
  unfold State.taskFiles
  cases h : s.tasks.get a with
  | none => simp
  | some k =>
      simp only [List.mem_cons, Option.mem_toList, Option.some.injEq, exists_eq_left']
      refine or_congr Iff.rfl ?_
      cases hk : k.about <;> simp only [known_iff, reduceCtorEq, false_and, and_false, or_false, false_or, exists_false,
        About.area.injEq, About.line.injEq, About.point.injEq, About.watched.injEq, About.blocked.injEq]
      all_goals
        constructor
        · rintro ⟨h1, h2⟩; exact ⟨_, h1, rfl, h2⟩
        · rintro ⟨j, h1, rfl, h2⟩; exact ⟨h1, h2⟩

/-- The files written are those wanted. -/
theorem mem_writes {s : State} {r : Request} {i : Int} {xml : Str} {k : Kind} {j : Int} {t : Str} :
    ((k, j), t) ∈ s.writes (s.fill r) i xml ↔ Wanted s r i xml k j t := by
  have hfe : ∀ a, a ∈ (s.fill r).entities ↔ (a ∈ r.entities ∨ (r.entities = [] ∧ (s.states.get a).isSome)) := by
    intro a
    unfold State.fill
    split
    · rename_i h; rw [mem_keys]; simp [h]
    · rename_i h; simp [h]
  have hplan : (s.fill r).plan = r.plan := by unfold State.fill; split <;> rfl
  have htasks : (s.fill r).tasks = r.tasks := by unfold State.fill; split <;> rfl
  have hregion : (s.fill r).region = r.region := by unfold State.fill; split <;> rfl
  unfold State.writes
  simp only [List.mem_append, List.mem_filterMap, List.mem_flatMap, List.mem_singleton, entityFile_iff, hfe, hplan, htasks, mem_taskFiles]
  have hz : ((k, j), t) ∈ s.zoneFiles (s.fill r) ↔ 0 < r.region ∧ ∃ g, s.regions.get r.region = some g ∧
      ((k = .keepIn ∧ j ∈ g.keepIn ∧ s.zones.get j = some t) ∨ (k = .keepOut ∧ j ∈ g.keepOut ∧ s.zones.get j = some t)) := by
    unfold State.zoneFiles
    rw [hregion]
    split
    · rename_i hpos
      cases hg : s.regions.get r.region with
      | none => simp
      | some g =>
          simp only [List.mem_append, List.mem_filterMap, Option.map_eq_some_iff, Prod.mk.injEq, Option.some.injEq, exists_eq_left']
          constructor
          · rintro (⟨a, ha, x, hx, ⟨rfl, rfl⟩, rfl⟩ | ⟨a, ha, x, hx, ⟨rfl, rfl⟩, rfl⟩)
            · exact ⟨hpos, .inl ⟨rfl, ha, hx⟩⟩
            · exact ⟨hpos, .inr ⟨rfl, ha, hx⟩⟩
          · rintro ⟨-, ⟨rfl, h1, h2⟩ | ⟨rfl, h1, h2⟩⟩
            · exact .inl ⟨j, h1, t, h2, ⟨rfl, rfl⟩, rfl⟩
            · exact .inr ⟨j, h1, t, h2, ⟨rfl, rfl⟩, rfl⟩
    · rename_i hneg
      simp only [List.not_mem_nil, false_iff, not_and]
      intro h; exact absurd h hneg
  rw [hz]
  cases k <;> simp only [Wanted, Prod.mk.injEq, reduceCtorEq, false_and, and_false, or_false, false_or, exists_false, true_and]
  all_goals try (constructor <;> (intro h; aesop))

/-- Where directories are made: a directory of a file system, without files with numbers in it. -/
structure Ready (c : Config) (fs : Fs) : Prop where
  good : fs.Good
  dir : fs.isDir (comps (c.base ++ ['/'])) = true
  numbers : fs.NoNumbers (comps (c.base ++ ['/']))

theorem prefix_no (c : Config) : '/' ∉ c.prefix := by
  unfold Config.prefix
  have := pad_no (n := c.entity) (c := '/') (by decide)
  simp only [List.mem_append, not_or]
  exact ⟨by decide, this⟩

/-- The new directory. -/
def newDir (c : Config) (fs : Fs) (now : Str) : Path :=
  comps (c.base ++ ['/']) ++ [dirName (fs.top (comps (c.base ++ ['/'])) + 1) (c.prefix, now)]

/-- What a response adds to the files. -/
structure Saved (c : Config) (s : State) (r : Request) (i : Int) (xml now : Str) (s' : State) : Prop where
  fresh : newDir c s.fs now ∉ s.fs.dirs
  dirs : s'.fs.dirs = s.fs.dirs ++ [newDir c s.fs now]
  files : ∃ added : List (Str × Str), s'.fs.files = s.fs.files ++ added.map (fun a => (newDir c s.fs now ++ [a.1], a.2)) ∧
    (added.map (·.1)).Nodup ∧ (∀ k j t, (k.name j, t) ∈ added ↔ Wanted s r i xml k j t) ∧
    (∀ n ∈ scriptNames, (n, c.scripts n) ∈ added) ∧ ∀ a ∈ added, a.1 ∈ scriptNames ∨ ∃ k j, a.1 = Kind.name k j

theorem isDir_append {fs : Fs} {p : Path} (h : fs.isDir p = true) (q : Path) (fl : List (Path × Str)) :
    Fs.isDir { dirs := fs.dirs ++ [q], files := fl } p = true := by
  simp only [Fs.isDir, Bool.or_eq_true, decide_eq_true_eq, List.mem_append] at h ⊢
  tauto

theorem respond_saved {c : Config} {s : State} (h : Ready c s.fs) (ht : s.fs.top (comps (c.base ++ ['/'])) < 9999) {i : Int} {r : Request}
    (hr : s.requests.get i = some r) {xml now : Str} (hn : '/' ∉ now) :
    ∃ fs', s.respond c i xml now = .ok { s with requests := s.requests.put i (s.fill r), fs := fs' } ∧
      Saved c s r i xml now { s with requests := s.requests.put i (s.fill r), fs := fs' } ∧ Ready c fs' ∧
      fs'.top (comps (c.base ++ ['/'])) = s.fs.top (comps (c.base ++ ['/'])) + 1 := by
  set p := comps (c.base ++ ['/']) with hp
  obtain ⟨new, h1, h2, h3, h4, h5⟩ := create_one h.good hp.symm h.dir h.numbers (c := (c.prefix, now)) ⟨prefix_no c, hn⟩ ht
  have hpath : ∀ n, '/' ∉ n → n ≠ [] → comps (new ++ n) = newDir c s.fs now ++ [n] := by
    intro n hn1 hn2
    have : ∃ b, new = b ++ ['/'] := by
      unfold Fs.createUnique at h1
      rw [mkdir_there h.dir] at h1
      simp only [if_true, h.dir, Outcome.ok.injEq, Prod.mk.injEq] at h1
      rw [← h1.2.1]
      exact ⟨_, (List.append_assoc _ _ _).symm⟩
    obtain ⟨b, rfl⟩ := this
    rw [List.append_assoc, List.singleton_append, comps_slash, comps_name hn1 hn2]
    rw [comps_end] at h2
    rw [h2]; rfl
  set d := newDir c s.fs now with hd
  have hde : p ++ [dirName (s.fs.top p + 1) (c.prefix, now)] = d := rfl
  simp only [hde] at h1 h2 h3 h4 h5
  set fs1 : Fs := { s.fs with dirs := s.fs.dirs ++ [d] } with hfs1
  set ws : List (Str × Str) := (s.writes (s.fill r) i xml).map (fun w => (w.1.1.name w.1.2, w.2)) ++ scriptNames.map (fun n => (n, c.scripts n))
    with hws
  have hdne : d ≠ [] := by rw [← hde]; simp
  have hempty : ∀ n, d ++ [n] ∉ s.fs.dirs := by
    intro n hm
    have := h.good.up _ hm d (by rw [prefixes_append, ← hde, prefixes_append]; simp)
    exact h5 this
  have hemptyf : ∀ n, s.fs.isFile (d ++ [n]) = false := by
    intro n
    unfold Fs.isFile
    rw [List.any_eq_false]
    intro f hf
    simp only [decide_eq_true_eq]
    intro e
    have := h.good.parent f hf
    rw [e] at this
    simp only [List.dropLast_concat, Fs.isDir, hdne, decide_false, Bool.false_or, decide_eq_true_eq] at this
    exact h5 this
  have hmem : ∀ k j t, (Kind.name k j, t) ∈ ws ↔ Wanted s r i xml k j t := by
    intro k j t
    rw [← mem_writes]
    simp only [hws, List.mem_append, List.mem_map, Prod.mk.injEq]
    constructor
    · rintro (⟨w, hw, e, rfl⟩ | ⟨n, hn', e, -⟩)
      · obtain ⟨e1, e2⟩ := name_inj e
        rw [← e1, ← e2]; exact hw
      · exact absurd (e ▸ hn') (name_not_script k j)
    · intro hw; exact .inl ⟨_, hw, rfl, rfl⟩
  have hcons : ∀ n t t', (n, t) ∈ ws → (n, t') ∈ ws → t = t' := by
    intro n t t' hw hw'
    by_cases hs : n ∈ scriptNames
    · have key : ∀ {t}, (n, t) ∈ ws → t = c.scripts n := by
        intro t ht
        simp only [hws, List.mem_append, List.mem_map, Prod.mk.injEq] at ht
        rcases ht with ⟨w, -, e, -⟩ | ⟨m, -, rfl, rfl⟩
        · exact absurd (e ▸ hs) (name_not_script _ _)
        · rfl
      rw [key hw, key hw']
    · have hw2 := hw
      simp only [hws, List.mem_append, List.mem_map, Prod.mk.injEq] at hw2
      rcases hw2 with ⟨w, -, rfl, -⟩ | ⟨m, hm, rfl, -⟩
      · exact ((hmem _ _ _).1 hw).unique ((hmem _ _ _).1 hw')
      · exact absurd hm hs
  obtain ⟨added, a1, a2, a3, a4⟩ := put_all hdne ws (fs := fs1) h3 (by simp [Fs.isDir, hfs1])
    (fun n => by
      simp only [Fs.isDir, hfs1, Bool.or_eq_false_iff, decide_eq_false_iff_not, List.mem_append, List.mem_singleton, not_or]
      exact ⟨by simp, hempty n, fun e => by have := congrArg List.length e; simp at this⟩)
    hemptyf hcons
  have hfold : scriptNames.foldl (fun f n => f.put (comps (new ++ n)) (c.scripts n))
      ((s.writes (s.fill r) i xml).foldl (fun f w => f.put (comps (new ++ w.1.1.name w.1.2)) w.2) fs1) =
      { fs1 with files := fs1.files ++ added.map fun a => (d ++ [a.1], a.2) } := by
    rw [← a1, hws, List.foldl_append, List.foldl_map, List.foldl_map]
    have e1 : ∀ (l : List Write) (f : Fs), l.foldl (fun f w => f.put (comps (new ++ w.1.1.name w.1.2)) w.2) f =
        l.foldl (fun f w => f.put (d ++ [w.1.1.name w.1.2]) w.2) f := by
      intro l
      induction l with
      | nil => intro f; rfl
      | cons w l ih => intro f; rw [List.foldl_cons, List.foldl_cons, hpath _ (name_good _ _).1 (name_good _ _).2, ih]
    have e2 : ∀ (l : List Str), (∀ n ∈ l, '/' ∉ n ∧ n ≠ []) → ∀ (f : Fs), l.foldl (fun f n => f.put (comps (new ++ n)) (c.scripts n)) f =
        l.foldl (fun f n => f.put (d ++ [n]) (c.scripts n)) f := by
      intro l
      induction l with
      | nil => intro _ f; rfl
      | cons w l ih =>
          intro hl f
          rw [List.foldl_cons, List.foldl_cons, hpath _ (hl w (by simp)).1 (hl w (by simp)).2, ih fun n hn => hl n (by simp [hn])]
    rw [e1, e2 _ script_good]
  refine ⟨{ fs1 with files := fs1.files ++ added.map fun a => (d ++ [a.1], a.2) }, ?_, ⟨h5, rfl, added, rfl, a3, ?_, ?_, ?_⟩, ⟨a4, ?_, ?_⟩, ?_⟩
  · unfold State.respond
    rw [hr]
    simp only
    rw [h1]
    simp only [Outcome.bind_ok, if_true]
    rw [hfold]
  · intro k j t; rw [a2]; exact hmem k j t
  · intro n hn'; rw [a2, hws, List.mem_append]; exact .inr (List.mem_map.2 ⟨n, hn', rfl⟩)
  · intro a ha
    rw [a2, hws, List.mem_append, List.mem_map, List.mem_map] at ha
    rcases ha with ⟨w, -, rfl⟩ | ⟨n, hn', rfl⟩
    · exact .inr ⟨_, _, rfl⟩
    · exact .inl hn'
  · exact isDir_append h.dir d _
  · intro a ha
    refine h.numbers a ?_
    unfold Fs.isFile at ha ⊢
    rw [List.any_eq_true] at ha ⊢
    obtain ⟨f, hf, e⟩ := ha
    simp only [List.mem_append, List.mem_map, decide_eq_true_eq] at hf e
    rcases hf with hf | ⟨b, -, rfl⟩
    · exact ⟨f, hf, by simp [e, ← hp]⟩
    · have := congrArg List.length e
      rw [← hde] at this
      simp [← hp] at this
  · exact h4

/-- **C189.**  The response to a known request: a new directory, with a file for each thing wanted, the scripts, and nothing else; all
other files stay as they are. -/
theorem C189_response {c : Config} {s : State} (h : Ready c s.fs) (ht : s.fs.top (comps (c.base ++ ['/'])) < 9999) {i : Int} {r : Request}
    (hr : s.requests.get i = some r) {xml now : Str} (hn : '/' ∉ now) :
    ∃ s', s.step c (.response i xml now) = .ok s' ∧ Saved c s r i xml now s' := by
  obtain ⟨fs', h1, h2, -, -⟩ := respond_saved h ht hr (xml := xml) hn
  exact ⟨_, h1, h2⟩

/-- **C189.**  The response to an unknown request: nothing. -/
theorem C189_unknown {c : Config} {s : State} {i : Int} (hr : s.requests.get i = none) (xml now : Str) :
    s.step c (.response i xml now) = .ok s := by
  simp [State.step, State.respond, hr]

/-! ### Histories -/

/-- The last one with an id. -/
def latest {α : Type} (f : Msg → Option (Int × α)) (l : List Msg) (j : Int) : Option α :=
  ((l.filterMap f).filter fun p => decide (p.1 = j)).getLast?.map (·.2)

/-- The id and the content of a state of an entity. -/
def Msg.stateOf : Msg → Option (Int × Str) | .state i x => some (i, x) | _ => none
/-- The id and the content of a zone. -/
def Msg.zoneOf : Msg → Option (Int × Str) | .zone i x => some (i, x) | _ => none
/-- The id and the content of a task. -/
def Msg.taskOf : Msg → Option (Int × Task) | .task i x => some (i, x) | _ => none
/-- The id and the content of an operating region. -/
def Msg.regionOf : Msg → Option (Int × Region) | .region i x => some (i, x) | _ => none
/-- The id and the content of an area of interest. -/
def Msg.areaOf : Msg → Option (Int × Str) | .area i x => some (i, x) | _ => none
/-- The id and the content of a line of interest. -/
def Msg.lineOf : Msg → Option (Int × Str) | .line i x => some (i, x) | _ => none
/-- The id and the content of a point of interest. -/
def Msg.pointOf : Msg → Option (Int × Str) | .point i x => some (i, x) | _ => none
/-- The id and the content of a request. -/
def Msg.requestOf : Msg → Option (Int × Request) | .request i x => some (i, x) | _ => none
/-- Is it a response to `i`? -/
def Msg.answers (i : Int) : Msg → Bool | .response j _ _ => decide (j = i) | _ => false
/-- Is it a response? -/
def Msg.isResponse : Msg → Bool | .response _ _ _ => true | _ => false

theorem latest_append {α : Type} (f : Msg → Option (Int × α)) (l : List Msg) (m : Msg) (j : Int) :
    latest f (l ++ [m]) j = match f m with
      | some p => if j = p.1 then some p.2 else latest f l j
      | none => latest f l j := by
  unfold latest
  rw [List.filterMap_append, List.filter_append]
  cases h : f m with
  | none => simp [h]
  | some p =>
      by_cases hj : j = p.1
      · subst hj; simp [h]
      · simp [h, hj, Ne.symm hj]

/-- A request behind all responses to it. -/
def pending (l : List Msg) (i : Int) : Option Request :=
  match latest Msg.requestOf l i with
  | none => none
  | some r => if ((l.reverse.takeWhile fun m => decide ((m.requestOf.map (·.1)) ≠ some i)).any (Msg.answers i)) then none else some r

theorem run_append (c : Config) (m : Msg) : ∀ (l : List Msg) (s : State), s.run c (l ++ [m]) = (s.run c l).bind fun s' => s'.step c m
  | [], s => by
      simp only [List.nil_append, State.run, Outcome.bind_ok]
      cases s.step c m <;> rfl
  | a :: l, s => by
      simp only [List.cons_append, State.run]
      cases s.step c a with
      | ok s' => simp only [Outcome.bind_ok]; exact run_append c m l s'
      | throws => rfl
      | ub => rfl

/-- What is known after all messages. -/
structure Knows (s : State) (l : List Msg) : Prop where
  states : ∀ j, s.states.get j = latest Msg.stateOf l j
  zones : ∀ j, s.zones.get j = latest Msg.zoneOf l j
  tasks : ∀ j, s.tasks.get j = latest Msg.taskOf l j
  regions : ∀ j, s.regions.get j = latest Msg.regionOf l j
  areas : ∀ j, s.areas.get j = latest Msg.areaOf l j
  lines : ∀ j, s.lines.get j = latest Msg.lineOf l j
  points : ∀ j, s.points.get j = latest Msg.pointOf l j
  requests : ∀ j, (s.requests.get j).isSome = (latest Msg.requestOf l j).isSome
  pending : ∀ j r, pending l j = some r → s.requests.get j = some r

theorem pending_append (l : List Msg) (m : Msg) (j : Int) : pending (l ++ [m]) j =
    match m with
    | .request i r => if j = i then some r else pending l j
    | .response i _ _ => if j = i then none else pending l j
    | _ => pending l j := by
  unfold pending
  rw [latest_append, List.reverse_append, List.reverse_singleton, List.singleton_append, List.takeWhile_cons]
  cases m
  case request i r =>
    have e : Msg.requestOf (.request i r) = some (i, r) := rfl
    simp only [e]
    by_cases h : j = i
    · simp [h]
    · simp [h, Ne.symm h, Msg.answers]
  case response i x n =>
    have e : Msg.requestOf (.response i x n) = none := rfl
    simp only [e]
    by_cases h : j = i
    · simp [h, Msg.answers]; cases latest Msg.requestOf l i <;> rfl
    · simp [h, Ne.symm h, Msg.answers]
  all_goals
    rename_i i x
    first
      | (have e : Msg.requestOf (.state i x) = none := rfl; simp [e, Msg.answers]; done)
      | (have e : Msg.requestOf (.zone i x) = none := rfl; simp [e, Msg.answers]; done)
      | (have e : Msg.requestOf (.task i x) = none := rfl; simp [e, Msg.answers]; done)
      | (have e : Msg.requestOf (.region i x) = none := rfl; simp [e, Msg.answers]; done)
      | (have e : Msg.requestOf (.area i x) = none := rfl; simp [e, Msg.answers]; done)
      | (have e : Msg.requestOf (.line i x) = none := rfl; simp [e, Msg.answers]; done)
      | (have e : Msg.requestOf (.point i x) = none := rfl; simp [e, Msg.answers]; done)

/-- How many responses there are. -/
def responses (l : List Msg) : ℕ := (l.filter Msg.isResponse).length

/-- **C189.**  With any messages, at most as many responses as there are numbers left: nothing goes wrong, and what is known is what came
last of each kind. -/
theorem C189_run {c : Config} {fs : Fs} (h : Ready c fs) (l : List Msg) (hl : ∀ i x n, Msg.response i x n ∈ l → '/' ∉ n)
    (ht : fs.top (comps (c.base ++ ['/'])) + responses l ≤ 9999) :
    ∃ s, ({ fs := fs } : State).run c l = .ok s ∧ Knows s l ∧ Ready c s.fs ∧
      s.fs.top (comps (c.base ++ ['/'])) ≤ fs.top (comps (c.base ++ ['/'])) + responses l := by
  induction l using List.reverseRecOn with
  | nil =>
      exact ⟨_, rfl, ⟨fun _ => rfl, fun _ => rfl, fun _ => rfl, fun _ => rfl, fun _ => rfl, fun _ => rfl, fun _ => rfl, fun _ => rfl,
        fun j r hh => by simp [pending, latest] at hh⟩, h, by simp⟩
  | append_singleton l m ih =>
      have hresp : responses (l ++ [m]) = responses l + if m.isResponse then 1 else 0 := by
        unfold responses; rw [List.filter_append, List.length_append]; cases hm : m.isResponse <;> simp [hm]
      obtain ⟨s, h1, k, h2, h3⟩ := ih (fun i x n hm => hl i x n (by simp [hm])) (by rw [hresp] at ht; omega)
      rw [run_append, h1]
      simp only [Outcome.bind_ok]
      have done : ∀ {s' : State}, s.step c m = .ok s' → s'.fs = s.fs → Knows s' (l ++ [m]) → ∃ s'', s.step c m = .ok s'' ∧
          Knows s'' (l ++ [m]) ∧ Ready c s''.fs ∧ s''.fs.top (comps (c.base ++ ['/'])) ≤ fs.top (comps (c.base ++ ['/'])) + responses (l ++ [m]) := by
        intro s' e1 e2 e3
        exact ⟨s', e1, e3, by rw [e2]; exact h2, by rw [e2, hresp]; omega⟩
      cases m with
      | response i x n =>
          cases hq : s.requests.get i with
          | none =>
              refine done (C189_unknown hq x n) rfl ⟨?_, ?_, ?_, ?_, ?_, ?_, ?_, ?_, ?_⟩
              all_goals intro j; simp only [latest_append, Msg.stateOf, Msg.zoneOf, Msg.taskOf, Msg.regionOf, Msg.areaOf, Msg.lineOf,
                Msg.pointOf, Msg.requestOf, pending_append]
              · exact k.states j
              · exact k.zones j
              · exact k.tasks j
              · exact k.regions j
              · exact k.areas j
              · exact k.lines j
              · exact k.points j
              · exact k.requests j
              · intro r; split
                · simp
                · exact k.pending j r
          | some r =>
              have hlt : s.fs.top (comps (c.base ++ ['/'])) < 9999 := by
                rw [hresp] at ht; simp only [Msg.isResponse, if_true] at ht; omega
              obtain ⟨fs', e1, -, e3, e4⟩ := respond_saved h2 hlt hq (xml := x) (hl i x n (by simp))
              refine ⟨_, e1, ⟨?_, ?_, ?_, ?_, ?_, ?_, ?_, ?_, ?_⟩, e3, ?_⟩
              all_goals try (intro j; simp only [latest_append, Msg.stateOf, Msg.zoneOf, Msg.taskOf, Msg.regionOf, Msg.areaOf, Msg.lineOf,
                Msg.pointOf, Msg.requestOf, pending_append])
              · exact k.states j
              · exact k.zones j
              · exact k.tasks j
              · exact k.regions j
              · exact k.areas j
              · exact k.lines j
              · exact k.points j
              · rw [Map.get_put]
                split
                · rename_i e; rw [← k.requests, e, hq]; rfl
                · exact k.requests j
              · intro r'; rw [Map.get_put]; split
                · simp
                · exact k.pending j r'
              · rw [e4, hresp]; simp only [Msg.isResponse, if_true]; omega
      | request i r =>
          refine done rfl rfl ⟨?_, ?_, ?_, ?_, ?_, ?_, ?_, ?_, ?_⟩
          all_goals (intro j; simp only [latest_append, Msg.stateOf, Msg.zoneOf, Msg.taskOf, Msg.regionOf, Msg.areaOf, Msg.lineOf,
                Msg.pointOf, Msg.requestOf, pending_append, Map.get_put])
          · exact k.states j
          · exact k.zones j
          · exact k.tasks j
          · exact k.regions j
          · exact k.areas j
          · exact k.lines j
          · exact k.points j
          · split
            · rfl
            · exact k.requests j
          · intro r'; split
            · simp
            · exact k.pending j r'
      | state i x | zone i x | task i x | region i x | area i x | line i x | point i x =>
          refine done rfl rfl ⟨?_, ?_, ?_, ?_, ?_, ?_, ?_, ?_, ?_⟩
          all_goals (intro j; simp only [latest_append, Msg.stateOf, Msg.zoneOf, Msg.taskOf, Msg.regionOf, Msg.areaOf, Msg.lineOf,
                Msg.pointOf, Msg.requestOf, pending_append, Map.get_put, k.states, k.zones, k.tasks, k.regions, k.areas, k.lines, k.points,
                k.requests])
          all_goals try exact k.pending j

/-- **C189.**  After any messages, the first response to a request is saved with what came last of each kind before it. -/
theorem C189_saved {c : Config} {fs : Fs} (h : Ready c fs) (l : List Msg) (hl : ∀ i x n, Msg.response i x n ∈ l → '/' ∉ n)
    (ht : fs.top (comps (c.base ++ ['/'])) + responses l < 9999) {i : Int} {r : Request} (hr : pending l i = some r) {xml now : Str}
    (hn : '/' ∉ now) :
    ∃ s s', ({ fs := fs } : State).run c l = .ok s ∧ ({ fs := fs } : State).run c (l ++ [.response i xml now]) = .ok s' ∧ Knows s l ∧
      Saved c s r i xml now s' := by
  obtain ⟨s, h1, k, h2, h3⟩ := C189_run h l hl (by omega)
  obtain ⟨s', h4, h5⟩ := C189_response h2 (by omega) (k.pending i r hr) (xml := xml) hn
  exact ⟨s, s', h1, by rw [run_append, h1]; exact h4, k, h5⟩

/-! ### Cases -/

/-- Vehicle 7 and a watch of entity 3; the request lists no entities. -/
def exMsgs : List Msg :=
  [.state 7 "s7".toList, .state 3 "s3".toList, .task 1 ⟨"t1".toList, .watched 3⟩, .zone 5 "z5".toList, .region 2 ⟨[5], []⟩,
   .state 7 "s7b".toList, .request 4 ⟨[], [(3, "p3".toList)], [1], 2⟩]

/-- Directories in `d`, entity 100. -/
def exConfig : Config := ⟨"d".toList, 100, fun _ => []⟩

example : Ready exConfig exEmpty := ⟨⟨by decide, by decide, by decide⟩, by decide +kernel, by
  intro a h; simp [exEmpty, Fs.isFile] at h⟩

example : pending exMsgs 4 = some ⟨[], [(3, "p3".toList)], [1], 2⟩ := by decide +kernel

/-- The files (without scripts) in the directories after some messages. -/
def shown (l : List Msg) : Outcome (List (List String × String)) :=
  (({ fs := exEmpty } : State).run exConfig l).bind fun s =>
    .ok ((s.fs.files.filter fun f => decide (f.1.getLast?.any fun n => n ∉ scriptNames)).map fun f => (f.1.map String.ofList, String.ofList f.2))

example : shown (exMsgs ++ [.response 4 "r4".toList "1".toList]) = .ok
    [(["d", "0001_AutomationDiagram_ID0100_1", "EntityState_Id_7.xml"], "s7b"),
     (["d", "0001_AutomationDiagram_ID0100_1", "EntityState_Id_3.xml"], "p3"),
     (["d", "0001_AutomationDiagram_ID0100_1", "Task_Id_1.xml"], "t1"),
     (["d", "0001_AutomationDiagram_ID0100_1", "WatchedEntity_Id_3.xml"], "s3"),
     (["d", "0001_AutomationDiagram_ID0100_1", "ZoneKeepIn_Id_5.xml"], "z5"),
     (["d", "0001_AutomationDiagram_ID0100_1", "UniqueAutomationResponse_Id_4.xml"], "r4")] := by decide +kernel

/-- **C189, what fails.**  A request without entities is for all entities, but with a second response the entities that are new since the
first one are left out. -/
theorem C189_second_violated :
    shown [.state 7 "s7".toList, .request 4 ⟨[], [], [], 0⟩, .response 4 "r".toList "1".toList, .state 8 "s8".toList,
        .response 4 "r".toList "2".toList] = .ok
      [(["d", "0001_AutomationDiagram_ID0100_1", "EntityState_Id_7.xml"], "s7"),
       (["d", "0001_AutomationDiagram_ID0100_1", "UniqueAutomationResponse_Id_4.xml"], "r"),
       (["d", "0002_AutomationDiagram_ID0100_2", "EntityState_Id_7.xml"], "s7"),
       (["d", "0002_AutomationDiagram_ID0100_2", "UniqueAutomationResponse_Id_4.xml"], "r")] := by decide +kernel

end Verif.Diagram
