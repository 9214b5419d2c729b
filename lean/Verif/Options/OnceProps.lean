import Verif.Options.EndToEnd

/-!
C102 for the tasks that exist: which name each option once, and what is lost by the others.
-/

namespace Verif.Options

open Verif Verif.Algebra Verif.Assign

theorem nonEmpty_actions : ∀ ids : List Int, NonEmptyOpsList (ids.map .action)
  | [] => by simp [NonEmptyOpsList]
  | i :: ids => by simp [NonEmptyOpsList, NonEmptyOps, nonEmpty_actions ids]

theorem once_actions {o : OpType} {ids : List Int} {c : Str} (h : Padded (.op o (ids.map .action)) c) (hn : ids.Nodup)
    (hne : ids ≠ []) : Once c ids :=
  ⟨_, h, fun a => by rw [objectives_actions], by rw [Distinct, objectives_actions]; exact hn,
    ⟨by simpa using hne, nonEmpty_actions ids⟩⟩

theorem once_refs (o : OpType) {ids : List Int} (hn : ids.Nodup) (hne : ids ≠ []) :
    Once (opText o :: '(' :: (Verif.Options.refs ids ++ [')'])) ids :=
  once_actions (.of_written (written_op o (by simpa using body_refs body_nil ids))) hn hne

theorem once_publish {opts : List Opt} (hn : (opts.map (·.id)).Nodup) (hne : opts ≠ []) :
    Once (publish opts).composition ((publish opts).opts.map (·.id)) :=
  once_refs .alt hn (by simpa using hne)

/-! ### The tasks that name each option once -/

/-- **C102**: loiter, must-fly, dynamic and point-search tasks. -/
theorem C102_once_single {u : Unit} (hu : u.Good) (el : List Int) (place : Int) (g : Groups) (known : Int → Bool) (at_ : Int → Int)
    (ws : List Wedge) (standoff : Nat) :
    Once (loiter el place).composition [10] ∧
    Once (mustFly u el place).composition ((mustFly u el place).opts.map (·.id)) ∧
    ((dynamic g known at_).opts ≠ [] → Once (dynamic g known at_).composition ((dynamic g known at_).opts.map (·.id))) ∧
    ((cmasiPoint u ws g standoff place).opts ≠ [] →
      Once (cmasiPoint u ws g standoff place).composition ((cmasiPoint u ws g standoff place).opts.map (·.id))) ∧
    ((impactPoint u ws g (some standoff) place).opts ≠ [] →
      Once (impactPoint u ws g (some standoff) place).composition ((impactPoint u ws g (some standoff) place).opts.map (·.id))) ∧
    Once (impactPoint u ws g none place).composition [10] := by
  refine ⟨?_, ?_, ?_, ?_, ?_, ?_⟩
  · exact once_publish (opts := [{ id := firstId, eligible := el, place := place }]) (by simp) (by simp)
  · have h := C93_mustFly hu el place
    refine once_publish h.2.1 ?_
    intro e
    have h₁ := h.2.2.1
    rw [show (mustFly u el place).opts = numbered firstId (fun i h => { id := i, cost := 1, eligible := el, place := place, heading := h })
      (allHeadings u) from rfl, e] at h₁
    simp at h₁
  · exact fun h => once_publish (C93_dynamic g known at_).2.1 h
  · exact fun h => once_publish (C93_cmasiPoint u ws g standoff place).2.1 h
  · exact fun h => once_publish (C93_impactPoint u ws g standoff place).2.1 h
  · have := (C93_impactPoint_any u ws g place).2
    have h := once_publish (opts := (impactPoint u ws g none place).opts) (by rw [this]; simp) (by rw [this]; simp)
    rw [show (publish (impactPoint u ws g none place).opts).opts.map (·.id) = [10] by
      show (impactPoint u ws g none place).opts.map (·.id) = [10]
      rw [this]; rfl] at h
    exact h

/-- **C102**: area, pattern and angled area searches. -/
theorem C102_once_area (u : Unit) (lo hi dflt : Int) (ws : List Wedge) (g : Groups) (look : Look) :
    (∀ r ∈ [areaSearch u lo hi dflt ws g, patternSearch look g, angledSearch look g], r.cells ≠ [] →
      Once r.composition (r.cells.map (·.opt.id))) := by
  intro r hr hne
  have key : ∀ {cells : List Cell} {s : Str}, WrittenBody ((cells.map (·.opt.id)).map .action) s → (cells.map (·.opt.id)).Nodup →
      cells ≠ [] → Once ('+' :: '(' :: (s ++ [')'])) (cells.map (·.opt.id)) := by
    intro cells s h hn hne
    exact once_actions (o := .alt) (.of_written (written_op .alt h)) hn (by simpa using hne)
  simp only [List.mem_cons, List.not_mem_nil, or_false] at hr
  rcases hr with rfl | rfl | rfl
  · exact key (areaLoop_body _ _ _) (areaLoop_nodup numbers_area _ _).1 hne
  · exact key (areaLoop_body _ _ _) (areaLoop_nodup numbers_pattern _ _).1 hne
  · obtain ⟨h₁, h₂, -⟩ := angledLoop_facts look (vehicles g) firstId
    exact key h₁ h₂ hne

theorem nonEmpty_blocks : ∀ {blocks : List (List Int)}, (∀ b ∈ blocks, b ≠ []) → ∀ o : OpType,
    NonEmptyOpsList (blocks.map fun b => .op o (b.map .action))
  | [], _, _ => by simp [NonEmptyOpsList]
  | b :: bs, h, o => by
    simp only [List.map_cons, NonEmptyOpsList, NonEmptyOps]
    exact ⟨⟨by simpa using h b (by simp), nonEmpty_actions b⟩, nonEmpty_blocks (fun c hc => h c (by simp [hc])) o⟩

/-- **C102**: line searches (the first with the condition of `C96_cmasi_partial`). -/
theorem C102_once_line (both : Bool) (plan : Planner) (ls : List Look) (g : Groups) :
    ((both = true → ∀ p ∈ g, ∀ l ∈ ls, (plan p.1 l).1 = true → (plan p.1 l).2 = true) → (cmasiLine both plan ls g).opts ≠ [] →
      Once (cmasiLine both plan ls g).composition ((cmasiLine both plan ls g).opts.map (·.id))) ∧
    ((impactLine both plan ls g).opts ≠ [] →
      Once (impactLine both plan ls g).composition ((impactLine both plan ls g).opts.map (·.id))) := by
  have key : ∀ {blocks : List (List Int)} {s : Str} {ids : List Int}, blocks.flatten = ids →
      WrittenBody (blocks.map fun b => .op .alt (b.map .action)) s → (∀ b ∈ blocks, b ≠ []) → ids.Nodup → ids ≠ [] →
      Once ('+' :: '(' :: (s ++ [')'])) ids := by
    intro blocks s ids e h hb hn hne
    refine ⟨_, .of_written (written_op .alt h), ?_, ?_, ⟨?_, nonEmpty_blocks hb .alt⟩⟩
    · intro a; rw [objectives, objectivesL_blocks, e]
    · rw [Distinct, objectives, objectivesL_blocks, e]; exact hn
    · intro h'
      have : blocks = [] := by simpa using h'
      rw [this] at e
      exact hne e.symm
  refine ⟨fun h hne => ?_, fun hne => ?_⟩
  · obtain ⟨bs, h₁, h₂, h₃⟩ := lineLoop_body (lineText_cmasi both) (some_cmasi both) (plan := plan) (ps := linePairs g ls) (id := firstId) (by
      rintro ⟨p, l⟩ hq i hn
      obtain ⟨hp, hl⟩ := mem_linePairs.mp hq
      have := fun hb => h hb p hp l hl
      rcases hf : plan p.1 l with ⟨a, b⟩
      simp only [hf] at this hn ⊢
      cases a <;> cases b <;> cases both <;> simp_all [cmasiLineCall])
    exact key h₁ h₂ h₃ (C96_cmasi both plan ls g).1 (by simpa using hne)
  · obtain ⟨bs, h₁, h₂, h₃⟩ := lineLoop_body (lineText_impact both) (some_impact both) (plan := plan) (ps := linePairs g ls) (id := firstId) (by
      rintro ⟨p, l⟩ hq i hn
      rcases hf : plan p.1 l with ⟨a, b⟩
      simp only [hf] at hn ⊢
      cases a <;> cases b <;> cases both <;> simp_all [impactLineCall])
    exact key h₁ h₂ h₃ (C96_impact_partial both plan ls g).2.1 (by simpa using hne)

/-- **C102**: blockade and multi-vehicle watch. -/
theorem C102_once_together {g : Groups} (hg : (vehicles g).Nodup) (hne : vehicles g ≠ []) (place : Int) (wanted : Nat) :
    ∃ p, together g (some place) wanted = some p ∧ Once p.composition (p.opts.map (·.id)) := by
  refine ⟨_, rfl, ?_⟩
  have := once_refs .seq hg hne
  simpa [Function.comp_def, opText] using this

/-! ### Alternatives of sequences -/

theorem seqNext_actions (ex : List Int) : ∀ (ids : List Int) (first : Bool),
    seqNext first (nextActionsList ex (ids.map .action)) =
      match ids.find? (fun a => decide (a ∉ ex)) with
      | some a => ([a], if first then !(ids.head? == some a) else true)
      | none => ([], true)
  | [], _ => by simp [nextActionsList, seqNext]
  | i :: ids, first => by
    simp only [List.map_cons, nextActionsList, nextActions]
    by_cases h : i ∈ ex
    · rw [if_pos h]
      simp only [seqNext, List.length_nil, gt_iff_lt, Nat.lt_irrefl, if_false]
      rw [seqNext_actions ex ids false]
      have : ((i :: ids).find? fun a => decide (a ∉ ex)) = ids.find? fun a => decide (a ∉ ex) := by
        rw [List.find?_cons_of_neg]; simpa using h
      rw [this]
      cases hf : ids.find? (fun a => decide (a ∉ ex)) with
      | none => rfl
      | some a =>
        have ha := List.find?_some hf
        have : i ≠ a := by rintro rfl; simp [h] at ha
        simp [this]
    · rw [if_neg h]
      have : ((i :: ids).find? fun a => decide (a ∉ ex)) = some i := by
        rw [List.find?_cons_of_pos]; simpa using h
      rw [this]
      simp [seqNext]

/-- One sequence among the alternatives: it counts as begun when its first objective has been executed. -/
theorem next_seq (ex : List Int) {i : Int} {ids : List Int} :
    nextActions ex (.op .seq ((i :: ids).map .action)) =
      (((i :: ids).find? fun a => decide (a ∉ ex)).toList, decide (i ∈ ex)) := by
  rw [nextActions, combine, seqNext_actions]
  by_cases h : i ∈ ex
  · have : ((i :: ids).find? fun a => decide (a ∉ ex)) = ids.find? fun a => decide (a ∉ ex) := by
      rw [List.find?_cons_of_neg]; simpa using h
    rw [this]
    cases hf : ids.find? (fun a => decide (a ∉ ex)) with
    | none => simp [h]
    | some a =>
      have ha := List.find?_some hf
      have : i ≠ a := by rintro rfl; simp [h] at ha
      simp [h, this]
  · have : ((i :: ids).find? fun a => decide (a ∉ ex)) = some i := by
      rw [List.find?_cons_of_pos]; simpa using h
    rw [this]
    simp [h]

/-- Alternatives of sequences. -/
def seqsTree (blocks : List (List Int)) : Tree := .op .alt (blocks.map fun b => .op .seq (b.map .action))

theorem nextList_map (ex : List Int) : ∀ l : List Tree, nextActionsList ex l = l.map (nextActions ex)
  | [] => rfl
  | c :: cs => by simp [nextActionsList, nextList_map ex cs]

theorem find_unexecuted {pre rest : List Int} {a : Int} (h : (pre ++ a :: rest).Nodup) :
    (pre ++ a :: rest).find? (fun x => decide (x ∉ pre)) = some a := by
  obtain ⟨-, -, h₃⟩ := List.nodup_append.mp h
  have ha : a ∉ pre := fun hp => h₃ a hp a (by simp) rfl
  rw [List.find?_append]
  have : pre.find? (fun x => decide (x ∉ pre)) = none := by
    rw [List.find?_eq_none]; intro x hx; simpa using hx
  rw [this, Option.none_or, List.find?_cons_of_pos]
  simpa using ha

/-- The first block with a given first objective. -/
def firstWith (blocks : List (List Int)) (i : Int) : Option (List Int) := blocks.find? fun b => b.head? == some i

/-- After a beginning of the first block with its first objective, the search goes on with that block only. -/
theorem next_seqs {blocks : List (List Int)} (hb : ∀ b ∈ blocks, b ≠ [] ∧ b.Nodup)
    (hh : ∀ b ∈ blocks, ∀ b' ∈ blocks, ∀ i, b.head? = some i → i ∉ b'.tail) {i : Int} {pre rest : List Int}
    (hf : firstWith blocks i = some (i :: pre ++ rest)) :
    (nextActions (i :: pre) (seqsTree blocks)).1 = rest.head?.toList := by
  have hmem : (i :: pre ++ rest) ∈ blocks := List.mem_of_find?_eq_some hf
  have hnd := (hb _ hmem).2
  have hflag : ∀ b ∈ blocks, (nextActions (i :: pre) (.op .seq (b.map .action))).2 = (b.head? == some i) := by
    intro b hbm
    cases b with
    | nil => exact absurd rfl (hb _ hbm).1
    | cons j b =>
      rw [next_seq]
      simp only [List.head?_cons]
      by_cases hj : j = i
      · simp [hj]
      · have : j ∉ i :: pre := by
          intro hm
          rcases List.mem_cons.mp hm with h | h
          · exact hj h
          · exact hh _ hbm _ hmem j rfl (by simp [h])
        simp [this, hj]
  have hfind : ∀ l : List (List Int), (∀ b ∈ l, b ∈ blocks) →
      (l.map fun b => nextActions (i :: pre) (.op .seq (b.map .action))).find? (fun r => r.2) =
        (firstWith l i).map fun b => nextActions (i :: pre) (.op .seq (b.map .action)) := by
    intro l hl
    induction l with
    | nil => rfl
    | cons b l ih =>
      have hb' := hflag b (hl b (by simp))
      have ih := ih fun c hc => hl c (by simp [hc])
      rw [List.map_cons, firstWith]
      by_cases h : b.head? == some i
      · rw [List.find?_cons_of_pos (by rw [hb']; exact h), List.find?_cons_of_pos (by simpa using h)]
        rfl
      · rw [List.find?_cons_of_neg (by rw [hb']; exact h), List.find?_cons_of_neg (by simpa using h)]
        exact ih
  rw [seqsTree, nextActions, combine, altNext, nextList_map, List.map_map]
  rw [show (nextActions (i :: pre) ∘ fun b : List Int => Tree.op .seq (b.map .action)) =
    fun b : List Int => nextActions (i :: pre) (.op .seq (b.map .action)) from rfl]
  rw [hfind blocks (fun _ h => h), hf]
  simp only [Option.map_some]
  rw [List.cons_append, next_seq]
  simp only
  cases rest with
  | nil =>
    rw [List.append_nil, List.find?_eq_none.mpr (by intro x hx; simpa only [decide_eq_true_eq, Decidable.not_not] using hx)]
    rfl
  | cons a rest =>
    have := find_unexecuted (pre := i :: pre) (a := a) (rest := rest) (by simpa using hnd)
    rw [List.cons_append] at this
    rw [this]; rfl

theorem next_seqs_nil {blocks : List (List Int)} (hb : ∀ b ∈ blocks, b ≠ []) :
    (nextActions [] (seqsTree blocks)).1 = blocks.filterMap List.head? := by
  rw [seqsTree, nextActions, combine, altNext, nextList_map, List.map_map]
  have h₁ : (blocks.map (nextActions [] ∘ fun b : List Int => Tree.op .seq (b.map .action))) =
      blocks.map fun b => (b.head?.toList, false) := by
    apply List.map_congr_left
    intro b hbm
    cases b with
    | nil => exact absurd rfl (hb _ hbm)
    | cons j b =>
      simp only [Function.comp]
      rw [next_seq]
      simp
  rw [h₁]
  have h₂ : (blocks.map fun b : List Int => ((b.head?.toList, false) : NextRes)).find? (fun r => r.2) = none := by
    rw [List.find?_eq_none]
    intro x hx
    obtain ⟨b, -, rfl⟩ := List.mem_map.mp hx
    simp
  rw [h₂]
  simp only [List.flatMap_map]
  induction blocks with
  | nil => rfl
  | cons b bs ih =>
    cases b with
    | nil => exact absurd rfl (hb _ (by simp))
    | cons j b =>
      have := ih (fun c hc => hb c (by simp [hc]))
        (List.map_congr_left fun b hbm => by
          cases b with
          | nil => exact absurd rfl (hb _ (by simp [hbm]))
          | cons j b => simp only [Function.comp]; rw [next_seq]; simp)
        (by rw [List.find?_eq_none]; intro x hx; obtain ⟨b, -, rfl⟩ := List.mem_map.mp hx; simp)
      simp [this]

/-- **C102, alternatives of sequences** in which the first objectives occur nowhere else: the search can follow to the end, of
all alternatives with the same first objective, only the one that is written first. -/
theorem C102_first_only {blocks : List (List Int)} (hne : blocks ≠ []) (hb : ∀ b ∈ blocks, b ≠ [] ∧ b.Nodup)
    (hh : ∀ b ∈ blocks, ∀ b' ∈ blocks, ∀ i, b.head? = some i → i ∉ b'.tail) {g : Alg} (hg : g.root = some (seqsTree blocks))
    (w : List Int) : (Run g w ∧ searchNext g w = .ok []) ↔ ∃ i, firstWith blocks i = some w := by
  have hoff : ∀ ex a, Offers g ex a ↔ a ∈ (nextActions ex (seqsTree blocks)).1 := by
    intro ex a; simp [Offers, searchNext, hg]
  have hinv : ∀ ex, Run g ex → ex = [] ∨ ∃ i pre rest, ex = i :: pre ∧ firstWith blocks i = some (i :: pre ++ rest) := by
    intro ex h
    induction h with
    | start => exact .inl rfl
    | @step ex a _ ho ih =>
      right
      rw [hoff] at ho
      rcases ih with rfl | ⟨i, pre, rest, rfl, hf⟩
      · rw [next_seqs_nil fun b h => (hb b h).1] at ho
        obtain ⟨b, hbm, hd⟩ := List.mem_filterMap.mp ho
        have hsome : (firstWith blocks a).isSome := by
          rw [firstWith, List.find?_isSome]
          exact ⟨b, hbm, by simp [hd]⟩
        obtain ⟨c, hc⟩ := Option.isSome_iff_exists.mp hsome
        have hca := List.find?_some hc
        cases c with
        | nil => simp at hca
        | cons j c =>
          have : j = a := by simpa using hca
          subst this
          exact ⟨j, [], c, rfl, by simpa using hc⟩
      · rw [next_seqs hb hh hf] at ho
        cases rest with
        | nil => simp at ho
        | cons r rest =>
          have : a = r := by simpa using ho
          subst this
          exact ⟨i, pre ++ [a], rest, by simp, by simpa using hf⟩
  constructor
  · rintro ⟨hr, hs⟩
    rcases hinv w hr with rfl | ⟨i, pre, rest, rfl, hf⟩
    · exfalso
      simp only [searchNext, hg, Outcome.ok.injEq] at hs
      rw [next_seqs_nil fun b h => (hb b h).1] at hs
      obtain ⟨b, hbm⟩ := List.exists_mem_of_ne_nil _ hne
      cases b with
      | nil => exact absurd rfl (hb _ hbm).1
      | cons j b =>
        have : j ∈ blocks.filterMap List.head? := List.mem_filterMap.mpr ⟨_, hbm, rfl⟩
        rw [hs] at this; simp at this
    · simp only [searchNext, hg, Outcome.ok.injEq] at hs
      rw [next_seqs hb hh hf] at hs
      cases rest with
      | nil => exact ⟨i, by simpa using hf⟩
      | cons r rest => simp at hs
  · rintro ⟨i, hf⟩
    have hw := List.find?_some hf
    cases w with
    | nil => simp at hw
    | cons j w =>
      have : j = i := by simpa using hw
      subst this
      have hpre : ∀ n ≤ w.length, Run g (j :: w.take n) := by
        intro n
        induction n with
        | zero =>
          intro _
          refine Run.step (ex := []) .start ?_
          rw [hoff, next_seqs_nil fun b h => (hb b h).1]
          exact List.mem_filterMap.mpr ⟨_, List.mem_of_find?_eq_some hf, rfl⟩
        | succ n ih =>
          intro hn
          have hlt : n < w.length := by omega
          have := Run.step (a := w[n]) (ih (by omega)) (by
            rw [hoff, next_seqs (rest := w.drop n) hb hh (by simpa using hf)]
            rw [List.drop_eq_getElem_cons hlt]
            simp)
          have e : j :: w.take n ++ [w[n]] = j :: w.take (n + 1) := by
            rw [List.cons_append, List.take_append_getElem]
          rwa [e] at this
      refine ⟨by simpa using hpre w.length (Nat.le_refl _), ?_⟩
      simp only [searchNext, hg, Outcome.ok.injEq]
      rw [next_seqs (rest := []) hb hh (by simpa using hf)]
      rfl

/-! ### Cordon -/

theorem optNum_inj {vs : List Int} {id v v' : Int} {k k' : Nat} (hv : v ∈ vs) (hv' : v' ∈ vs)
    (h : optNum vs id v k = optNum vs id v' k') : v = v' ∧ k = k' := by
  have h₁ := List.idxOf_lt_length_of_mem hv
  have h₂ := List.idxOf_lt_length_of_mem hv'
  have e : k * vs.length + vs.idxOf v = k' * vs.length + vs.idxOf v' := by
    simp only [optNum] at h
    have : ((k * vs.length + vs.idxOf v : Nat) : Int) = (k' * vs.length + vs.idxOf v' : Nat) := by
      simp only [Int.natCast_add, Int.natCast_mul]; omega
    exact Int.ofNat.inj this
  have hpos : 0 < vs.length := by omega
  have d₁ : (k * vs.length + vs.idxOf v) / vs.length = k := by
    rw [Nat.mul_comm, Nat.mul_add_div hpos, Nat.div_eq_of_lt h₁]; rfl
  have d₂ : (k' * vs.length + vs.idxOf v') / vs.length = k' := by
    rw [Nat.mul_comm, Nat.mul_add_div hpos, Nat.div_eq_of_lt h₂]; rfl
  have hk : k = k' := by rw [← d₁, ← d₂, e]
  subst hk
  have hi : vs.idxOf v = vs.idxOf v' := by omega
  have g₁ := List.getElem_idxOf (x := v) h₁
  have g₂ := List.getElem_idxOf (x := v') h₂
  refine ⟨?_, rfl⟩
  rw [← g₁, ← g₂]
  congr 1

/-- **C102, cordon**: of all the assignments that the task allows (`C100_partial`), the search can follow to the end only one for
each first option, that is, for each choice of what happens at the first location (or with the first vehicle). -/
theorem C102_cordon_partial (g : Groups) (entities places : List Int) (hg : (vehicles g).Nodup) (he : entities.Nodup)
    (hne : entities ≠ []) (hp : places ≠ []) (hel : ∀ v ∈ entities, v ∈ vehicles g) :
    ∃ t, Padded t (({} : Cordon).response g entities places).2.composition ∧
      ∀ a : Alg, a.root = some t →
        (∀ w, Run a w → searchNext a w = .ok [] → Word t w) ∧
        ∀ w w', Run a w → searchNext a w = .ok [] → Run a w' → searchNext a w' = .ok [] → w.head? = w'.head? → w = w' := by
  obtain ⟨h₁, h₂, -⟩ := locations_facts hg (ps := places) (s := {}) (loc := 1) (id := firstId) (by intro v l _; rfl)
  have hpos : 0 < places.length := List.length_pos_iff.mpr hp
  have hep : 0 < entities.length := List.length_pos_iff.mpr hne
  obtain ⟨blocks, b₁, -, b₃⟩ := cordonText_eq (ids := (({} : Cordon).locations (vehicles g) 1 firstId places).ids)
    (num := optNum (vehicles g) firstId) he hne hpos (by
      intro v hv k hk
      have := h₂ v (hel v hv) k hk
      rw [Int.add_comm] at this
      exact this)
  have hinj : ∀ {as as' : List (Int × Nat)}, as ∈ blocks → as' ∈ blocks → ∀ {x}, x ∈ as → ∀ {y}, y ∈ as' →
      optNum (vehicles g) firstId x.1 x.2 = optNum (vehicles g) firstId y.1 y.2 → x = y := by
    intro as as' ha ha' x hx y hy e
    have i₁ := ((b₃ as).mp ha).1.listed x hx
    have i₂ := ((b₃ as').mp ha').1.listed y hy
    have := optNum_inj (hel _ i₁.1) (hel _ i₂.1) e
    exact Prod.ext this.1 this.2
  have hb : ∀ b ∈ blocks.map fun as => as.map fun a => optNum (vehicles g) firstId a.1 a.2, b ≠ [] ∧ b.Nodup := by
    intro b hbm
    obtain ⟨as, has, rfl⟩ := List.mem_map.mp hbm
    have ha := ((b₃ as).mp has).1
    refine ⟨?_, ?_⟩
    · intro e
      have h₃ := ha.size
      rw [List.map_eq_nil_iff.mp e] at h₃
      simp only [List.length_nil] at h₃
      omega
    · have hnd : as.Nodup := by
        have := ha.vehicles
        rw [List.nodup_iff_pairwise_ne, List.pairwise_map] at this
        exact List.nodup_iff_pairwise_ne.mpr (this.imp fun h e => h (by rw [e]))
      rw [List.nodup_iff_pairwise_ne, List.pairwise_map]
      exact (List.nodup_iff_pairwise_ne.mp hnd).imp_of_mem fun hx hy hne e => hne (hinj has has hx hy e)
  have hh : ∀ b ∈ blocks.map fun as => as.map fun a => optNum (vehicles g) firstId a.1 a.2,
      ∀ b' ∈ blocks.map fun as => as.map fun a => optNum (vehicles g) firstId a.1 a.2,
      ∀ i, b.head? = some i → i ∉ b'.tail := by
    intro b hbm b' hbm' i hi hm
    obtain ⟨as, has, rfl⟩ := List.mem_map.mp hbm
    obtain ⟨as', has', rfl⟩ := List.mem_map.mp hbm'
    cases as with
    | nil => simp at hi
    | cons x as =>
      cases as' with
      | nil => simp at hm
      | cons y as' =>
        simp only [List.map_cons, List.head?_cons, Option.some.injEq, List.tail_cons] at hi hm
        obtain ⟨z, hz, e⟩ := List.mem_map.mp hm
        have hxz : x = z := hinj has has' (by simp) (by simp [hz]) (hi.trans e.symm)
        subst hxz
        have k₁ := ((b₃ _).mp has).2
        have k₂ := ((b₃ _).mp has').2
        have v₁ := ((b₃ _).mp has').1.vehicles
        have v₂ := ((b₃ _).mp has').1.locations
        by_cases hc : entities.length > places.length
        · rw [if_pos hc] at k₁ k₂
          rw [← k₂] at k₁
          simp only [List.map_cons, List.cons.injEq] at k₁ v₂
          exact (List.nodup_cons.mp v₂).1 (by rw [← k₁.1]; exact List.mem_map_of_mem hz)
        · rw [if_neg hc] at k₁ k₂
          rw [← k₂] at k₁
          simp only [List.map_cons, List.cons.injEq] at k₁ v₁
          exact (List.nodup_cons.mp v₁).1 (by rw [← k₁.1]; exact List.mem_map_of_mem hz)
  have hbne : blocks ≠ [] := by
    obtain ⟨v, hv⟩ := List.exists_mem_of_ne_nil _ hne
    obtain ⟨as, has, -⟩ := assignment_through he hv hpos
    exact List.ne_nil_of_mem ((b₃ as).mpr has)
  refine ⟨seqsTree (blocks.map fun as => as.map fun a => optNum (vehicles g) firstId a.1 a.2), ?_, ?_⟩
  · show Padded _ (cordonText _ _ _)
    rw [b₁]
    exact .of_written (written_op .alt (seqs_body _))
  · intro a ha
    have key := C102_first_only (by simpa using hbne) hb hh ha
    refine ⟨?_, ?_⟩
    · intro w hr hs
      obtain ⟨i, hi⟩ := (key w).mp ⟨hr, hs⟩
      rw [seqsTree, word_alt]
      exact ⟨_, List.mem_map.mpr ⟨w, List.mem_of_find?_eq_some hi, rfl⟩, word_seq_actions.mpr rfl⟩
    · intro w w' hr hs hr' hs' e
      obtain ⟨i, hi⟩ := (key w).mp ⟨hr, hs⟩
      obtain ⟨j, hj⟩ := (key w').mp ⟨hr', hs'⟩
      have e₁ : w.head? = some i := by simpa using List.find?_some hi
      have e₂ : w'.head? = some j := by simpa using List.find?_some hj
      have : i = j := by rw [e, e₂] at e₁; simpa using e₁.symm
      subst this
      rw [hi] at hj
      simpa using hj

example : (vehicles [((200, 700), [400, 500])]).Nodup ∧ [400, 500].Nodup ∧
    (({} : Cordon).response [((200, 700), [400, 500])] [400, 500] [7, 8, 9]).2.composition =
      "+( .(p10 p13 ) .(p12 p11 ) .(p10 p15 ) .(p14 p11 ) .(p12 p15 ) .(p14 p13 ))".toList := by decide +kernel

/-! ### An example -/

/-- A leg between options of task 1 (0 is the start). -/
def leg (v : Int) (to : Int × Int) (time : Int) (start : Int × Int := (0, 0)) : CostEntry :=
  { vehicle := v, fromTask := start.1, fromOption := start.2, toTask := to.1, toOption := to.2, time := time }

/-- A loiter task and a point search at two headings. -/
def exOffers : List Offer :=
  [⟨1, loiter [400, 500] 7, [10], fun w => w = [10]⟩,
   ⟨2, cmasiPoint ⟨225, 0, 0⟩ [⟨0, 0, 0, 0⟩] [((200, 700), [400]), ((150, 700), [500])] 300 8,
    (cmasiPoint ⟨225, 0, 0⟩ [⟨0, 0, 0, 0⟩] [((200, 700), [400]), ((150, 700), [500])] 300 8).opts.map (·.id),
    fun w => ∃ o ∈ (cmasiPoint ⟨225, 0, 0⟩ [⟨0, 0, 0, 0⟩] [((200, 700), [400]), ((150, 700), [500])] 300 8).opts, w = [o.id]⟩]

theorem exOffers_good : ∀ o ∈ exOffers, o.Good := by
  intro o ho
  simp only [exOffers, List.mem_cons, List.not_mem_nil, or_false] at ho
  rcases ho with rfl | rfl
  · exact ⟨(C93_loiter _ _).1, by decide, by decide, by decide⟩
  · exact ⟨(C93_cmasiPoint _ _ _ _ _).1, fun i hi => hi, by decide +kernel, by decide⟩

theorem exOffers_once : ∀ o ∈ exOffers, Once o.pub.composition o.ids := by
  intro o ho
  simp only [exOffers, List.mem_cons, List.not_mem_nil, or_false] at ho
  rcases ho with rfl | rfl
  · exact once_publish (opts := [{ id := firstId, eligible := [400, 500], place := 7 }]) (by decide) (by decide)
  · exact once_publish (C93_cmasiPoint _ _ _ _ _).2.1 (by decide +kernel)

/-- Not in the code: an example. -/
def exLegs : CostMatrix := ⟨5, [leg 400 (1, 10) 5, leg 400 (2, 10) 9, leg 500 (1, 10) 7, leg 500 (2, 11) 3, leg 400 (2, 10) 1 (1, 10)]⟩

theorem exLegs_orders : Orders exLegs (fun _ => [400, 500]) [400, 500] where
  node := by intro n w; simp [exLegs, leg]; grind
  pubMem := by intro w; simp [exLegs, leg]; grind
  pubNodup := by decide

theorem exLegs_eligible : MatrixEligible (allOptions (plansOf 5 exOffers)) exLegs.entries := by
  have h : ∀ e ∈ exLegs.entries, (allOptions (plansOf 5 exOffers)).any (fun p =>
      decide (taskAndOptionId p.taskId p.optionId = taskAndOptionId e.toTask e.toOption) && p.eligible.contains e.vehicle) = true := by
    decide +kernel
  intro e he
  obtain ⟨p, hp, h⟩ := List.any_eq_true.mp (h e he)
  simp only [Bool.and_eq_true, decide_eq_true_eq, List.contains_iff_mem] at h
  exact ⟨p, hp, h.1, h.2⟩

/-- What the assignment publishes for the two tasks, and that the theorems apply to it. -/
example : ∃ rs tasks, calculateAssignment { numberNodesMaximum := -1 } (fun _ => [400, 500]) [400, 500]
      { requestId := 5, tasks := [1, 2], relationships := [], operatingRegion := 9 } (plansOf 5 exOffers) exLegs = .ok rs ∧
    rs = [.complete, .summary 5 9 tasks] ∧ tasks.map (fun a => (a.taskId, a.optionId, a.vehicle)) = [(1, 10, 400), (2, 10, 400)] ∧
    ∀ a ∈ tasks, ∃ o ∈ exOffers, a.taskId = o.task ∧ ∃ x ∈ o.pub.opts, a.optionId = x.id ∧ a.vehicle ∈ x.eligible := by
  have h : ∃ tasks, calculateAssignment { numberNodesMaximum := -1 } (fun _ => [400, 500]) [400, 500]
      { requestId := 5, tasks := [1, 2], relationships := [], operatingRegion := 9 } (plansOf 5 exOffers) exLegs =
        .ok [.complete, .summary 5 9 tasks] ∧ tasks.map (fun a => (a.taskId, a.optionId, a.vehicle)) = [(1, 10, 400), (2, 10, 400)] :=
    ⟨[⟨1, 10, 400, 0, 5⟩, ⟨2, 10, 400, 0, 15006⟩], by decide +kernel⟩
  obtain ⟨tasks, h₁, h₂⟩ := h
  exact ⟨_, tasks, h₁, rfl, h₂, (C102_assignment_partial rfl (by decide) exOffers_good exOffers_once
    ⟨_, List.mem_cons_self .., by decide⟩ exLegs_orders exLegs_eligible h₁
    (id := 5) (region := 9) (tasks := tasks) (by simp)).2.2.1⟩

/-! ### Violations -/

/-- **C102 is violated** by a cordon of three locations by two vehicles.  The task allows vehicle 400 at location 7 with vehicle
500 at location 9, which takes 2; the search, though it is not limited, publishes 400 at 7 with 500 at 8, which takes 50. -/
theorem C102_violated_cordon :
    let p := (({} : Cordon).response [((200, 700), [400, 500])] [400, 500] [7, 8, 9]).2
    let m : CostMatrix := ⟨5, [leg 400 (1, 10) 1, leg 400 (1, 12) 50, leg 400 (1, 14) 50, leg 500 (1, 11) 50, leg 500 (1, 13) 50,
      leg 500 (1, 15) 2]⟩
    (∃ ids orders, Means p.composition ids orders ∧ orders [10, 15]) ∧
    calculateAssignment { numberNodesMaximum := -1 } (fun _ => [400, 500]) [400, 500]
      { requestId := 5, tasks := [1], relationships := [], operatingRegion := 9 } [(1, p.plan 5 1)] m =
      .ok [.complete, .summary 5 9 [⟨1, 10, 400, 0, 1⟩, ⟨1, 13, 500, 0, 50⟩]] := by
  refine ⟨?_, by decide +kernel⟩
  obtain ⟨num, -, h₂, -, h₄⟩ := C100_partial [((200, 700), [400, 500])] [400, 500] [7, 8, 9] (by decide) (by decide) (by decide)
    (by decide) (by decide)
  refine ⟨_, _, h₄, [(400, 0), (500, 2)], ⟨by decide, by decide, by decide, by decide⟩, by decide, ?_⟩
  have o₁ := h₂ 400 (by decide) 0 7 rfl
  have o₂ := h₂ 500 (by decide) 2 9 rfl
  have e : (({} : Cordon).response [((200, 700), [400, 500])] [400, 500] [7, 8, 9]).2.opts =
    [⟨10, 0, [400], 7, 0⟩, ⟨11, 0, [500], 7, 0⟩, ⟨12, 0, [400], 8, 0⟩, ⟨13, 0, [500], 8, 0⟩, ⟨14, 0, [400], 9, 0⟩,
     ⟨15, 0, [500], 9, 0⟩] := by decide +kernel
  rw [e] at o₁ o₂
  simp at o₁ o₂
  simp [o₁, o₂]

/-- **C102 is violated** by a rendezvous of two vehicles out of three: the search publishes an assignment of three vehicles, two
of them to the same state (8), which is not a meeting that the task allows. -/
theorem C102_violated_rendezvous :
    ∃ p, rendezvous [((200, 700), [400, 500]), ((150, 700), [600])] [⟨0, 7⟩, ⟨0, 8⟩] 2 id = .ok p ∧
      Means p.composition [10, 13, 10, 15, 12, 15, 11, 12, 11, 14, 13, 14]
        (fun w => w ∈ [[10, 13], [10, 15], [12, 15], [11, 12], [11, 14], [13, 14]]) ∧
      p.opts.map (fun o => (o.id, o.eligible, o.place)) =
        [(10, [400], 7), (11, [400], 8), (12, [500], 7), (13, [500], 8), (14, [600], 7), (15, [600], 8)] ∧
      calculateAssignment { numberNodesMaximum := -1 } (fun _ => [400, 500, 600]) [400, 500, 600]
        { requestId := 5, tasks := [1], relationships := [], operatingRegion := 9 } [(1, p.plan 5 1)]
        ⟨5, [leg 400 (1, 10) 50, leg 400 (1, 11) 1, leg 500 (1, 12) 2, leg 500 (1, 13) 50, leg 600 (1, 14) 50, leg 600 (1, 15) 2]⟩ =
        .ok [.complete, .summary 5 9 [⟨1, 11, 400, 0, 1⟩, ⟨1, 12, 500, 0, 2⟩, ⟨1, 15, 600, 0, 2⟩]] := by
  refine ⟨⟨"+( .( p10 p13 ) .( p10 p15 ) .( p12 p15 ) .( p11 p12 ) .( p11 p14 ) .( p13 p14 ) ) ".toList,
     [⟨10, 0, [400], 7, 0⟩, ⟨11, 0, [400], 8, 0⟩, ⟨12, 0, [500], 7, 0⟩, ⟨13, 0, [500], 8, 0⟩, ⟨14, 0, [600], 7, 0⟩,
      ⟨15, 0, [600], 8, 0⟩]⟩, by decide +kernel, ?_, by decide +kernel, by decide +kernel⟩
  exact means_alts [[10, 13], [10, 15], [12, 15], [11, 12], [11, 14], [13, 14]]

end Verif.Options
