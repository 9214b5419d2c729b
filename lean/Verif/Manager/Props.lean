import Verif.Manager.Tasks

/-! Properties of the service manager: C20; and the two managers together: C24. -/

namespace Verif.Manager

open Verif

/-! ### The table -/

/-- Keys are unique and belong to the services. -/
structure Sound (s : SM) : Prop where
  nodup : (s.table.map (·.1)).Nodup
  keys : ∀ p ∈ s.table, p.1 = key p.2.id

theorem sound_step {s : SM} (h : Sound s) (i : SIn) : Sound (smStep s i).1 := by
  cases i with
  | create given a =>
    simp only [smStep]
    split
    · cases a with
      | noService => exact h
      | fails => exact ⟨h.nodup, h.keys⟩
      | starts =>
        simp only [SM.create]
        split
        · exact ⟨h.nodup, h.keys⟩
        · next hn =>
          refine ⟨?_, ?_⟩
          · simp only [List.map_append, List.map_cons, List.map_nil]
            refine List.nodup_append.mpr ⟨h.nodup, by simp, ?_⟩
            intro a ha b hb
            simp only [List.mem_singleton] at hb
            rintro rfl
            refine hn (List.any_eq_true.mpr ?_)
            obtain ⟨p, hp, rfl⟩ := List.mem_map.mp ha
            exact ⟨p, hp, by simpa using hb⟩
          · intro p hp
            simp only [List.mem_append, List.mem_singleton] at hp
            rcases hp with hp | rfl
            · exact h.keys p hp
            · rfl
    · exact h
  | finish id =>
    refine ⟨?_, ?_⟩
    · have : ∀ l : List (Nat × Svc), (l.map fun p => if p.2.id = id then (p.1, { p.2 with finished := true }) else p).map (·.1)
          = l.map (·.1) := by
        intro l
        rw [List.map_map]
        refine List.map_congr_left fun p _ => ?_
        simp only [Function.comp_apply]
        split <;> rfl
      simpa only [smStep, this] using h.nodup
    · intro p hp
      simp only [smStep, List.mem_map] at hp
      obtain ⟨q, hq, rfl⟩ := hp
      split
      · exact h.keys q hq
      · exact h.keys q hq
  | cleanUp =>
    exact ⟨h.nodup.sublist (List.filter_sublist.map _), fun p hp => h.keys p (List.mem_filter.mp hp).1⟩
  | kill id =>
    simp only [smStep]
    split
    · split
      · exact ⟨h.nodup, h.keys⟩
      · split
        · exact ⟨h.nodup, h.keys⟩
        · exact h
    · exact h
  | idOp op => exact ⟨h.nodup, h.keys⟩

theorem sound_run (s : SM) (h0 : s.table = []) (h : List SIn) : Sound (runM smStep s h).1 := by
  refine runM_induction (P := fun _ (s : SM) _ => Sound s) ⟨by simp [h0], by simp [h0]⟩ ?_ h
  intro is i hs
  exact sound_step hs i

/-- C20: in every history each id appears at most once in the table. -/
theorem C20_unique_ids (s : SM) (h0 : s.table = []) (h : List SIn) :
    ((runM smStep s h).1.table.map (·.2.id)).Nodup := by
  have hs := sound_run s h0 h
  have e : (runM smStep s h).1.table.map (·.1) = ((runM smStep s h).1.table.map (·.2.id)).map key := by
    rw [List.map_map]
    exact List.map_congr_left fun p hp => hs.keys p hp
  have := hs.nodup
  rw [e] at this
  exact List.Pairwise.of_map key (fun a b hab hh => hab (by rw [hh])) this

/-- The effect of each event on the tracked services. -/
theorem tracks_step {s : SM} (hs : Sound s) (i : SIn) (id : Nat) (b : Bool) :
    Tracks (smStep s i).1 id b ↔
      match i with
      | .create given .starts => Tracks s id b ∨
          (s.runs = true ∧ (∀ p ∈ s.table, p.1 ≠ key (finalId s.ids.client given)) ∧
            id = finalId s.ids.client given ∧ b = false)
      | .finish id' => if id = id' then b = true ∧ ∃ b', Tracks s id b' else Tracks s id b
      | .cleanUp => Tracks s id b ∧ b = false
      | _ => Tracks s id b := by
  cases i with
  | create given a =>
    cases a with
    | noService => simp only [smStep]; split <;> exact Iff.rfl
    | fails => simp only [smStep]; split <;> exact Iff.rfl
    | starts =>
      simp only [smStep]
      split
      · next hr =>
        simp only [SM.create]
        split
        · next hany =>
          constructor
          · exact .inl
          · rintro (h | ⟨_, h, _⟩)
            · exact h
            · obtain ⟨p, hp, hk⟩ := List.any_eq_true.mp hany
              exact absurd (by simpa using hk) (h p hp)
        · next hany =>
          simp only [Tracks, List.mem_append, List.mem_singleton, or_and_right, exists_or, exists_eq_left]
          constructor
          · rintro (h | ⟨rfl, rfl⟩)
            · exact .inl h
            · refine .inr ⟨hr, fun p hp hk => hany (List.any_eq_true.mpr ⟨p, hp, by simpa using hk⟩), rfl, rfl⟩
          · rintro (h | ⟨_, _, rfl, rfl⟩)
            · exact .inl h
            · exact .inr ⟨rfl, rfl⟩
      · next hr =>
        constructor
        · exact .inl
        · rintro (h | ⟨h, _⟩)
          · exact h
          · exact absurd h hr
  | finish id' =>
    simp only [smStep, Tracks, List.mem_map]
    constructor
    · rintro ⟨_, ⟨p, hp, rfl⟩, h1, h2⟩
      split at h1
      · next hid =>
        rw [if_pos hid] at h2
        simp only at h1 h2
        rw [if_pos (h1.symm.trans hid)]
        exact ⟨h2.symm, p.2.finished, p, hp, h1, rfl⟩
      · next hid =>
        rw [if_neg hid] at h2
        rw [if_neg (fun hh => hid (h1.trans hh))]
        exact ⟨p, hp, h1, h2⟩
    · split
      · next hid =>
        rintro ⟨rfl, b', p, hp, h1, rfl⟩
        exact ⟨_, ⟨p, hp, rfl⟩, by simp [h1, hid], by simp [h1, hid]⟩
      · next hid =>
        rintro ⟨p, hp, h1, h2⟩
        have : ¬ p.2.id = id' := fun hh => hid (h1 ▸ hh)
        exact ⟨_, ⟨p, hp, rfl⟩, by rw [if_neg this]; exact h1, by rw [if_neg this]; exact h2⟩
  | cleanUp =>
    simp only [smStep, Tracks, List.mem_filter]
    constructor
    · rintro ⟨p, ⟨hp, hf⟩, h1, h2⟩
      have : p.2.finished = false := by simpa using hf
      exact ⟨⟨p, hp, h1, h2⟩, by rw [← h2, this]⟩
    · rintro ⟨⟨p, hp, h1, h2⟩, rfl⟩
      exact ⟨p, ⟨hp, by simp [h2]⟩, h1, h2⟩
  | kill k =>
    simp only [smStep]
    split
    · split
      · exact Iff.rfl
      · split <;> exact Iff.rfl
    · exact Iff.rfl
  | idOp op => exact Iff.rfl

theorem gone_snoc (id : Nat) (h : List SIn) (i : SIn) :
    Gone id (h ++ [i]) ↔ Gone id h ∨ (i = .cleanUp ∧ .finish id ∈ h) := by
  constructor
  · rintro ⟨A, B, e, h1, h2⟩
    rcases List.eq_nil_or_concat B with rfl | ⟨B', z, rfl⟩
    · simp at h2
    · rw [List.concat_eq_append, ← List.append_assoc] at e
      have e' := List.append_inj' e rfl
      simp only [List.cons.injEq, and_true] at e'
      obtain ⟨rfl, rfl⟩ := e'
      simp only [List.concat_eq_append, List.mem_append, List.mem_singleton] at h2
      rcases h2 with h2 | h2
      · exact .inl ⟨A, B', rfl, h1, h2⟩
      · exact .inr ⟨h2.symm, by simp [h1]⟩
  · rintro (⟨A, B, rfl, h1, h2⟩ | ⟨rfl, h1⟩)
    · exact ⟨A, B ++ [i], by simp, h1, by simp [h2]⟩
    · exact ⟨h, [.cleanUp], rfl, h1, by simp⟩

theorem tracked_until_gone (s : SM) (h0 : s.table = []) (h h' : List SIn) (given : Int)
    (hr : (runM smStep s h).1.runs = true)
    (hfresh : ∀ p ∈ (runM smStep s h).1.table, p.1 ≠ key (finalId (runM smStep s h).1.ids.client given))
    (hg : ¬ Gone (finalId (runM smStep s h).1.ids.client given) h') :
    ∃ b, Tracks (runM smStep s (h ++ .create given .starts :: h')).1 (finalId (runM smStep s h).1.ids.client given) b ∧
      (b = true ↔ .finish (finalId (runM smStep s h).1.ids.client given) ∈ h') := by
  have hs0 : Sound (smStep (runM smStep s h).1 (.create given .starts)).1 := sound_step (sound_run s h0 h) _
  have hbase : Tracks (smStep (runM smStep s h).1 (.create given .starts)).1
      (finalId (runM smStep s h).1.ids.client given) false := by
    rw [tracks_step (sound_run s h0 h)]
    exact .inr ⟨hr, hfresh, rfl, rfl⟩
  rw [runM_append, runM_cons]
  generalize finalId (runM smStep s h).1.ids.client given = id at *
  generalize (smStep (runM smStep s h).1 (.create given .starts)).1 = t at *
  have key : ∀ h' : List SIn, Sound (runM smStep t h').1 ∧ (¬ Gone id h' →
      ∃ b, Tracks (runM smStep t h').1 id b ∧ (b = true ↔ .finish id ∈ h')) := by
    intro h'
    refine runM_induction (step := smStep) (s0 := t) (P := fun h' (u : SM) _ => Sound u ∧ (¬ Gone id h' →
      ∃ b, Tracks u id b ∧ (b = true ↔ .finish id ∈ h'))) ?_ ?_ h'
    · exact ⟨hs0, fun _ => ⟨false, hbase, by simp⟩⟩
    · rintro is i ⟨hsd, hP⟩
      refine ⟨sound_step hsd i, fun hng => ?_⟩
      rw [gone_snoc] at hng
      obtain ⟨b, hb, hbi⟩ := hP fun hh => hng (.inl hh)
      cases i with
      | create given a =>
        refine ⟨b, ?_, by simpa using hbi⟩
        rw [tracks_step hsd]
        cases a <;> first | exact hb | exact .inl hb
      | finish id' =>
        by_cases hid : id = id'
        · subst hid
          refine ⟨true, ?_, by simp⟩
          rw [tracks_step hsd]
          simp only [if_true]
          exact ⟨trivial, b, hb⟩
        · refine ⟨b, ?_, ?_⟩
          · rw [tracks_step hsd]
            simp only [if_neg hid]
            exact hb
          · rw [hbi]; simp [hid]
      | cleanUp =>
        have hnf : .finish id ∉ is := fun hh => hng (.inr ⟨rfl, hh⟩)
        have hb0 : b = false := by
          cases b with
          | false => rfl
          | true => exact absurd (hbi.mp rfl) hnf
        refine ⟨b, ?_, by simpa using hbi⟩
        rw [tracks_step hsd]
        exact ⟨hb, hb0⟩
      | kill k =>
        refine ⟨b, ?_, by simpa using hbi⟩
        rw [tracks_step hsd]
        exact hb
      | idOp op =>
        refine ⟨b, ?_, by simpa using hbi⟩
        rw [tracks_step hsd]
        exact hb
  exact (key h').2 hg

theorem only_created (s : SM) (h0 : s.table = []) (h : List SIn) (id : Nat) (b : Bool)
    (ht : Tracks (runM smStep s h).1 id b) :
    ∃ A given B, h = A ++ .create given .starts :: B ∧ finalId (runM smStep s A).1.ids.client given = id ∧
      ¬ Gone id B ∧ (b = true ↔ .finish id ∈ B) := by
  have key : ∀ h : List SIn, Sound (runM smStep s h).1 ∧ ∀ id b, Tracks (runM smStep s h).1 id b →
      ∃ A given B, h = A ++ .create given .starts :: B ∧ finalId (runM smStep s A).1.ids.client given = id ∧
      ¬ Gone id B ∧ (b = true ↔ .finish id ∈ B) := by
    intro h
    refine runM_induction (step := smStep) (s0 := s) (P := fun h (u : SM) _ => (Sound u ∧ ∀ id b, Tracks u id b →
      ∃ A given B, h = A ++ .create given .starts :: B ∧ finalId (runM smStep s A).1.ids.client given = id ∧
      ¬ Gone id B ∧ (b = true ↔ .finish id ∈ B))) ?_ ?_ h
    · refine ⟨⟨by simp [h0], by simp [h0]⟩, ?_⟩
      rintro id b ⟨p, hp, _⟩
      simp [h0] at hp
    · rintro is i ⟨hsd, hP⟩
      refine ⟨sound_step hsd i, fun id b ht => ?_⟩
      rw [tracks_step hsd] at ht
      have old : ∀ b, Tracks (runM smStep s is).1 id b → (i = .cleanUp → b = false) → (i ≠ .finish id) →
          ∃ A given B, is ++ [i] = A ++ .create given .starts :: B ∧
            finalId (runM smStep s A).1.ids.client given = id ∧ ¬ Gone id B ∧ (b = true ↔ .finish id ∈ B) := by
        intro b hb hcl hf
        obtain ⟨A, given, B, rfl, h1, h2, h3⟩ := hP id b hb
        refine ⟨A, given, B ++ [i], by simp, h1, ?_, ?_⟩
        · rw [gone_snoc]
          rintro (hh | ⟨rfl, hh⟩)
          · exact h2 hh
          · have := h3.mpr hh
            rw [hcl rfl] at this
            simp at this
        · rw [h3]
          simp only [List.mem_append, List.mem_singleton]
          exact ⟨.inl, fun hh => hh.resolve_right fun he => hf he.symm⟩
      cases i with
      | create given a =>
        cases a with
        | noService => exact old b ht (by simp) (by simp)
        | fails => exact old b ht (by simp) (by simp)
        | starts =>
          rcases ht with ht | ⟨_, _, rfl, rfl⟩
          · exact old b ht (by simp) (by simp)
          · exact ⟨is, given, [], rfl, rfl, by rintro ⟨A, B, e, hA, _⟩; simp_all, by simp⟩
      | finish id' =>
        simp only at ht
        split at ht
        · next hid =>
          subst hid
          obtain ⟨rfl, b', hb'⟩ := ht
          obtain ⟨A, given, B, rfl, h1, h2, h3⟩ := hP id b' hb'
          refine ⟨A, given, B ++ [.finish id], by simp, h1, ?_, by simp⟩
          rw [gone_snoc]
          simpa using h2
        · next hid => exact old b ht (by simp) (by simpa using fun hh => hid hh.symm)
      | cleanUp =>
        exact old b ht.1 (fun _ => ht.2) (by simp)
      | kill k => exact old b ht (by simp) (by simp)
      | idOp op => exact old b ht (by simp) (by simp)
  exact (key h).2 id b ht

/-- C20: a service that was started under an id that no tracked service has is in the table, and stays there, for every
further history, until its thread has ended and a clean-up pass came after that; the table knows whether it ended.
Missing: nothing else keeps its id free (see the `_violated` theorems). -/
theorem C20_tracked_until_gone_partial (s : SM) (h0 : s.table = []) (h h' : List SIn) (given : Int)
    (hr : (runM smStep s h).1.runs = true)
    (hfresh : ∀ p ∈ (runM smStep s h).1.table, p.1 ≠ key (idOf (runM smStep s h).1.ids.client given))
    (hg : ¬ Gone (idOf (runM smStep s h).1.ids.client given) h') :
    ∃ b, Tracks (runM smStep s (h ++ .create given .starts :: h')).1 (idOf (runM smStep s h).1.ids.client given) b ∧
      (b = true ↔ .finish (idOf (runM smStep s h).1.ids.client given) ∈ h') :=
  tracked_until_gone s h0 h h' given hr hfresh hg

/-- C20: every tracked service was started by an earlier request and has not ended before a clean-up pass since. -/
theorem C20_only_created (s : SM) (h0 : s.table = []) (h : List SIn) (id : Nat) (b : Bool)
    (ht : Tracks (runM smStep s h).1 id b) :
    ∃ A given B, h = A ++ .create given .starts :: B ∧ idOf (runM smStep s A).1.ids.client given = id ∧
      ¬ Gone id B ∧ (b = true ↔ .finish id ∈ B) :=
  only_created s h0 h id b ht

/-- C20: a request that reports failure leaves the table as it was; a request is only reported successful when a service was
started, and then it is tracked if its id was free. -/
theorem C20_create_result (s : SM) (h0 : s.table = []) (h : List SIn) (given : Int) (a : Attempt)
    (hr : (runM smStep s h).1.runs = true) :
    ((smStep (runM smStep s h).1 (.create given a)).2 = .created true ↔ a = .starts) ∧
    ((smStep (runM smStep s h).1 (.create given a)).2 ≠ .created true →
      (smStep (runM smStep s h).1 (.create given a)).1.table = (runM smStep s h).1.table) := by
  simp only [smStep, hr, if_true]
  cases a with
  | noService => simp [SM.create]
  | fails => simp [SM.create]
  | starts =>
    simp only [SM.create]
    split <;> simp

/-- C20: `KillService` with -1 asks exactly the tracked services that have not ended to stop, each once; when all of them
have ended the main loop ends. -/
theorem C20_kill_all (s : SM) (h0 : s.table = []) (h : List SIn) (hr : (runM smStep s h).1.runs = true) :
    ∃ ids, (smStep (runM smStep s h).1 (.kill (-1))).2 = .kills ids ∧ ids.Nodup ∧
      (∀ id, id ∈ ids ↔ Tracks (runM smStep s h).1 id false) ∧
      (∀ u, u.mainEnds = true ↔ u.terminating = true ∧ ∀ id, ¬ Tracks u id false) ∧
      (smStep (runM smStep s h).1 (.kill (-1))).1.terminating = true := by
  have hnd := C20_unique_ids s h0 h
  have hne : ¬ ((-1 : Int) = ((runM smStep s h).1.own : Nat)) := by omega
  refine ⟨(runM smStep s h).1.terminateAll, ?_, ?_, ?_, ?_, ?_⟩
  · simp [smStep, hr, hne]
  · exact hnd.sublist (List.filter_sublist.map _)
  · intro id
    simp only [SM.terminateAll, List.mem_map, List.mem_filter, Tracks, Bool.not_eq_true']
    constructor
    · rintro ⟨p, ⟨h1, h2⟩, h3⟩; exact ⟨p, h1, h3, h2⟩
    · rintro ⟨p, h1, h2, h3⟩; exact ⟨p, ⟨h1, h3⟩, h2⟩
  · intro u
    simp only [SM.mainEnds, Bool.and_eq_true, List.isEmpty_iff, List.filter_eq_nil_iff, Tracks, Bool.not_eq_true']
    refine and_congr_right fun _ => ?_
    constructor
    · rintro hh id ⟨p, hp, _, hf⟩
      exact hh p hp hf
    · intro hh p hp hf
      exact hh p.2.id ⟨p, hp, rfl, hf⟩
  · simp [smStep, hr, hne]

/-- C20: the main loop only ends after `KillService` with -1 was received, and when no service that was started runs. -/
theorem C20_ends_only_when_asked (s : SM) (h0 : s.table = []) (ht : s.terminating = false) (h : List SIn)
    (he : (runM smStep s h).1.mainEnds = true) :
    .kill (-1) ∈ h ∧ ∀ id, ¬ Tracks (runM smStep s h).1 id false := by
  simp only [SM.mainEnds, Bool.and_eq_true, List.isEmpty_iff, List.filter_eq_nil_iff, Bool.not_eq_true'] at he
  refine ⟨?_, ?_⟩
  · have key : ∀ (h : List SIn), (runM smStep s h).1.terminating = true → .kill (-1) ∈ h := by
      intro h
      refine runM_induction (step := smStep) (s0 := s)
        (P := fun (h : List SIn) (s : SM) (_ : List SOut) => s.terminating = true → SIn.kill (-1) ∈ h) ?_ ?_ h
      · intro hh; rw [ht] at hh; simp at hh
      · intro h i ih hh
        generalize (runM smStep s h).1 = u at *
        by_cases hi : i = .kill (-1)
        · simp [hi]
        · refine List.mem_append_left _ (ih ?_)
          revert hh
          cases i with
          | create given a =>
            simp only [smStep, SM.create]
            repeat' split
            all_goals exact id
          | finish id => simp [smStep]
          | cleanUp => simp [smStep]
          | kill id =>
            have : id ≠ -1 := fun e => hi (by rw [e])
            simp only [smStep, this, if_false]
            split
            · split <;> simp
            · simp
          | idOp op => simp [smStep]
    exact key h he.1
  · rintro id ⟨p, hp, _, hf⟩
    exact he.2 p hp hf

/-- Non-vacuity: services from the configuration and by message, one that ended. -/
def exServices : List SIn :=
  [.create (-1) .starts, .create 40 .starts, .create 0 .fails, .finish 40, .create (-1) .starts]

example : (runM smStep { own := 10, ids := { client := 11 } } exServices).1.table =
    [(11, { id := 11 }), (40, { id := 40, finished := true }), (14, { id := 14 })] ∧
    (smStep (runM smStep { own := 10, ids := { client := 11 } } exServices).1 (.kill (-1))).2 = .kills [11, 14] := by
  decide +kernel

example : (runM smStep { own := 10, ids := { client := 11 } }
    (exServices ++ [.kill (-1), .finish 11, .cleanUp, .finish 14])).1.mainEnds = true := by decide +kernel

/-- The request of the task manager and a service that keeps its own id. -/
def exCollision : List SIn := [.idOp .draw, .create (-1) .starts, .create 12 .starts]

/-- C20 is false without a free id: the task manager draws the id 12, another service is constructed and gets the same id,
then the request is carried out: it reports success, but the new service is destroyed while its thread runs. -/
theorem C20_collision_violated :
    (runM smStep { own := 10, ids := { client := 11 } } exCollision).2.getLast? = some (.created true) ∧
    (runM smStep { own := 10, ids := { client := 11 } } exCollision).1.table = [(12, { id := 12 })] ∧
    (runM smStep { own := 10, ids := { client := 11 } } exCollision).1.destroyed = [{ id := 12 }] := by decide +kernel

/-- C20 is false for ids beyond 32 bits, since the table is keyed by 32 bits. -/
theorem C20_wide_id_violated (n : Nat) (hn : 0 < n) (s : SM) (h0 : s.table = []) (hr : s.runs = true) :
    ∃ r, r = runM smStep s [.create n .starts, .create (n + 4294967296 : Nat) .starts] ∧
      r.2 = [.created true, .created true] ∧ (∀ b, ¬ Tracks r.1 (n + 4294967296) b) ∧
      r.1.destroyed = { id := n + 4294967296 } :: s.destroyed := by
  refine ⟨_, rfl, ?_⟩
  have e1 : ∀ c, finalId c (n : Int) = n := fun c => by simp [finalId, hn]
  have e2 : ∀ c, finalId c ((n + 4294967296 : Nat) : Int) = n + 4294967296 := fun c => by
    have : ((n + 4294967296 : Nat) : Int) > 0 := by omega
    simp only [finalId, this, if_true]
    omega
  have e3 : key (n + 4294967296) = key n := by simp [key]
  simp only [runM_cons, runM_nil, smStep, hr, if_true, SM.create, h0, e1, e2, e3, List.any_nil, Bool.false_eq_true,
    if_false, List.nil_append, List.any_cons, beq_self_eq_true, Bool.true_or]
  refine ⟨trivial, ?_, trivial⟩
  rintro b ⟨p, hp, h1, _⟩
  simp only [List.mem_singleton] at hp
  rw [hp] at h1
  simp at h1

/-- C20 is false for a `KillService` with the id of the service manager: it stops its own thread, asks no service to stop, and
the main loop goes on as long as a service is tracked. -/
theorem C20_kill_manager_violated (s : SM) (hr : s.runs = true) :
    (smStep s (.kill s.own)).2 = .nothing ∧ (smStep s (.kill s.own)).1.table = s.table ∧
    (smStep s (.kill s.own)).1.runs = false ∧ (smStep s (.kill s.own)).1.terminating = s.terminating ∧
    ∀ given a, (smStep (smStep s (.kill s.own)).1 (.create given a)).2 = .nothing := by
  simp [smStep, hr]

/-! ### Both managers -/

/-- What the service manager gets of the messages of the task manager. -/
def delivered : List TOut → List SIn :=
  List.map fun | .kill n => .kill n | .create c => .create c.serviceId .starts

/-- C24 is false for the threads themselves: the old service only stops when its thread gets to the kill message, and
nothing waits for that before the new one is started. -/
theorem C24_two_alive_violated :
    ∃ s, s = (runM smStep { own := 10, ids := { client := 11 } }
        (delivered (sent {} [.task (exTask 1 .nothing), .task (exTask 1 .nothing)]))).1 ∧
      Tracks s 11 false ∧ Tracks s 12 false := by
  refine ⟨_, rfl, ?_, ?_⟩
  · exact ⟨(11, { id := 11 }), by decide +kernel, rfl, rfl⟩
  · exact ⟨(12, { id := 12 }), by decide +kernel, rfl, rfl⟩

end Verif.Manager
