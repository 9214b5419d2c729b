import Verif.Manager.Escape

/-! Properties of the task manager: C24, C63, C65. -/

namespace Verif.Manager

open Verif

theorem latest_snoc (r : List (Int × Str)) (k id : Int) (v : Str) :
    latest (r ++ [(k, v)]) id = if id = k then some v else latest r id := by
  by_cases h : id = k
  · simp [latest, h]
  · have : k ≠ id := fun hh => h hh.symm
    simp [latest, h, this]

theorem latest_append_nil (r : List (Int × Str)) (id : Int) : latest (r ++ []) id = latest r id := by simp

/-- A map that holds what was reported, in terms of look-up. -/
def Keeps (m : Map Str) (r : List (Int × Str)) : Prop := (m.map (·.1)).Nodup ∧ ∀ id, m.get id = latest r id

theorem Keeps.holds {m : Map Str} {r : List (Int × Str)} (h : Keeps m r) : Holds m r :=
  ⟨h.1, fun id v => by rw [Map.mem_iff_get h.1, h.2]⟩

theorem Keeps.put {m : Map Str} {r : List (Int × Str)} (h : Keeps m r) (k : Int) (v : Str) :
    Keeps (m.put k v) (r ++ [(k, v)]) :=
  ⟨Map.nodup_put h.1 k v, fun id => by rw [Map.get_put, latest_snoc, h.2]⟩

theorem Keeps.puts {m : Map Str} {r : List (Int × Str)} (h : Keeps m r) : ∀ ms : List (Int × Str),
    Keeps (ms.foldl (fun m p => m.put p.1 p.2) m) (r ++ ms)
  | [] => by simpa using h
  | p :: ms => by
    have := (h.put p.1 p.2).puts ms
    simpa using this

/-! ### What is known -/

/-- Everything reported is held. -/
structure Knows (s : TM) (h : List TIn) : Prop where
  configs : Keeps s.configs (configsOf h)
  states : Keeps s.states (statesOf h)
  keepIn : Keeps s.keepIn (keepInOf h)
  keepOut : Keeps s.keepOut (keepOutOf h)
  regions : Keeps s.regions (regionsOf h)
  areas : Keeps s.areas (areasOf h)
  lines : Keeps s.lines (linesOf h)
  points : Keeps s.points (pointsOf h)
  missions : Keeps s.missions (missionsOf h)

/-- The parts that do not change when services are created and killed. -/
def TM.SameKnowledge (s t : TM) : Prop :=
  s.options = t.options ∧ s.configs = t.configs ∧ s.states = t.states ∧ s.keepIn = t.keepIn ∧ s.keepOut = t.keepOut ∧
    s.regions = t.regions ∧ s.areas = t.areas ∧ s.lines = t.lines ∧ s.points = t.points ∧ s.missions = t.missions

theorem TM.SameKnowledge.refl (s : TM) : s.SameKnowledge s := ⟨rfl, rfl, rfl, rfl, rfl, rfl, rfl, rfl, rfl, rfl⟩

theorem TM.SameKnowledge.trans {s t u : TM} (h : s.SameKnowledge t) (h' : t.SameKnowledge u) : s.SameKnowledge u := by
  obtain ⟨a0, a1, a2, a3, a4, a5, a6, a7, a8, a9⟩ := h
  obtain ⟨b0, b1, b2, b3, b4, b5, b6, b7, b8, b9⟩ := h'
  exact ⟨a0.trans b0, a1.trans b1, a2.trans b2, a3.trans b3, a4.trans b4, a5.trans b5, a6.trans b6, a7.trans b7,
    a8.trans b8, a9.trans b9⟩

theorem Knows.congr {s t : TM} {h : List TIn} (hk : Knows s h) (e : t.SameKnowledge s) : Knows t h := by
  obtain ⟨_, a1, a2, a3, a4, a5, a6, a7, a8, a9⟩ := e
  exact ⟨a1 ▸ hk.1, a2 ▸ hk.2, a3 ▸ hk.3, a4 ▸ hk.4, a5 ▸ hk.5, a6 ▸ hk.6, a7 ▸ hk.7, a8 ▸ hk.8, a9 ▸ hk.9⟩

theorem killTask_same (s : TM) (k : Int) : (s.killTask k).1.SameKnowledge s ∧ (s.killTask k).1.ids = s.ids := by
  simp only [TM.killTask]
  split
  · exact ⟨.refl s, rfl⟩
  · exact ⟨.refl s, rfl⟩

theorem killTasks_same : ∀ (ks : List Int) (s : TM), (s.killTasks ks).1.SameKnowledge s ∧ (s.killTasks ks).1.ids = s.ids
  | [], s => ⟨.refl s, rfl⟩
  | k :: ks, s => by
    simp only [TM.killTasks]
    exact ⟨(killTasks_same ks _).1.trans (killTask_same s k).1, (killTasks_same ks _).2.trans (killTask_same s k).2⟩

theorem newTask_same (s : TM) (t : Task) : (s.newTask t).1.SameKnowledge s := by
  have := (killTask_same s t.id).1
  simp only [TM.newTask]
  split
  · exact TM.SameKnowledge.trans (t := (s.killTask t.id).1) (.refl (s.killTask t.id).1) this
  · exact TM.SameKnowledge.trans (t := (s.killTask t.id).1) (.refl (s.killTask t.id).1) this

theorem keeps_nil : Keeps [] [] := ⟨by simp, fun id => by simp [Map.get, latest]⟩

theorem knows_run (o : List ((Int × Str) × Str)) (ids : Net.Ids) (h : List TIn) :
    Knows (runM tmStep { options := o, ids := ids } h).1 h := by
  refine runM_induction (P := fun h s _ => Knows s h) ?_ ?_ h
  · exact ⟨keeps_nil, keeps_nil, keeps_nil, keeps_nil, keeps_nil, keeps_nil, keeps_nil, keeps_nil, keeps_nil⟩
  · intro h i hk
    generalize (runM tmStep { options := o, ids := ids } h).1 = s at hk
    have same : ∀ (j : TIn) (t : TM), (∃ t, j = .task t) ∨ (∃ ks, j = .removeTasks ks) ∨ (∃ op, j = .idOp op) →
        t.SameKnowledge s → Knows t (h ++ [j]) := by
      intro j t hj e
      have := hk.congr e
      rcases hj with ⟨_, rfl⟩ | ⟨_, rfl⟩ | ⟨_, rfl⟩ <;>
        exact ⟨by simpa [configsOf] using this.1, by simpa [statesOf] using this.2, by simpa [keepInOf] using this.3,
            by simpa [keepOutOf] using this.4, by simpa [regionsOf] using this.5, by simpa [areasOf] using this.6,
            by simpa [linesOf] using this.7, by simpa [pointsOf] using this.8, by simpa [missionsOf] using this.9⟩
    cases i with
    | task t => exact same _ _ (.inl ⟨t, rfl⟩) (newTask_same s t)
    | removeTasks ks => exact same _ _ (.inr (.inl ⟨ks, rfl⟩)) (killTasks_same ks s).1
    | idOp op => exact same _ _ (.inr (.inr ⟨op, rfl⟩)) (.refl s)
    | response ms =>
      exact ⟨by simpa [configsOf, tmStep] using hk.1, by simpa [statesOf, tmStep] using hk.2,
        by simpa [keepInOf, tmStep] using hk.3, by simpa [keepOutOf, tmStep] using hk.4,
        by simpa [regionsOf, tmStep] using hk.5, by simpa [areasOf, tmStep] using hk.6,
        by simpa [linesOf, tmStep] using hk.7, by simpa [pointsOf, tmStep] using hk.8,
        by simpa [missionsOf, tmStep] using hk.9.puts ms⟩
    | _ id v =>
      exact ⟨by first | simpa [configsOf, tmStep] using hk.1 | simpa [configsOf, tmStep] using hk.1.put id v,
        by first | simpa [statesOf, tmStep] using hk.2 | simpa [statesOf, tmStep] using hk.2.put id v,
        by first | simpa [keepInOf, tmStep] using hk.3 | simpa [keepInOf, tmStep] using hk.3.put id v,
        by first | simpa [keepOutOf, tmStep] using hk.4 | simpa [keepOutOf, tmStep] using hk.4.put id v,
        by first | simpa [regionsOf, tmStep] using hk.5 | simpa [regionsOf, tmStep] using hk.5.put id v,
        by first | simpa [areasOf, tmStep] using hk.6 | simpa [areasOf, tmStep] using hk.6.put id v,
        by first | simpa [linesOf, tmStep] using hk.7 | simpa [linesOf, tmStep] using hk.7.put id v,
        by first | simpa [pointsOf, tmStep] using hk.8 | simpa [pointsOf, tmStep] using hk.8.put id v,
        by first | simpa [missionsOf, tmStep] using hk.9 | simpa [missionsOf, tmStep] using hk.9.put id v⟩

/-! ### Services created and killed -/

/-- The table of services agrees with the messages sent. -/
structure Agrees (m : Map Nat) (outs : List TOut) : Prop where
  nodup : (m.map (·.1)).Nodup
  order : ∀ A c B, outs = A ++ .create c :: B →
    (m.get c.task.id = some c.serviceId ∧ ∀ c', .create c' ∈ B → c'.task.id ≠ c.task.id) ∨
      ∃ B1 B2, B = B1 ++ .kill c.serviceId :: B2 ∧ ∀ c', .create c' ∈ B1 → c'.task.id ≠ c.task.id
  count : ∀ n, outs.count (.kill n) + (m.filter fun p => p.2 = n).length = (createdIds outs).count n
  prior : ∀ A n B, outs = A ++ .kill n :: B → A.count (.kill n) < (createdIds A).count n
  source : ∀ k n, m.get k = some n → ∃ A c B, outs = A ++ .create c :: B ∧ c.task.id = k ∧ c.serviceId = n ∧
    ∀ c', .create c' ∈ B → c'.task.id ≠ k

theorem snoc_split {α : Type} {xs A B : List α} {x y : α} (h : xs ++ [x] = A ++ y :: B) :
    (B = [] ∧ A = xs ∧ y = x) ∨ ∃ B', B = B' ++ [x] ∧ xs = A ++ y :: B' := by
  rcases List.eq_nil_or_concat B with rfl | ⟨B', z, rfl⟩
  · have := List.append_inj' h rfl
    exact .inl ⟨rfl, this.1.symm, by simpa using this.2.symm⟩
  · rw [List.concat_eq_append, ← List.cons_append, ← List.append_assoc] at h
    have := List.append_inj' h rfl
    refine .inr ⟨B', ?_, this.1⟩
    have h2 := this.2
    simp only [List.cons.injEq, and_true] at h2
    simp [h2]

theorem createdIds_append (a b : List TOut) : createdIds (a ++ b) = createdIds a ++ createdIds b := by
  simp [createdIds]

theorem Agrees.kill {m : Map Nat} {outs : List TOut} (h : Agrees m outs) {k : Int} {n : Nat} (hg : m.get k = some n) :
    Agrees (m.del k) (outs ++ [.kill n]) where
  nodup := Map.nodup_del h.nodup k
  order := by
    intro A c B e
    rcases snoc_split e with ⟨_, _, hc⟩ | ⟨B', rfl, e'⟩
    · simp at hc
    · rcases h.order A c B' e' with ⟨h1, h2⟩ | ⟨B1, B2, rfl, h2⟩
      · by_cases hk : c.task.id = k
        · rw [hk, hg] at h1
          simp only [Option.some.injEq] at h1
          exact .inr ⟨B', [], by rw [h1], h2⟩
        · refine .inl ⟨by rw [Map.get_del, if_neg hk, h1], ?_⟩
          intro c' hc'
          simp only [List.mem_append, List.mem_singleton, reduceCtorEq, or_false] at hc'
          exact h2 c' hc'
      · exact .inr ⟨B1, B2 ++ [.kill n], by simp, h2⟩
  count := by
    intro n'
    have := h.count n'
    have h2 := Map.length_del h.nodup hg (fun x => decide (x = n'))
    simp only [decide_eq_true_eq] at h2
    rw [createdIds_append, List.count_append, List.count_append]
    have e1 : (createdIds [TOut.kill n]).count n' = 0 := by simp [createdIds]
    have e2 : [TOut.kill n].count (TOut.kill n') = if n = n' then 1 else 0 := by
      by_cases hn : n = n'
      · simp [hn]
      · simp [List.count_singleton, hn]
    omega
  prior := by
    intro A n' B e
    rcases snoc_split e with ⟨_, rfl, hc⟩ | ⟨B', rfl, e'⟩
    · simp only [TOut.kill.injEq] at hc
      subst hc
      have := h.count n'
      have h2 := Map.length_del h.nodup hg (fun x => decide (x = n'))
      simp only [decide_true, if_true] at h2
      omega
    · exact h.prior A n' B' e'
  source := by
    intro k' n' hg'
    rw [Map.get_del] at hg'
    split at hg'
    · simp at hg'
    · obtain ⟨A, c, B, rfl, h1, h2, h3⟩ := h.source k' n' hg'
      refine ⟨A, c, B ++ [.kill n], by simp, h1, h2, ?_⟩
      intro c' hc'
      simp only [List.mem_append, List.mem_singleton, reduceCtorEq, or_false] at hc'
      exact h3 c' hc'

theorem Agrees.create {m : Map Nat} {outs : List TOut} (h : Agrees m outs) {c : Create}
    (hg : m.get c.task.id = none) : Agrees (m.put c.task.id c.serviceId) (outs ++ [.create c]) where
  nodup := Map.nodup_put h.nodup _ _
  order := by
    intro A c' B e
    rcases snoc_split e with ⟨rfl, _, hc⟩ | ⟨B', rfl, e'⟩
    · simp only [TOut.create.injEq] at hc
      subst hc
      exact .inl ⟨by simp [Map.get_put], by simp⟩
    · rcases h.order A c' B' e' with ⟨h1, h2⟩ | ⟨B1, B2, rfl, h2⟩
      · have hk : c'.task.id ≠ c.task.id := by
          intro hh
          rw [hh, hg] at h1
          simp at h1
        refine .inl ⟨by rw [Map.get_put, if_neg hk, h1], ?_⟩
        intro d hd
        simp only [List.mem_append, List.mem_singleton, TOut.create.injEq] at hd
        rcases hd with hd | rfl
        · exact h2 d hd
        · exact fun hh => hk hh.symm
      · exact .inr ⟨B1, B2 ++ [.create c], by simp, h2⟩
  count := by
    intro n
    have := h.count n
    rw [createdIds_append, List.count_append, List.count_append]
    have e0 : m.del c.task.id = m := by
      refine List.filter_eq_self.mpr fun q hq => ?_
      have : q.1 ≠ c.task.id := by
        intro hh
        have := (Map.mem_iff_get h.nodup q.1 q.2).mp hq
        rw [hh, hg] at this
        simp at this
      simpa using this
    have e1 : (createdIds [TOut.create c]).count n = if c.serviceId = n then 1 else 0 := by
      simp [createdIds, List.count_singleton]
    have e2 : [TOut.create c].count (TOut.kill n) = 0 := by simp [List.count_singleton]
    simp only [Map.put, e0, List.filter_cons]
    split at e1
    · next hn => simp [hn]; omega
    · next hn => simp [hn]; omega
  prior := by
    intro A n B e
    rcases snoc_split e with ⟨_, rfl, hc⟩ | ⟨B', rfl, e'⟩
    · simp at hc
    · exact h.prior A n B' e'
  source := by
    intro k n hg'
    rw [Map.get_put] at hg'
    split at hg'
    · next hk =>
      simp only [Option.some.injEq] at hg'
      exact ⟨outs, c, [], rfl, hk.symm, hg', by simp⟩
    · next hk =>
      obtain ⟨A, d, B, rfl, h1, h2, h3⟩ := h.source k n hg'
      refine ⟨A, d, B ++ [.create c], by simp, h1, h2, ?_⟩
      intro c' hc'
      simp only [List.mem_append, List.mem_singleton, TOut.create.injEq] at hc'
      rcases hc' with hc' | rfl
      · exact h3 c' hc'
      · exact fun hh => hk hh.symm

theorem killTask_agrees {s : TM} {outs : List TOut} (h : Agrees s.services outs) (k : Int) :
    Agrees (s.killTask k).1.services (outs ++ (s.killTask k).2) ∧ (s.killTask k).1.services.get k = none := by
  simp only [TM.killTask]
  split
  · next n hn => exact ⟨h.kill hn, by simp [Map.get_del]⟩
  · next hn => exact ⟨by simpa using h, hn⟩

theorem killTasks_agrees : ∀ (ks : List Int) {s : TM} {outs : List TOut}, Agrees s.services outs →
    Agrees (s.killTasks ks).1.services (outs ++ (s.killTasks ks).2)
  | [], _, _, h => by simpa [TM.killTasks] using h
  | k :: ks, s, outs, h => by
    have := killTasks_agrees ks (killTask_agrees h k).1
    simpa [TM.killTasks] using this

theorem newTask_agrees {s : TM} {outs : List TOut} (h : Agrees s.services outs) (t : Task) :
    Agrees (s.newTask t).1.services (outs ++ (s.newTask t).2) := by
  obtain ⟨h1, h2⟩ := killTask_agrees h t.id
  simp only [TM.newTask]
  split
  · have := h1.create (c := TM.createMsg { (s.killTask t.id).1 with
        ids := { (s.killTask t.id).1.ids with client := (s.killTask t.id).1.nextId } } (s.killTask t.id).1.nextId t) h2
    simpa [TM.createMsg] using this
  · exact h1

theorem step_agrees {s : TM} {outs : List TOut} (h : Agrees s.services outs) (i : TIn) :
    Agrees (tmStep s i).1.services (outs ++ (tmStep s i).2) := by
  cases i with
  | task t => exact newTask_agrees h t
  | removeTasks ks => exact killTasks_agrees ks h
  | _ => simpa [tmStep] using h

theorem run_agrees (o : List ((Int × Str) × Str)) (ids : Net.Ids) (h : List TIn) :
    Agrees (runM tmStep { options := o, ids := ids } h).1.services (sent { options := o, ids := ids } h) := by
  refine runM_induction (P := fun _ (s : TM) (outs : List (List TOut)) => Agrees s.services outs.flatten) ?_ ?_ h
  · exact ⟨by simp, by simp, by simp [createdIds], by simp, by simp [Map.get]⟩
  · intro is i hP
    simpa using step_agrees hP i

/-! ### Numbers of the services -/

/-- No number is used twice while the counter does not wrap. -/
structure Numbered (s : TM) (outs : List TOut) : Prop where
  nodup : (createdIds outs).Nodup
  bound : ∀ n ∈ createdIds outs, n ≤ s.ids.client

theorem createdIds_kill {outs : List TOut} (h : ∀ o ∈ outs, ∃ n, o = .kill n) : createdIds outs = [] := by
  induction outs with
  | nil => rfl
  | cons o outs ih =>
    obtain ⟨n, rfl⟩ := h o (by simp)
    simpa [createdIds] using ih fun o ho => h o (by simp [ho])

theorem killTask_kills (s : TM) (k : Int) : ∀ o ∈ (s.killTask k).2, ∃ n, o = .kill n := by
  simp only [TM.killTask]
  split <;> simp

theorem killTasks_kills : ∀ (ks : List Int) (s : TM), ∀ o ∈ (s.killTasks ks).2, ∃ n, o = .kill n
  | [], _ => by simp [TM.killTasks]
  | k :: ks, s => by
    simp only [TM.killTasks, List.mem_append]
    rintro o (h | h)
    · exact killTask_kills s k o h
    · exact killTasks_kills ks _ o h

theorem inc32_of_lt {n : Nat} (h : n + 1 < 4294967296) : Net.inc32 n = n + 1 := Nat.mod_eq_of_lt h

theorem newTask_client (s : TM) (t : Task) : (s.newTask t).1.ids.client = Net.inc32 s.ids.client := by
  simp only [TM.newTask]
  split <;> simp [TM.nextId, (killTask_same s t.id).2]

theorem step_client (s : TM) (i : TIn) (h : s.ids.client + 1 < 4294967296) :
    s.ids.client ≤ (tmStep s i).1.ids.client ∧ (tmStep s i).1.ids.client ≤ s.ids.client + 1 := by
  cases i with
  | task t => simp only [tmStep, newTask_client, inc32_of_lt h]; omega
  | removeTasks ks => simp [tmStep, (killTasks_same ks s).2]
  | idOp op => cases op <;> simp [tmStep, Net.idStep, inc32_of_lt h]
  | _ => simp [tmStep]

theorem newTask_out (s : TM) (t : Task) : ∃ ks, (∀ o ∈ ks, ∃ n, o = TOut.kill n) ∧ ks = (s.killTask t.id).2 ∧
    (s.good t = false ∧ (s.newTask t).2 = ks ∨ s.good t = true ∧ ∃ c, (s.newTask t).2 = ks ++ [.create c] ∧
      c.serviceId = Net.inc32 s.ids.client ∧ c.task = t ∧ c = s.createMsg (Net.inc32 s.ids.client) t) := by
  refine ⟨(s.killTask t.id).2, killTask_kills s t.id, rfl, ?_⟩
  obtain ⟨⟨a0, a1, a2, a3, a4, a5, a6, a7, a8, a9⟩, a10⟩ := killTask_same s t.id
  have hg : ∀ ids, TM.good { (s.killTask t.id).1 with ids := ids } t = s.good t := by
    intro ids
    simp only [TM.good, a6, a7, a8]
  have hc : ∀ ids n, TM.createMsg { (s.killTask t.id).1 with ids := ids } n t = s.createMsg n t := by
    intro ids n
    simp only [TM.createMsg, a0, a1, a2, a3, a4, a5, a6, a7, a8, a9]
  simp only [TM.newTask, hg]
  split
  · next hgood =>
    refine .inr ⟨hgood, s.createMsg (Net.inc32 s.ids.client) t, ?_, rfl, rfl, rfl⟩
    simp only [hc, TM.nextId, a10]
  · next hgood => exact .inl ⟨by simpa using hgood, rfl⟩

theorem step_numbered {s : TM} {outs : List TOut} (h : Numbered s outs) (hw : s.ids.client + 1 < 4294967296) (i : TIn) :
    Numbered (tmStep s i).1 (outs ++ (tmStep s i).2) := by
  have hcl := step_client s i hw
  have keep : createdIds (tmStep s i).2 = [] → Numbered (tmStep s i).1 (outs ++ (tmStep s i).2) := by
    intro e
    refine ⟨by rw [createdIds_append, e]; simpa using h.nodup, fun n hn => ?_⟩
    rw [createdIds_append, e, List.append_nil] at hn
    exact Nat.le_trans (h.bound n hn) hcl.1
  cases i with
  | task t =>
    obtain ⟨ks, hk, _, ⟨_, e⟩ | ⟨_, c, e, hs, _⟩⟩ := newTask_out s t
    · exact keep (by rw [show (tmStep s (.task t)).2 = ks from e]; exact createdIds_kill hk)
    · have e' : createdIds (tmStep s (.task t)).2 = [c.serviceId] := by
        rw [show (tmStep s (.task t)).2 = ks ++ [.create c] from e, createdIds_append, createdIds_kill hk]
        rfl
      rw [inc32_of_lt hw] at hs
      refine ⟨?_, ?_⟩
      · rw [createdIds_append, e']
        refine List.nodup_append.mpr ⟨h.nodup, by simp, ?_⟩
        intro a ha b hb
        simp only [List.mem_singleton] at hb
        have := h.bound a ha
        omega
      · intro n hn
        rw [createdIds_append, e'] at hn
        simp only [List.mem_append, List.mem_singleton] at hn
        have hc2 : (tmStep s (.task t)).1.ids.client = s.ids.client + 1 := by
          simp only [tmStep, newTask_client, inc32_of_lt hw]
        rcases hn with hn | hn
        · have := h.bound n hn; omega
        · omega
  | removeTasks ks => exact keep (createdIds_kill (killTasks_kills ks s))
  | _ => exact keep (by simp [tmStep, createdIds])

theorem run_numbered (o : List ((Int × Str) × Str)) (ids : Net.Ids) (h : List TIn)
    (hw : ids.client + h.length < 4294967296) :
    Numbered (runM tmStep { options := o, ids := ids } h).1 (sent { options := o, ids := ids } h) ∧
      (runM tmStep { options := o, ids := ids } h).1.ids.client ≤ ids.client + h.length := by
  refine runM_induction (step := tmStep) (s0 := { options := o, ids := ids })
    (P := fun (h : List TIn) (s : TM) (outs : List (List TOut)) => ids.client + h.length < 4294967296 → Numbered s outs.flatten ∧
      s.ids.client ≤ ids.client + h.length) ?_ ?_ h hw
  · intro _
    exact ⟨⟨by simp [createdIds], by simp [createdIds]⟩, by simp⟩
  · intro is i hP hlen
    simp only [List.length_append, List.length_singleton] at hlen
    obtain ⟨h1, h2⟩ := hP (by omega)
    refine ⟨by simpa using step_numbered h1 (by omega) i, ?_⟩
    have := (step_client (runM tmStep { options := o, ids := ids } is).1 i (by omega)).2
    simp only [List.length_append, List.length_singleton]
    omega

/-- The table is what the messages say. -/
theorem live_iff {m : Map Nat} {outs : List TOut} (h : Agrees m outs) (hn : (createdIds outs).Nodup) (k : Int) (n : Nat) :
    Live outs k n ↔ m.get k = some n := by
  constructor
  · rintro ⟨A, c, B, e, rfl, rfl, h1, h2⟩
    rcases h.order A c B e with ⟨h3, _⟩ | ⟨B1, B2, rfl, _⟩
    · exact h3
    · simp at h1
  · intro hg
    obtain ⟨A, c, B, e, h1, h2, h3⟩ := h.source k n hg
    refine ⟨A, c, B, e, h1, h2, ?_, h3⟩
    intro hk
    have hc := h.count n
    have h4 : (createdIds outs).count n ≤ 1 := List.nodup_iff_count.mp hn n
    have h5 : 0 < outs.count (.kill n) := List.count_pos_iff.mpr (by rw [e]; simp [hk])
    have h6 : 0 < (m.filter fun p => p.2 = n).length := by
      refine List.length_pos_iff_exists_mem.mpr ⟨(k, n), ?_⟩
      simp [(Map.mem_iff_get h.nodup k n).mpr hg]
    omega

/-! ### C24 -/

/-- C24: in every history, between two services for the same task the first one is killed. -/
theorem C24_old_killed_before_new (o : List ((Int × Str) × Str)) (ids : Net.Ids) (h : List TIn) (A B C : List TOut)
    (c d : Create) (e : sent { options := o, ids := ids } h = A ++ .create c :: (B ++ .create d :: C))
    (hid : c.task.id = d.task.id) : .kill c.serviceId ∈ B := by
  rcases (run_agrees o ids h).order A c _ e with ⟨_, h2⟩ | ⟨B1, B2, e', h2⟩
  · exact absurd hid.symm (h2 d (by simp))
  · rcases List.append_eq_append_iff.mp e' with ⟨a, rfl, e2⟩ | ⟨a, rfl, e2⟩
    · cases a with
      | nil => simp at e2
      | cons x a =>
        simp only [List.cons_append, List.cons.injEq] at e2
        obtain ⟨rfl, _⟩ := e2
        exact absurd hid.symm (h2 d (by simp))
    · cases a with
      | nil => simp at e2
      | cons x a =>
        simp only [List.cons_append, List.cons.injEq] at e2
        simp [e2.1]

/-- C24: in every history, a service is killed at most as often as it was asked for before; in particular only services
that were asked for are killed. -/
theorem C24_kills_created (o : List ((Int × Str) × Str)) (ids : Net.Ids) (h : List TIn) (A B : List TOut) (n : Nat)
    (e : sent { options := o, ids := ids } h = A ++ .kill n :: B) : A.count (.kill n) < (createdIds A).count n :=
  (run_agrees o ids h).prior A n B e

/-- C24: as long as the counter does not wrap, the services asked for have different ids. -/
theorem C24_fresh_ids_partial (o : List ((Int × Str) × Str)) (ids : Net.Ids) (h : List TIn)
    (hw : ids.client + h.length < 4294967296) : (createdIds (sent { options := o, ids := ids } h)).Nodup :=
  (run_numbered o ids h hw).1.nodup

theorem good_iff {s : TM} {h : List TIn} (hk : Knows s h) (t : Task) : s.good t = true ↔ Known h t := by
  cases hn : t.needs with
  | area id => simp [TM.good, Known, hn, hk.areas.2 id, Option.isSome_iff_ne_none]
  | line id => simp [TM.good, Known, hn, hk.lines.2 id, Option.isSome_iff_ne_none]
  | point id => by_cases h0 : id > 0 <;> simp [TM.good, Known, hn, hk.points.2 id, h0, Option.isSome_iff_ne_none]
  | escort => simp [TM.good, Known, hn]
  | nothing => simp [TM.good, Known, hn]

/-- C24 (while the counter of ids does not wrap): on a task, the service of the same task, if there is one, is killed
first; then a service with a new id is asked for exactly if what the task needs is known. -/
theorem C24_task_partial (o : List ((Int × Str) × Str)) (ids : Net.Ids) (h : List TIn) (t : Task)
    (hw : ids.client + h.length + 1 < 4294967296) :
    ∃ (kills : List Nat) (creates : List Create), reply { options := o, ids := ids } h (.task t) = kills.map .kill ++ creates.map .create ∧
      kills.length ≤ 1 ∧ (∀ n, n ∈ kills ↔ Live (sent { options := o, ids := ids } h) t.id n) ∧
      (Known h t → ∃ c, creates = [c] ∧ c.task = t ∧
        c.serviceId ∉ createdIds (sent { options := o, ids := ids } h)) ∧
      (¬ Known h t → creates = []) := by
  have ha := run_agrees o ids h
  obtain ⟨hn, hcl⟩ := run_numbered o ids h (by omega)
  have hk := knows_run o ids h
  have hl := live_iff ha hn.nodup t.id
  have hb := hn.bound
  simp only [reply, tmStep]
  generalize (runM tmStep { options := o, ids := ids } h).1 = s at *
  obtain ⟨ks, _, rfl, hh⟩ := newTask_out s t
  obtain ⟨kills, e1, e2, e3⟩ : ∃ kills : List Nat, (s.killTask t.id).2 = kills.map .kill ∧ kills.length ≤ 1 ∧
      ∀ n, n ∈ kills ↔ s.services.get t.id = some n := by
    simp only [TM.killTask]
    split
    · next n hn => exact ⟨[n], rfl, by simp, fun m => by rw [hn]; simp [eq_comm]⟩
    · next hn => exact ⟨[], rfl, by simp, fun m => by rw [hn]; simp⟩
  rcases hh with ⟨hgood, e⟩ | ⟨hgood, c, e, hs, hc, _⟩
  · have hun : ¬ Known h t := fun hh => by rw [← good_iff hk, hgood] at hh; simp at hh
    exact ⟨kills, [], by rw [e, e1]; simp, e2, fun n => by rw [e3, hl], fun hh => absurd hh hun, fun _ => rfl⟩
  · have hun : Known h t := (good_iff hk t).mp hgood
    refine ⟨kills, [c], by rw [e, e1]; simp, e2, fun n => by rw [e3, hl], fun _ => ⟨c, rfl, hc, ?_⟩, fun hh => absurd hun hh⟩
    intro hm
    have := hb _ hm
    rw [hs, inc32_of_lt (by omega)] at this
    omega

theorem killTasks_mem : ∀ (ks : List Int) {s : TM}, (s.services.map (·.1)).Nodup → ∀ n,
    (.kill n ∈ (s.killTasks ks).2 ↔ ∃ k ∈ ks, s.services.get k = some n)
  | [], _, _, _ => by simp [TM.killTasks]
  | k :: ks, s, hnd, n => by
    simp only [TM.killTasks, List.mem_append, List.mem_cons, exists_eq_or_imp]
    have hnd' : ((s.killTask k).1.services.map (·.1)).Nodup := by
      simp only [TM.killTask]
      split
      · exact Map.nodup_del hnd k
      · exact hnd
    rw [killTasks_mem ks hnd' n]
    have h1 : ∀ k', (s.killTask k).1.services.get k' = if k' = k then none else s.services.get k' := by
      intro k'
      simp only [TM.killTask]
      split
      · exact Map.get_del ..
      · next hn =>
        split
        · next hk => rw [hk, hn]
        · rfl
    have h2 : .kill n ∈ (s.killTask k).2 ↔ s.services.get k = some n := by
      simp only [TM.killTask]
      split
      · next m hm => rw [hm]; simp [eq_comm]
      · next hm => rw [hm]; simp
    rw [h2]
    constructor
    · rintro (hh | ⟨k', hk', hh⟩)
      · exact .inl hh
      · rw [h1] at hh
        split at hh
        · simp at hh
        · exact .inr ⟨k', hk', hh⟩
    · rintro (hh | ⟨k', hk', hh⟩)
      · exact .inl hh
      · by_cases hkk : k' = k
        · exact .inl (hkk ▸ hh)
        · exact .inr ⟨k', hk', by rw [h1, if_neg hkk, hh]⟩

/-- C24 (while the counter of ids does not wrap): `RemoveTasks` kills exactly the services of the listed tasks, each
once, and sends nothing else; afterwards none of the listed tasks has a service. -/
theorem C24_remove_partial (o : List ((Int × Str) × Str)) (ids : Net.Ids) (h : List TIn) (ks : List Int)
    (hw : ids.client + h.length + 1 < 4294967296) :
    (∀ out ∈ reply { options := o, ids := ids } h (.removeTasks ks), ∃ n, out = .kill n) ∧
    (∀ n, .kill n ∈ reply { options := o, ids := ids } h (.removeTasks ks) ↔
      ∃ k ∈ ks, Live (sent { options := o, ids := ids } h) k n) ∧
    (reply { options := o, ids := ids } h (.removeTasks ks)).Nodup ∧
    ∀ k ∈ ks, ∀ n, ¬ Live (sent { options := o, ids := ids } (h ++ [.removeTasks ks])) k n := by
  have ha := run_agrees o ids h
  have ha' := run_agrees o ids (h ++ [.removeTasks ks])
  obtain ⟨hn, hcl⟩ := run_numbered o ids h (by omega)
  obtain ⟨hn', _⟩ := run_numbered o ids (h ++ [.removeTasks ks]) (by simp; omega)
  have hmem := killTasks_mem ks ha.nodup
  have hl := live_iff ha hn.nodup
  have hl' := live_iff ha' hn'.nodup
  have hsent : sent { options := o, ids := ids } (h ++ [.removeTasks ks]) = sent { options := o, ids := ids } h ++
      reply { options := o, ids := ids } h (.removeTasks ks) := by
    simp [sent, reply, runM_snoc]
  refine ⟨killTasks_kills ks _, ?_, ?_, ?_⟩
  · intro n
    have := hmem n
    simp only [reply, tmStep, this]
    constructor
    · rintro ⟨k, hk, hg⟩; exact ⟨k, hk, (hl k n).mpr hg⟩
    · rintro ⟨k, hk, hg⟩; exact ⟨k, hk, (hl k n).mp hg⟩
  · rw [List.nodup_iff_count]
    intro out
    by_cases hm : out ∈ reply { options := o, ids := ids } h (.removeTasks ks)
    · obtain ⟨n, rfl⟩ := killTasks_kills ks _ out hm
      have hc := ha'.count n
      have h4 := List.nodup_iff_count.mp hn'.nodup n
      rw [hsent, List.count_append] at hc
      rw [hsent] at h4
      omega
    · rw [List.count_eq_zero_of_not_mem hm]; omega
  · intro k hk n hlive
    obtain ⟨A, c, B, e, rfl, rfl, h1, h2⟩ := hlive
    rcases ha'.order A c B e with ⟨hg, hno⟩ | ⟨B1, B2, rfl, _⟩
    · have hlv := (hl' c.task.id c.serviceId).mpr hg
      have hkk : c.task.id ∈ ks := hk
      -- the table has no entry for a listed task
      have hnone : ∀ (ls : List Int) (s : TM) (k : Int), (s.services.get k = none ∨ k ∈ ls) →
          (s.killTasks ls).1.services.get k = none := by
        intro ls
        induction ls with
        | nil => intro s k h; simpa [TM.killTasks] using h
        | cons l ls ih =>
          intro s k h
          simp only [TM.killTasks]
          refine ih _ _ ?_
          simp only [TM.killTask]
          split
          · next m hm =>
            simp only [Map.get_del]
            by_cases hkl : k = l
            · simp [hkl]
            · rcases h with h | h
              · simp [h]
              · simp only [List.mem_cons] at h
                exact .inr (h.resolve_left hkl)
          · next hm =>
            rcases h with h | h
            · exact .inl h
            · simp only [List.mem_cons] at h
              rcases h with rfl | h
              · exact .inl hm
              · exact .inr h
      rw [runM_snoc] at hg
      have := hnone ks (runM tmStep { options := o, ids := ids } h).1 c.task.id (.inr hkk)
      simp only [tmStep, this] at hg
      simp at hg
    · simp at h1

/-- C24: nothing is sent on other messages. -/
theorem C24_silent (o : List ((Int × Str) × Str)) (ids : Net.Ids) (h : List TIn) (i : TIn)
    (h1 : ∀ t, i ≠ .task t) (h2 : ∀ ks, i ≠ .removeTasks ks) : reply { options := o, ids := ids } h i = [] := by
  cases i with
  | task t => exact absurd rfl (h1 t)
  | removeTasks ks => exact absurd rfl (h2 ks)
  | _ => rfl

/-- Non-vacuity of the claims of C24: a task that is sent again, and removed; one that needs an unknown area. -/
def exTask (id : Int) (needs : Needs) : Task := { id, type := "a".toList, xml := "<x/>".toList, needs }

/-- Not in the code: an example. -/
def exHistory : List TIn :=
  [.task (exTask 1 .nothing), .task (exTask 2 (.area 5)), .area 5 "A".toList, .task (exTask 2 (.area 5)),
    .task (exTask 1 .nothing), .removeTasks [2, 7, 2]]

example : (sent {} exHistory).map (fun | .kill n => (n, none) | .create c => (c.serviceId, some c.task.id)) =
    [(11, some 1), (13, some 2), (11, none), (14, some 1), (13, none)] := by decide +kernel

/-! ### C63 -/

/-- C63: the message that asks for a service carries, for every id, the configurations, states, zones and regions
reported last, and the area, line or point the task needs; an escort task gets all lines and current missions. -/
theorem C63_knowledge (o : List ((Int × Str) × Str)) (ids : Net.Ids) (h : List TIn) (t : Task) (c : Create)
    (hc : .create c ∈ reply { options := o, ids := ids } h (.task t)) :
    c.task = t ∧ c.xml = escape (serviceXml o t) ∧
    Holds c.configs (configsOf h) ∧ Holds c.states (statesOf h) ∧ Holds c.keepIn (keepInOf h) ∧
    Holds c.keepOut (keepOutOf h) ∧ Holds c.regions (regionsOf h) ∧
    (∀ id, t.needs = .area id → ∃ v, c.areas = [v] ∧ latest (areasOf h) id = some v) ∧
    (∀ id, t.needs = .line id → ∃ v, c.lines = [v] ∧ latest (linesOf h) id = some v) ∧
    (∀ id, t.needs = .point id → id > 0 → ∃ v, c.points = [v] ∧ latest (pointsOf h) id = some v) ∧
    (t.needs = .escort → Holds c.missions (missionsOf h) ∧
      ∃ ls, Holds ls (linesOf h) ∧ c.lines = ls.map (·.2)) := by
  have hk := knows_run o ids h
  have ho : (runM tmStep { options := o, ids := ids } h).1.options = o := by
    refine runM_induction (P := fun _ (s : TM) _ => s.options = o) rfl ?_ h
    intro is i hs
    cases i with
    | task t => exact (newTask_same _ t).1.trans hs
    | removeTasks ks => exact (killTasks_same ks _).1.1.trans hs
    | _ => exact hs
  simp only [reply, tmStep] at hc
  generalize (runM tmStep { options := o, ids := ids } h).1 = s at *
  obtain ⟨ks, hks, rfl, hh⟩ := newTask_out s t
  rcases hh with ⟨_, e⟩ | ⟨hgood, d, e, _, _, hd⟩
  · rw [e] at hc
    obtain ⟨n, hn⟩ := hks _ hc
    simp at hn
  · rw [e] at hc
    simp only [List.mem_append, List.mem_singleton, TOut.create.injEq] at hc
    rcases hc with hc | rfl
    · obtain ⟨n, hn⟩ := hks _ hc
      simp at hn
    · subst hd
      refine ⟨rfl, by simp [TM.createMsg, ho], hk.configs.holds, hk.states.holds, hk.keepIn.holds, hk.keepOut.holds,
        hk.regions.holds, ?_, ?_, ?_, ?_⟩
      · intro id hid
        simp only [TM.good, hid] at hgood
        obtain ⟨v, hv⟩ := Option.isSome_iff_exists.mp hgood
        exact ⟨v, by simp [TM.createMsg, hid, hv], by rw [← hk.areas.2, hv]⟩
      · intro id hid
        simp only [TM.good, hid] at hgood
        obtain ⟨v, hv⟩ := Option.isSome_iff_exists.mp hgood
        exact ⟨v, by simp [TM.createMsg, hid, hv], by rw [← hk.lines.2, hv]⟩
      · intro id hid hpos
        simp only [TM.good, hid, hpos, if_true] at hgood
        obtain ⟨v, hv⟩ := Option.isSome_iff_exists.mp hgood
        exact ⟨v, by simp [TM.createMsg, hid, hv, hpos], by rw [← hk.points.2, hv]⟩
      · intro hesc
        exact ⟨by simpa [TM.createMsg, hesc] using hk.missions.holds,
          s.lines, hk.lines.holds, by simp [TM.createMsg, hesc]⟩

/-- Non-vacuity: reports that are replaced, an escort. -/
example : ∃ c, TOut.create c ∈ reply {} [.config 1 ['a'], .line 3 ['l'], .config 1 ['b'], .mission 4 ['m'],
    .response [(4, ['n']), (5, ['o'])]] (.task (exTask 1 .escort)) ∧ c.configs = [(1, ['b'])] ∧ c.lines = [['l']] ∧
    c.missions = [(5, ['o']), (4, ['n'])] := by
  refine ⟨TM.createMsg { configs := [(1, ['b'])], lines := [(3, ['l'])], missions := [(5, ['o']), (4, ['n'])] } 11
    (exTask 1 .escort), ?_, rfl, rfl, rfl⟩
  decide +kernel

/-! ### C65 -/

theorem optGet_table (es : List OptEntry) (k : Int × Str) :
    optGet (optTable es) k = texts (es.filter fun e => e.key = k) := by
  induction es with
  | nil => rfl
  | cons e es ih =>
    simp only [optGet, optTable, texts, List.filter_cons] at ih ⊢
    by_cases ht : e.text = []
    · simp only [ht, List.isEmpty_nil, Bool.not_true, Bool.false_eq_true, if_false, ih]
      split <;> simp [ht]
    · have : (!e.text.isEmpty) = true := by simpa using ht
      simp only [this, if_true, List.map_cons, List.filter_cons]
      by_cases hk : e.key = k
      · simpa [hk] using ih
      · simpa [hk] using ih

/-- C65: the options of a task are those of the entries without id and type, followed by those of the entries with its
id if there are any, and otherwise by those of the entries with its type.  Only for entries and tasks with an id other
than 0, entries with options, and no entry with the type text used inside for "no type". -/
theorem C65_options_partial (es : List OptEntry) (t : Task) (hid : t.id ≠ 0) (hty : t.type ≠ noType)
    (hes : ∀ e ∈ es, e.taskId ≠ some 0 ∧ e.taskType ≠ some noType ∧ e.options ≠ []) :
    optionsFor (optTable es) t =
      texts (globalEntries es) ++
        if idEntries es t.id ≠ [] then texts (idEntries es t.id) else texts (typeEntries es t.type) := by
  have htext : ∀ e ∈ es, e.text ≠ [] := by
    intro e he hh
    obtain ⟨_, _, h3⟩ := hes e he
    simp only [OptEntry.text] at hh
    cases ho : e.options with
    | nil => exact h3 ho
    | cons p ps =>
      rw [ho] at hh
      simp only [List.map_cons, List.flatten_cons, List.append_eq_nil_iff] at hh
      have := hh.1
      split at this <;> simp at this
  have hkey : ∀ e ∈ es, ∀ k, (e.key = (0, noType) ↔ e.taskId = none ∧ e.taskType = none) ∧
      (e.key = (t.id, noType) ↔ e.taskId = some t.id) ∧
      (e.key = (0, t.type) ↔ e.taskId = none ∧ e.taskType = some t.type) ∧ (e.key.1 = k → k ≠ 0 → e.taskId = some k) ∧
      (e.taskId = some k → e.key.1 = k) := by
    intro e he k
    obtain ⟨h1, h2, _⟩ := hes e he
    simp only [OptEntry.key]
    cases hi : e.taskId with
    | some i =>
      rw [hi] at h1
      simp only [ne_eq, Option.some.injEq] at h1
      simp [h1]
      exact fun hh _ => hh
    | none =>
      cases ht : e.taskType with
      | some ty =>
        rw [ht] at h2
        simp only [ne_eq, Option.some.injEq] at h2
        simp [h2]
        omega
      | none =>
        simp
        exact ⟨fun hh => hid hh.symm, fun hh => hty hh.symm, fun hh => hh.symm⟩
  have hfil : ∀ (p q : OptEntry → Bool), (∀ e ∈ es, p e = q e) → es.filter p = es.filter q :=
    fun p q hpq => List.filter_congr hpq
  have e1 : (es.filter fun e => e.key = (0, noType)) = globalEntries es :=
    hfil _ _ fun e he => by simp only [decide_eq_decide]; exact (hkey e he 0).1
  have e2 : (es.filter fun e => e.key = (t.id, noType)) = idEntries es t.id :=
    hfil _ _ fun e he => by simp only [decide_eq_decide]; exact (hkey e he 0).2.1
  have e3 : (es.filter fun e => e.key = (0, t.type)) = typeEntries es t.type :=
    hfil _ _ fun e he => by simp only [decide_eq_decide]; exact (hkey e he 0).2.2.1
  have e4 : (optTable es).any (fun p => p.1.1 == t.id) = true ↔ idEntries es t.id ≠ [] := by
    simp only [optTable, List.any_map, List.any_filter, List.any_eq_true, Function.comp_apply, Bool.and_eq_true,
      Bool.not_eq_true', List.isEmpty_eq_false_iff, beq_iff_eq, idEntries, ne_eq, List.filter_eq_nil_iff]
    constructor
    · rintro ⟨e, he, _, hk⟩ hn
      exact hn e he (by simpa using (hkey e he t.id).2.2.2.1 hk hid)
    · intro hn
      simp only [decide_eq_true_eq, Classical.not_forall, Classical.not_not] at hn
      obtain ⟨e, he, hi⟩ := hn
      exact ⟨e, he, htext e he, (hkey e he t.id).2.2.2.2 hi⟩
  simp only [optionsFor, optGet_table, e1, e2, e3]
  congr 1
  by_cases hh : idEntries es t.id ≠ []
  · rw [if_pos hh, if_pos (e4.mpr hh)]
  · rw [if_neg hh, if_neg fun h' => hh (e4.mp h')]

/-- Non-vacuity: entries for all tasks, for an id and for a type. -/
def exEntries : List OptEntry :=
  [{ taskId := none, taskType := none, options := [("A".toList, none)] },
    { taskId := some 7, taskType := some "a".toList, options := [("B".toList, some "1".toList)] },
    { taskId := none, taskType := some "a".toList, options := [("C".toList, none)] }]

example : (∀ e ∈ exEntries, e.taskId ≠ some 0 ∧ e.taskType ≠ some noType ∧ e.options ≠ []) ∧
    optionsFor (optTable exEntries) (exTask 7 .nothing) = "<A/><B>1</B>".toList ∧
    optionsFor (optTable exEntries) (exTask 8 .nothing) = "<A/><C/>".toList := by decide +kernel

/-- C65 fails for a task with the id 0: it gets the options for all tasks twice and not those of its type. -/
theorem C65_id_zero_violated : optionsFor (optTable exEntries) (exTask 0 .nothing) = "<A/><A/>".toList := by
  decide +kernel

/-- C65 fails for entries with the id 0: they apply to every task. -/
theorem C65_entry_zero_violated (es : List OptEntry) (t : Task) (e : OptEntry) (he : e ∈ es) (h0 : e.taskId = some 0) :
    e.text <:+: optionsFor (optTable es) t := by
  have h1 : e ∈ es.filter fun e => e.key = (0, noType) := by
    simp [he, OptEntry.key, h0]
  have h2 : e.text <:+: texts (es.filter fun e => e.key = (0, noType)) := by
    obtain ⟨a, b, hab⟩ := List.append_of_mem h1
    rw [hab]
    simp only [texts, List.map_append, List.map_cons, List.flatten_append, List.flatten_cons]
    exact ⟨(a.map OptEntry.text).flatten, (b.map OptEntry.text).flatten, by simp⟩
  simp only [optionsFor, optGet_table]
  exact h2.trans (List.prefix_append _ _).isInfix

end Verif.Manager
