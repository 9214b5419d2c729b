import Verif.Batch.Lemmas

/-!
Following a request for summaries through a history.
-/

namespace Verif.Batch

open Verif

/-- The ids of the automation requests that are sent. -/
def askIds (out : List Out) : List Int := out.filterMap fun o => match o with | .ask id _ => some id | .answer _ => none

/-- The ids of the responses received. -/
def received (h : List Op) : List Int := h.filterMap fun o => match o with | .response id _ => some id | _ => none

/-- The legs in the first response to each of the automation requests `ids`. -/
def usedLegs (ids : List Int) : List Op → List (Int × Leg)
  | [] => []
  | .response id ms :: h => if id ∈ ids then legs ms ++ usedLegs (ids.filter fun x => !(x == id)) h else usedLegs ids h
  | _ :: h => usedLegs ids h

/-- Not in the code: the invariant of the service. -/
structure Inv (s : St) : Prop where
  keys : (s.pend.map (·.1)).Nodup
  each : ∀ k ids, s.pend.get k = some ids →
    k < s.nextResp ∧ ids ≠ [] ∧ ids.Nodup ∧ (∀ i ∈ ids, i < s.nextReq) ∧ ∃ r, s.working.get k = some r
  apart : ∀ k k' ids ids' i, s.pend.get k = some ids → s.pend.get k' = some ids' → i ∈ ids → i ∈ ids' → k = k'

theorem inv_init : Inv {} where
  keys := by simp
  each := by intro k ids h; simp [Map.get] at h
  apart := by intro k k' ids ids' i h; simp [Map.get] at h

theorem number_length (as : List Ask) : ∀ n, (number n as).length = as.length := by
  induction as with
  | nil => simp [number]
  | cons a as ih => simp [number, ih]

theorem number_fst {as : List Ask} : ∀ {n i : Int}, i ∈ (number n as).map (·.1) ↔ n ≤ i ∧ i < n + as.length := by
  induction as with
  | nil => intro n i; simp [number]
  | cons a as ih =>
    intro n i
    simp only [number, List.map_cons, List.mem_cons, ih, List.length_cons]
    omega

theorem number_nodup (as : List Ask) : ∀ n : Int, ((number n as).map (·.1)).Nodup := by
  induction as with
  | nil => intro n; simp [number]
  | cons a as ih =>
    intro n
    simp only [number, List.map_cons, List.nodup_cons]
    refine ⟨?_, ih _⟩
    rw [number_fst]; omega

theorem number_snd (as : List Ask) : ∀ n : Int, (number n as).map (·.2) = as := by
  induction as with
  | nil => intro n; rfl
  | cons a as ih => intro n; simp [number, ih]

theorem askIds_number (n : Int) (as : List Ask) :
    askIds ((number n as).map fun p => .ask p.1 p.2) = (number n as).map (·.1) := by
  unfold askIds
  rw [List.filterMap_map]
  induction (number n as) with
  | nil => rfl
  | cons p ps ih => simp [ih]

theorem askIds_request (s : St) (r : Req) : askIds (s.request r).2 = (number s.nextReq (asks r)).map (·.1) := by
  unfold St.request
  simp only
  split
  · next h => rw [List.isEmpty_iff.mp h]; rfl
  · exact askIds_number ..

/-- An operation other than a request or a response leaves the requests as they are. -/
def Op.other : Op → Bool
  | .request _ => false
  | .response _ _ => false
  | _ => true

theorem other_same {e : Env} {s : St} {o : Op} (h : o.other) : (s.step e o).1.pend = s.pend ∧
    (s.step e o).1.working = s.working ∧ (s.step e o).1.nextResp = s.nextResp ∧ (s.step e o).1.nextReq = s.nextReq ∧
    (s.step e o).2 = [] := by
  cases o <;> first | (simp [Op.other] at h; done) | (simp [St.step])

theorem find_pend {s : St} (hi : Inv s) {k id : Int} {ids : List Int} (h : s.pend.get k = some ids) (hm : id ∈ ids) :
    s.pend.find? (fun p => p.2.contains id) = some (k, ids) := by
  have hmem : (k, ids) ∈ s.pend := (Map.mem_iff_get hi.keys k ids).mpr h
  cases hf : s.pend.find? (fun p => p.2.contains id) with
  | none =>
    have := List.find?_eq_none.mp hf _ hmem
    simp [hm] at this
  | some p =>
    obtain ⟨k', ids'⟩ := p
    have h₁ := List.find?_some hf
    have h₂ := (Map.mem_iff_get hi.keys k' ids').mp (List.mem_of_find?_eq_some hf)
    have h₃ : id ∈ ids' := by simpa using h₁
    have hk := hi.apart k k' ids ids' id h h₂ hm h₃
    subst hk
    rw [h] at h₂
    cases h₂; rfl

theorem found {s : St} (hi : Inv s) {k id : Int} {ids : List Int}
    (hf : s.pend.find? (fun p => p.2.contains id) = some (k, ids)) : s.pend.get k = some ids ∧ id ∈ ids :=
  ⟨(Map.mem_iff_get hi.keys k ids).mp (List.mem_of_find?_eq_some hf), by simpa using List.find?_some hf⟩

/-- The response with the summaries of the plans. -/
def plansIn (e : Env) (s : St) (ms : List Mission) (r : Resp) : Resp :=
  { r with sums := vmap (refresh e s) ((legs ms).foldl (addLeg e) r.sums) }

theorem addLeg_tasks (e : Env) (vl : Int × Leg) : ∀ sums : List TSum, (addLeg e sums vl).map (·.task) = sums.map (·.task)
  | [] => rfl
  | T :: sums => by
    rw [addLeg]
    split
    · rfl
    · simp [addLeg_tasks e vl sums]

theorem plansIn_tasks (e : Env) (s : St) (ms : List Mission) (r : Resp) :
    (plansIn e s ms r).sums.map (·.task) = r.sums.map (·.task) := by
  have : ∀ (ls : List (Int × Leg)) (sums : List TSum), (ls.foldl (addLeg e) sums).map (·.task) = sums.map (·.task) := by
    intro ls
    induction ls with
    | nil => intro sums; rfl
    | cons l ls ih => intro sums; rw [List.foldl_cons, ih, addLeg_tasks]
  simp only [plansIn, vmap, List.map_map, Function.comp_def]
  exact this _ _

theorem response_none {e : Env} {s : St} {id : Int} {ms : List Mission}
    (hf : s.pend.find? (fun p => p.2.contains id) = none) : s.response e id ms = (s, []) := by
  unfold St.response; rw [hf]

theorem response_last {e : Env} {s : St} (hi : Inv s) {id k : Int} {ids : List Int} {ms : List Mission} {r : Resp}
    (h : s.pend.get k = some ids) (hm : id ∈ ids) (hw : s.working.get k = some r)
    (hl : (ids.filter fun x => !(x == id)) = []) :
    s.response e id ms = ({ s with pend := s.pend.del k, working := s.working.del k }, [.answer (plansIn e s ms r)]) := by
  unfold St.response
  rw [find_pend hi h hm]
  simp only [hl, hw]
  rfl

theorem response_more {e : Env} {s : St} (hi : Inv s) {id k : Int} {ids : List Int} {ms : List Mission} {r : Resp}
    (h : s.pend.get k = some ids) (hm : id ∈ ids) (hw : s.working.get k = some r)
    (hl : (ids.filter fun x => !(x == id)) ≠ []) :
    s.response e id ms = ({ s with pend := s.pend.put k (ids.filter fun x => !(x == id)),
                                   working := s.working.put k (plansIn e s ms r) }, []) := by
  unfold St.response
  rw [find_pend hi h hm]
  have : (ids.filter fun x => !(x == id)).isEmpty = false := by simpa using hl
  simp only [this, hw]
  rfl

theorem inv_step {e : Env} {s : St} (hi : Inv s) (o : Op) : Inv (s.step e o).1 := by
  by_cases ho : o.other
  · obtain ⟨h₁, h₂, h₃, h₄, _⟩ := other_same (e := e) (s := s) ho
    exact ⟨h₁ ▸ hi.keys, by rw [h₁, h₂, h₃, h₄]; exact hi.each, by rw [h₁]; exact hi.apart⟩
  · cases o with
    | request r =>
      show Inv (s.request r).1
      unfold St.request
      simp only
      by_cases hE : (number s.nextReq (asks r)).isEmpty
      · rw [if_pos hE]
        refine ⟨hi.keys, ?_, hi.apart⟩
        intro k ids h
        obtain ⟨h₁, h₂, h₃, h₄, h₅⟩ := hi.each k ids h
        exact ⟨by show k < s.nextResp + 1; omega, h₂, h₃,
          fun i hm => by have := h₄ i hm; show i < s.nextReq + (_ : Nat); omega, h₅⟩
      · rw [if_neg hE]
        have hne : (number s.nextReq (asks r)).map (·.1) ≠ [] := by
          intro hh; exact hE (by simpa using hh)
        refine ⟨Map.nodup_put hi.keys _ _, ?_, ?_⟩
        · intro k ids h
          simp only [Map.get_put] at h ⊢
          by_cases hk : k = s.nextResp
          · rw [if_pos hk] at h ⊢
            cases h
            refine ⟨by omega, hne, number_nodup .., fun i hm => ?_, _, rfl⟩
            rw [number_length]
            exact (number_fst.mp hm).2
          · rw [if_neg hk] at h ⊢
            obtain ⟨h₁, h₂, h₃, h₄, h₅⟩ := hi.each k ids h
            exact ⟨by omega, h₂, h₃, fun i hm => by have := h₄ i hm; omega, h₅⟩
        · intro k k' ids ids' i h h' hm hm'
          simp only [Map.get_put] at h h'
          by_cases hk : k = s.nextResp <;> by_cases hk' : k' = s.nextResp
          · rw [hk, hk']
          · rw [if_pos hk] at h; rw [if_neg hk'] at h'
            cases h
            have := (hi.each k' ids' h').2.2.2.1 i hm'
            have := (number_fst.mp hm).1
            omega
          · rw [if_neg hk] at h; rw [if_pos hk'] at h'
            cases h'
            have := (hi.each k ids h).2.2.2.1 i hm
            have := (number_fst.mp hm').1
            omega
          · rw [if_neg hk] at h; rw [if_neg hk'] at h'
            exact hi.apart k k' ids ids' i h h' hm hm'
    | response id ms =>
      show Inv (s.response e id ms).1
      cases hf : s.pend.find? (fun p => p.2.contains id) with
      | none => rw [response_none hf]; exact hi
      | some p =>
        obtain ⟨k, ids⟩ := p
        obtain ⟨hg, hm⟩ := found hi hf
        obtain ⟨h₁, h₂, h₃, h₄, r, hw⟩ := hi.each k ids hg
        by_cases hl : (ids.filter fun x => !(x == id)) = []
        · rw [response_last hi hg hm hw hl]
          refine ⟨Map.nodup_del hi.keys _, ?_, ?_⟩
          · intro k' ids' h
            simp only [Map.get_del] at h ⊢
            by_cases hk : k' = k
            · rw [if_pos hk] at h; cases h
            · rw [if_neg hk] at h ⊢
              exact hi.each k' ids' h
          · intro a b ia ib i ha hb
            simp only [Map.get_del] at ha hb
            split at ha
            · cases ha
            · split at hb
              · cases hb
              · exact hi.apart a b ia ib i ha hb
        · rw [response_more hi hg hm hw hl]
          refine ⟨Map.nodup_put hi.keys _ _, ?_, ?_⟩
          · intro k' ids' h
            simp only [Map.get_put] at h ⊢
            by_cases hk : k' = k
            · rw [if_pos hk] at h ⊢
              cases h
              exact ⟨hk ▸ h₁, hl, h₃.sublist List.filter_sublist, fun i hi' => h₄ i (List.mem_filter.mp hi').1, _, rfl⟩
            · rw [if_neg hk] at h ⊢
              exact hi.each k' ids' h
          · intro a b ia ib i ha hb hma hmb
            simp only [Map.get_put] at ha hb
            by_cases hak : a = k <;> by_cases hbk : b = k
            · rw [hak, hbk]
            · rw [if_pos hak] at ha; rw [if_neg hbk] at hb
              cases ha
              rw [hak]
              exact hi.apart k b ids ib i hg hb (List.mem_filter.mp hma).1 hmb
            · rw [if_neg hak] at ha; rw [if_pos hbk] at hb
              cases hb
              rw [hbk]
              exact hi.apart a k ia ids i ha hg hma (List.mem_filter.mp hmb).1
            · rw [if_neg hak] at ha; rw [if_neg hbk] at hb
              exact hi.apart a b ia ib i ha hb hma hmb
    | _ => simp [Op.other] at ho

theorem inv_run (e : Env) : ∀ (h : List Op) {s : St}, Inv s → Inv (runM (St.step e) s h).1
  | [], _, hi => hi
  | o :: h, _, hi => by rw [runM_cons]; exact inv_run e h (inv_step hi o)

/-- What is left of `ids`. -/
def left (ids : List Int) (h : List Op) : List Int := ids.filter fun i => !(received h).contains i

theorem left_nil (ids : List Int) : left ids [] = ids := by simp [left, received]

theorem received_other {o : Op} (h : ∀ id ms, o ≠ .response id ms) (m : List Op) : received (o :: m) = received m := by
  cases o <;> first | (exact absurd rfl (h _ _)) | rfl

theorem received_response (id : Int) (ms : List Mission) (m : List Op) :
    received (.response id ms :: m) = id :: received m := rfl

theorem left_response (ids : List Int) (id : Int) (ms : List Mission) (m : List Op) :
    left ids (.response id ms :: m) = left (ids.filter fun x => !(x == id)) m := by
  unfold left
  rw [List.filter_filter, received_response]
  refine List.filter_congr fun x _ => ?_
  rw [List.contains_cons, Bool.not_or, Bool.and_comm]

theorem filter_absent {ids : List Int} {id : Int} (h : id ∉ ids) : (ids.filter fun x => !(x == id)) = ids := by
  refine List.filter_eq_self.mpr fun x hx => ?_
  have : x ≠ id := fun hh => h (hh ▸ hx)
  simpa using this

theorem usedLegs_other {o : Op} (h : ∀ id ms, o ≠ .response id ms) (ids : List Int) (m : List Op) :
    usedLegs ids (o :: m) = usedLegs ids m := by
  cases o <;> first | (exact absurd rfl (h _ _)) | rfl

/-- A pending request stays pending while an automation request is not answered. -/
theorem follow (e : Env) : ∀ (mid : List Op) {s : St} (_ : Inv s) {k : Int} {ids : List Int} {r : Resp} {sums : List TSum}
    {ls : List (Int × Leg)},
    s.pend.get k = some ids → s.working.get k = some r → left ids mid ≠ [] → (Shape sums → Evolves e ls sums r.sums) →
    (runM (St.step e) s mid).1.pend.get k = some (left ids mid) ∧
    ∃ r', (runM (St.step e) s mid).1.working.get k = some r' ∧ r'.id = r.id ∧
      r'.sums.map (·.task) = r.sums.map (·.task) ∧ (Shape sums → Evolves e (ls ++ usedLegs ids mid) sums r'.sums)
  | [], s, _, k, ids, r, sums, ls, hg, hw, hl, hev => by
    rw [left_nil]; exact ⟨hg, r, hw, rfl, rfl, by simpa [usedLegs] using hev⟩
  | o :: mid, s, hi, k, ids, r, sums, ls, hg, hw, hl, hev => by
    rw [runM_cons]
    by_cases ho : o.other
    · obtain ⟨h₁, h₂, _⟩ := other_same (e := e) (s := s) ho
      have hne : ∀ id ms, o ≠ .response id ms := by rintro id ms rfl; simp [Op.other] at ho
      have hl' : left ids (o :: mid) = left ids mid := by unfold left; rw [received_other hne]
      rw [hl'] at hl ⊢
      rw [usedLegs_other hne]
      exact follow e mid (inv_step hi o) (by rw [h₁]; exact hg) (by rw [h₂]; exact hw) hl hev
    · cases o with
      | request q =>
        have hne : ∀ id ms, Op.request q ≠ .response id ms := by intro id ms hh; cases hh
        have hl' : left ids (.request q :: mid) = left ids mid := by unfold left; rw [received_other hne]
        rw [hl'] at hl ⊢
        rw [usedLegs_other hne]
        have hk : k ≠ s.nextResp := by have := (hi.each k ids hg).1; omega
        refine follow e mid (inv_step hi _) ?_ ?_ hl hev
        · show (s.request q).1.pend.get k = _
          unfold St.request
          simp only
          split
          · exact hg
          · simp only [Map.get_put]; rw [if_neg hk]; exact hg
        · show (s.request q).1.working.get k = _
          unfold St.request
          simp only
          split
          · exact hw
          · simp only [Map.get_put]; rw [if_neg hk]; exact hw
      | response id ms =>
        rw [left_response] at hl ⊢
        by_cases hm : id ∈ ids
        · have hl0 : (ids.filter fun x => !(x == id)) ≠ [] := by
            intro hh; rw [hh] at hl; exact hl rfl
          have hstep : s.step e (.response id ms) = _ := response_more hi hg hm hw hl0
          have hi' := inv_step (e := e) hi (.response id ms)
          rw [hstep] at hi' ⊢
          have := follow e mid hi' (k := k) (ids := ids.filter fun x => !(x == id)) (r := plansIn e s ms r)
            (by simp only [Map.get_put, if_true]) (by simp only [Map.get_put, if_true]) hl
            (fun hs => (hev hs).step hs ms s)
          rw [List.append_assoc] at this
          rw [usedLegs, if_pos hm]
          obtain ⟨h₁, r', h₂, h₃, h₄, h₅⟩ := this
          exact ⟨h₁, r', h₂, h₃, h₄.trans (plansIn_tasks e s ms r), h₅⟩
        · rw [filter_absent hm] at hl ⊢
          rw [usedLegs, if_neg hm]
          have hi' := inv_step (e := e) hi (.response id ms)
          cases hf : s.pend.find? (fun p => p.2.contains id) with
          | none =>
            have hstep : s.step e (.response id ms) = (s, []) := response_none hf
            rw [hstep] at hi' ⊢
            exact follow e mid hi' hg hw hl hev
          | some p =>
            obtain ⟨k', ids'⟩ := p
            obtain ⟨hg', hm'⟩ := found hi hf
            obtain ⟨_, _, _, _, r', hw'⟩ := hi.each k' ids' hg'
            have hk : k ≠ k' := by
              rintro rfl; rw [hg] at hg'; cases hg'; exact hm hm'
            by_cases hl' : (ids'.filter fun x => !(x == id)) = []
            · have hstep : s.step e (.response id ms) = _ := response_last hi hg' hm' hw' hl'
              rw [hstep] at hi' ⊢
              exact follow e mid hi' (by simp only [Map.get_del]; rw [if_neg hk]; exact hg)
                (by simp only [Map.get_del]; rw [if_neg hk]; exact hw) hl hev
            · have hstep : s.step e (.response id ms) = _ := response_more hi hg' hm' hw' hl'
              rw [hstep] at hi' ⊢
              exact follow e mid hi' (by simp only [Map.get_put]; rw [if_neg hk]; exact hg)
                (by simp only [Map.get_put]; rw [if_neg hk]; exact hw) hl hev
      | _ => simp [Op.other] at ho

/-- A request that is pending came earlier. -/
theorem origin (e : Env) (h : List Op) : ∀ {k : Int} {ids : List Int},
    (runM (St.step e) {} h).1.pend.get k = some ids →
    ∃ pre r mid, h = pre ++ .request r :: mid ∧ k = (runM (St.step e) {} pre).1.nextResp ∧ asks r ≠ [] ∧
      ids = left (askIds ((runM (St.step e) {} pre).1.request r).2) mid := by
  induction h using snocRec with
  | nil => intro k ids hg; simp [Map.get] at hg
  | append_singleton h o ih =>
    intro k ids hg
    have hi : Inv (runM (St.step e) {} h).1 := inv_run e h inv_init
    rw [runM_snoc] at hg
    simp only at hg
    have hleft : ∀ (ids : List Int) (mid : List Op), (∀ id ms, o ≠ .response id ms) → left ids (mid ++ [o]) = left ids mid := by
      intro ids mid hne
      unfold left received
      rw [List.filterMap_append]
      have : ([o].filterMap fun o => match o with | .response id _ => some id | _ => none) = ([] : List Int) :=
        received_other hne []
      rw [this, List.append_nil]
    have hleft' : ∀ (ids : List Int) (mid : List Op) id ms, o = .response id ms →
        left ids (mid ++ [o]) = (left ids mid).filter fun x => !(x == id) := by
      rintro ids mid id ms rfl
      unfold left received
      rw [List.filterMap_append, List.filter_filter]
      refine List.filter_congr fun x _ => ?_
      rw [Bool.eq_iff_iff]
      simp [and_comm]
    by_cases ho : o.other
    · obtain ⟨h₁, _⟩ := other_same (e := e) (s := (runM (St.step e) {} h).1) ho
      rw [h₁] at hg
      obtain ⟨pre, r, mid, rfl, h₂, h₃, h₄⟩ := ih hg
      refine ⟨pre, r, mid ++ [o], by simp, h₂, h₃, ?_⟩
      rw [hleft _ _ (by rintro id ms rfl; simp [Op.other] at ho)]; exact h₄
    · cases o with
      | request q =>
        have hne : ∀ id ms, Op.request q ≠ .response id ms := by intro id ms hh; cases hh
        have hg' : ((runM (St.step e) {} h).1.request q).1.pend.get k = some ids := hg
        rw [St.request] at hg'
        simp only at hg'
        by_cases hE : (number (runM (St.step e) {} h).1.nextReq (asks q)).isEmpty
        · rw [if_pos hE] at hg'
          obtain ⟨pre, r, mid, rfl, h₂, h₃, h₄⟩ := ih hg'
          exact ⟨pre, r, mid ++ [.request q], by simp, h₂, h₃, by rw [hleft _ _ hne]; exact h₄⟩
        · rw [if_neg hE] at hg'
          simp only [Map.get_put] at hg'
          by_cases hk : k = (runM (St.step e) {} h).1.nextResp
          · rw [if_pos hk] at hg'
            refine ⟨h, q, [], rfl, hk, ?_, ?_⟩
            · intro hh; rw [hh] at hE; exact hE rfl
            · rw [left_nil, askIds_request]; cases hg'; rfl
          · rw [if_neg hk] at hg'
            obtain ⟨pre, r, mid, rfl, h₂, h₃, h₄⟩ := ih hg'
            exact ⟨pre, r, mid ++ [.request q], by simp, h₂, h₃, by rw [hleft _ _ hne]; exact h₄⟩
      | response id ms =>
        have hg' : ((runM (St.step e) {} h).1.response e id ms).1.pend.get k = some ids := hg
        have key : ∀ {ids₀ : List Int}, (runM (St.step e) {} h).1.pend.get k = some ids₀ →
            ids = (ids₀.filter fun x => !(x == id)) → ∃ pre r mid, h ++ [.response id ms] = pre ++ .request r :: mid ∧
              k = (runM (St.step e) {} pre).1.nextResp ∧ asks r ≠ [] ∧
              ids = left (askIds ((runM (St.step e) {} pre).1.request r).2) mid := by
          intro ids₀ hg₀ hids
          obtain ⟨pre, r, mid, rfl, h₂, h₃, h₄⟩ := ih hg₀
          exact ⟨pre, r, mid ++ [.response id ms], by simp, h₂, h₃, by rw [hleft' _ _ id ms rfl, ← h₄]; exact hids⟩
        have same : ∀ {ids₀ : List Int}, (runM (St.step e) {} h).1.pend.get k = some ids₀ → id ∉ ids₀ →
            ids₀ = ids₀.filter fun x => !(x == id) := fun _ hn => (filter_absent hn).symm
        cases hf : (runM (St.step e) {} h).1.pend.find? (fun p => p.2.contains id) with
        | none =>
          rw [response_none hf] at hg'
          refine key hg' (same hg' fun hm => ?_)
          rw [find_pend hi hg' hm] at hf; cases hf
        | some p =>
          obtain ⟨k', ids'⟩ := p
          obtain ⟨hgk, hmk⟩ := found hi hf
          obtain ⟨_, _, _, _, r', hw'⟩ := hi.each k' ids' hgk
          by_cases hl : (ids'.filter fun x => !(x == id)) = []
          · rw [response_last hi hgk hmk hw' hl] at hg'
            simp only [Map.get_del] at hg'
            by_cases hk : k = k'
            · rw [if_pos hk] at hg'; cases hg'
            · rw [if_neg hk] at hg'
              refine key hg' (same hg' fun hm => hk ?_)
              exact hi.apart k k' ids ids' id hg' hgk hm hmk
          · rw [response_more hi hgk hmk hw' hl] at hg'
            simp only [Map.get_put] at hg'
            by_cases hk : k = k'
            · rw [if_pos hk] at hg'
              cases hg'
              exact key (hk ▸ hgk) rfl
            · rw [if_neg hk] at hg'
              refine key hg' (same hg' fun hm => hk ?_)
              exact hi.apart k k' ids ids' id hg' hgk hm hmk
      | _ => simp [Op.other] at ho

end Verif.Batch
