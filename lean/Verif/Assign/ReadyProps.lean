import Verif.Assign.Model

/-!
Property C38: when an assignment is calculated, and from which messages.

The specification looks only at the list of received messages.
-/

namespace Verif.Assign

/-- The request carried by a message. -/
def Msg.asRequest : Msg → Option Request
  | .request r => some r
  | _ => none

/-- The cost matrix carried by a message. -/
def Msg.asMatrix : Msg → Option CostMatrix
  | .matrix m => some m
  | _ => none

/-- The options of task `k` carried by a message. -/
def Msg.asOptions (k : Int) : Msg → Option PlanOptions
  | .options o => if o.taskId = k then some o else none
  | _ => none

/-- The latest value found in a list of messages. -/
def latest {α : Type} (f : Msg → Option α) (h : List Msg) : Option α := (h.filterMap f).getLast?

/-- A list of messages of one request that has all that is needed: a request with tasks, a cost
matrix, and options for every task of the (latest) request. -/
def Complete (h : List Msg) : Prop :=
  ∃ r m, latest Msg.asRequest h = some r ∧ latest Msg.asMatrix h = some m ∧ r.tasks ≠ [] ∧
    ∀ k ∈ r.tasks, ∃ o, latest (Msg.asOptions k) h = some o

/-- A batch: complete, but not without its last message. -/
def Batch (b : List Msg) : Prop :=
  Complete b ∧ ∀ pre, pre <+: b → pre ≠ b → ¬ Complete pre

/-- A calculation uses the latest messages of a batch. -/
structure Uses (c : Prereq) (b : List Msg) : Prop where
  request : c.request = latest Msg.asRequest b
  matrix : c.matrix = latest Msg.asMatrix b
  options : ∀ k, (c.plans.find? fun q => q.1 == k).map Prod.snd = latest (Msg.asOptions k) b
  keys : (c.plans.map Prod.fst).Nodup

/-- The calculations use the batches, one each, in order. -/
inductive EachUses : List Prereq → List (List Msg) → Prop
  | nil : EachUses [] []
  | cons {c b cs bs} : Uses c b → EachUses cs bs → EachUses (c :: cs) (b :: bs)

/-- The messages of one request, in order. -/
def ofRequest (i : Int) (ms : List Msg) : List Msg := ms.filter fun m => m.requestId == i

/-- The calculations started for one request, in order. -/
def calculations (i : Int) (ms : List Msg) : List Prereq :=
  (receiveAll (fun _ => none) ms).2.filter fun c => (c.request.map Request.requestId) == some i

/-! ### Proofs -/

theorem latest_snoc {α : Type} (f : Msg → Option α) (h : List Msg) (m : Msg) :
    latest f (h ++ [m]) = match f m with | some x => some x | none => latest f h := by
  unfold latest
  rcases hf : f m with _ | x
  · simp [List.filterMap_append, hf]
  · simp [List.filterMap_append, hf]

theorem find_setPlan (k k' : Int) (o : PlanOptions) : ∀ ps : List (Int × PlanOptions),
    ((setPlan k o ps).find? fun q => q.1 == k').map Prod.snd =
      if k = k' then some o else (ps.find? fun q => q.1 == k').map Prod.snd
  | [] => by
    by_cases h : k = k' <;> simp [setPlan, h]
  | (a, b) :: ps => by
    have ih := find_setPlan k k' o ps
    unfold setPlan
    by_cases h1 : a = k
    · simp only [if_pos h1]
      by_cases h : k = k'
      · simp [h]
      · have : ¬ a = k' := by rw [h1]; exact h
        simp [h, this]
    · simp only [if_neg h1]
      by_cases h2 : a = k'
      · have : ¬ k = k' := fun e => h1 (h2.trans e.symm)
        simp [h2, this]
      · have h2' : (a == k') = false := by simpa using h2
        simp only [List.find?_cons, h2']
        exact ih

theorem keys_setPlan (k : Int) (o : PlanOptions) : ∀ ps : List (Int × PlanOptions), ∀ x,
    x ∈ (setPlan k o ps).map Prod.fst ↔ x = k ∨ x ∈ ps.map Prod.fst
  | [], x => by simp [setPlan]
  | (a, b) :: ps, x => by
    have ih := keys_setPlan k o ps x
    unfold setPlan
    by_cases h1 : a = k
    · simp [h1]
    · simp only [if_neg h1, List.map_cons, List.mem_cons, ih]
      grind

theorem nodup_setPlan (k : Int) (o : PlanOptions) : ∀ ps : List (Int × PlanOptions),
    (ps.map Prod.fst).Nodup → ((setPlan k o ps).map Prod.fst).Nodup
  | [], _ => by simp [setPlan]
  | (a, b) :: ps, hn => by
    simp only [List.map_cons, List.nodup_cons] at hn
    unfold setPlan
    by_cases h1 : a = k
    · subst h1
      simpa using hn
    · simp only [if_neg h1, List.map_cons, List.nodup_cons]
      refine ⟨?_, nodup_setPlan k o ps hn.2⟩
      rw [keys_setPlan]
      simp only [not_or]
      exact ⟨h1, hn.1⟩

theorem uses_store {c : Prereq} {h : List Msg} (hu : Uses c h) (m : Msg) :
    Uses (c.store m) (h ++ [m]) := by
  rcases m with r | o | m
  · refine ⟨?_, ?_, ?_, ?_⟩ <;>
      simp [Prereq.store, latest_snoc, Msg.asRequest, Msg.asMatrix, Msg.asOptions, hu.matrix,
        hu.options, hu.keys]
  · refine ⟨?_, ?_, ?_, ?_⟩
    · simp [Prereq.store, latest_snoc, Msg.asRequest, hu.request]
    · simp [Prereq.store, latest_snoc, Msg.asMatrix, hu.matrix]
    · intro k
      rw [latest_snoc]
      simp only [Prereq.store, find_setPlan, Msg.asOptions, hu.options]
      by_cases hk : o.taskId = k <;> simp [hk]
    · exact nodup_setPlan _ _ _ hu.keys
  · refine ⟨?_, ?_, ?_, ?_⟩ <;>
      simp [Prereq.store, latest_snoc, Msg.asRequest, Msg.asMatrix, Msg.asOptions, hu.request,
        hu.options, hu.keys]

theorem ready_iff {c : Prereq} {h : List Msg} (hu : Uses c h) : c.ready = true ↔ Complete h := by
  have hopt : ∀ k, (c.plans.any fun q => q.1 == k) = true ↔
      ∃ o, latest (Msg.asOptions k) h = some o := by
    intro k
    rw [← hu.options k, List.any_eq_true]
    constructor
    · rintro ⟨q, hq, hk⟩
      rcases hf : c.plans.find? fun q => q.1 == k with _ | x
      · have := List.find?_eq_none.1 hf q hq
        exact absurd hk this
      · exact ⟨x.2, by rw [hf]; rfl⟩
    · rintro ⟨o, ho⟩
      rcases hf : c.plans.find? fun q => q.1 == k with _ | x
      · rw [hf] at ho; simp at ho
      · exact ⟨x, List.mem_of_find?_eq_some hf, by have := List.find?_some hf; exact this⟩
  unfold Prereq.ready Complete
  rw [hu.request, hu.matrix]
  rcases latest Msg.asRequest h with _ | r
  · simp
  · rcases latest Msg.asMatrix h with _ | m
    · simp
    · simp only [Bool.and_eq_true, List.all_eq_true, hopt]
      simp

/-- Nothing in a list of messages is complete. -/
def Waiting (h : List Msg) : Prop := ∀ pre, pre <+: h → ¬ Complete pre

theorem waiting_nil : Waiting [] := by
  intro pre hp
  have : pre = [] := List.prefix_nil.1 hp
  subst this
  rintro ⟨r, m, h, -⟩
  simp [latest] at h

theorem uses_nil : Uses {} [] := ⟨rfl, rfl, fun _ => rfl, by simp⟩

/-- Every message of a list is one of request `i`. -/
def AllOf (i : Int) (h : List Msg) : Prop := ∀ m ∈ h, m.requestId = i

theorem latest_mem {α : Type} {f : Msg → Option α} {h : List Msg} {x : α}
    (hx : latest f h = some x) : ∃ m ∈ h, f m = some x := by
  unfold latest at hx
  have := List.mem_of_getLast? hx
  obtain ⟨m, hm, hf⟩ := List.mem_filterMap.1 this
  exact ⟨m, hm, hf⟩

theorem uses_id {c : Prereq} {i : Int} {b : List Msg} (hu : Uses c b) (ha : AllOf i b)
    (hc : Complete b) : c.request.map Request.requestId = some i := by
  obtain ⟨r, m, hr, -⟩ := hc
  obtain ⟨x, hx, hf⟩ := latest_mem hr
  have := ha x hx
  rcases x with r' | o | m'
  · simp only [Msg.asRequest, Option.some.injEq] at hf
    rw [hu.request, hr, ← hf]
    exact congrArg some this
  · simp [Msg.asRequest] at hf
  · simp [Msg.asRequest] at hf

/-- The pending record of every request represents the messages since its last calculation. -/
theorem receiveAll_batches (i : Int) : ∀ (ms : List Msg) (s : Pending) (hs : Int → List Msg),
    (∀ j, Uses ((s j).getD {}) (hs j)) → (∀ j, AllOf j (hs j)) → Waiting (hs i) →
    ∃ batches rest, hs i ++ ofRequest i ms = batches.flatten ++ rest ∧ (∀ b ∈ batches, Batch b) ∧
      Waiting rest ∧
      EachUses ((receiveAll s ms).2.filter fun c =>
        (c.request.map Request.requestId) == some i) batches
  | [], s, hs, hu, _, hw => ⟨[], hs i, by simp [ofRequest], by simp, hw, .nil⟩
  | m :: ms, s, hs, hu, ha, hw => by
    have hst := uses_store (hu m.requestId) m
    have hall : AllOf m.requestId (hs m.requestId ++ [m]) := by
      intro x hx
      rcases List.mem_append.1 hx with h | h
      · exact ha _ x h
      · rw [List.mem_singleton.1 h]
    by_cases hr : (((s m.requestId).getD {}).store m).ready = true
    · have hcomp := (ready_iff hst).1 hr
      have hid := uses_id hst hall hcomp
      let s' : Pending := fun k => if k = m.requestId then none else s k
      let hs' : Int → List Msg := fun k => if k = m.requestId then [] else hs k
      have hrec : receive s m = (s', some (((s m.requestId).getD {}).store m)) := by
        simp only [receive, hr, if_true]; rfl
      have hu' : ∀ j, Uses ((s' j).getD {}) (hs' j) := by
        intro j
        by_cases hj : j = m.requestId
        · simp only [s', hs', if_pos hj]; exact uses_nil
        · simp only [s', hs', if_neg hj]; exact hu j
      have ha' : ∀ j, AllOf j (hs' j) := by
        intro j
        by_cases hj : j = m.requestId
        · simp only [hs', if_pos hj]; intro x hx; simp at hx
        · simp only [hs', if_neg hj]; exact ha j
      by_cases hi : m.requestId = i
      · have hw' : Waiting (hs' i) := by simp only [hs', hi, if_true]; exact waiting_nil
        obtain ⟨bs, rest, h1, h2, h3, h4⟩ := receiveAll_batches i ms s' hs' hu' ha' hw'
        refine ⟨(hs i ++ [m]) :: bs, rest, ?_, ?_, h3, ?_⟩
        · simp only [hs', hi, if_true, List.nil_append] at h1
          simp [ofRequest, hi, ← h1]
        · intro b hb
          rcases List.mem_cons.1 hb with rfl | hb
          · rw [hi] at hcomp
            refine ⟨hcomp, fun pre hp hne => ?_⟩
            rcases List.prefix_concat_iff.1 hp with h | h
            · exact absurd h hne
            · exact hw pre h
          · exact h2 b hb
        · simp only [receiveAll, hrec, Option.toList, List.singleton_append]
          rw [List.filter_cons_of_pos (by rw [hid, hi]; simp)]
          rw [hi] at hst ⊢
          exact .cons hst h4
      · have hw' : Waiting (hs' i) := by
          simp only [hs', if_neg (Ne.symm hi)]; exact hw
        obtain ⟨bs, rest, h1, h2, h3, h4⟩ := receiveAll_batches i ms s' hs' hu' ha' hw'
        refine ⟨bs, rest, ?_, h2, h3, ?_⟩
        · simp only [hs', if_neg (Ne.symm hi)] at h1
          simp only [ofRequest] at h1 ⊢
          rw [List.filter_cons_of_neg (by simpa using hi)]
          exact h1
        · simp only [receiveAll, hrec, Option.toList, List.singleton_append]
          rw [List.filter_cons_of_neg (by rw [hid]; simpa using hi)]
          exact h4
    · have hncomp : ¬ Complete (hs m.requestId ++ [m]) := fun h => hr ((ready_iff hst).2 h)
      let s' : Pending := fun k => if k = m.requestId then some (((s m.requestId).getD {}).store m) else s k
      let hs' : Int → List Msg := fun k => if k = m.requestId then hs m.requestId ++ [m] else hs k
      have hrec : receive s m = (s', none) := by
        simp only [receive, hr, Bool.false_eq_true, if_false]; rfl
      have hu' : ∀ j, Uses ((s' j).getD {}) (hs' j) := by
        intro j
        by_cases hj : j = m.requestId
        · simp only [s', hs', if_pos hj]; exact hst
        · simp only [s', hs', if_neg hj]; exact hu j
      have ha' : ∀ j, AllOf j (hs' j) := by
        intro j
        by_cases hj : j = m.requestId
        · simp only [hs', if_pos hj]; rw [hj]; exact hall
        · simp only [hs', if_neg hj]; exact ha j
      have hw' : Waiting (hs' i) := by
        by_cases hi : i = m.requestId
        · simp only [hs', if_pos hi]
          intro pre hp
          rcases List.prefix_concat_iff.1 hp with h | h
          · rw [h]; exact hncomp
          · rw [← hi] at h; exact hw pre h
        · simp only [hs', if_neg hi]; exact hw
      obtain ⟨bs, rest, h1, h2, h3, h4⟩ := receiveAll_batches i ms s' hs' hu' ha' hw'
      refine ⟨bs, rest, ?_, h2, h3, ?_⟩
      · by_cases hi : m.requestId = i
        · simp only [hs', if_pos hi.symm] at h1
          simp only [ofRequest] at h1 ⊢
          rw [List.filter_cons_of_pos (by simpa using hi), ← h1, hi]
          simp
        · simp only [hs', if_neg (Ne.symm hi)] at h1
          simp only [ofRequest] at h1 ⊢
          rw [List.filter_cons_of_neg (by simpa using hi)]
          exact h1
      · simp only [receiveAll, hrec, Option.toList, List.nil_append]
        exact h4

/-! ### C38 -/

/-- **C38.** Whatever messages of however many requests arrive in whatever order: the messages of
one request are cut into batches, each ending with the first message that makes it complete, and
what is left is not complete.  There is one calculation per batch, in order, and it uses the
latest request, cost matrix and options of its batch.  (As this holds for every history, in
particular for each prefix of one, the calculation is started by the message that completes the
batch.) -/
theorem C38_one_calculation_per_batch (ms : List Msg) (i : Int) :
    ∃ batches rest, ofRequest i ms = batches.flatten ++ rest ∧ (∀ b ∈ batches, Batch b) ∧
      (∀ pre, pre <+: rest → ¬ Complete pre) ∧
      EachUses (calculations i ms) batches := by
  obtain ⟨bs, rest, h1, h2, h3, h4⟩ := receiveAll_batches i ms (fun _ => none) (fun _ => [])
    (fun _ => uses_nil) (fun _ _ h => by simp at h) waiting_nil
  exact ⟨bs, rest, by simpa using h1, h2, h3, h4⟩

theorem batches_unique : ∀ (bs bs' : List (List Msg)) (rest rest' : List Msg),
    bs.flatten ++ rest = bs'.flatten ++ rest' → (∀ b ∈ bs, Batch b) → (∀ b ∈ bs', Batch b) →
    (∀ pre, pre <+: rest → ¬ Complete pre) → (∀ pre, pre <+: rest' → ¬ Complete pre) →
    bs = bs' ∧ rest = rest'
  | [], [], rest, rest', h, _, _, _, _ => by simpa using h
  | [], b :: bs, rest, rest', h, _, hb, hr, _ => by
    exfalso
    refine hr b ?_ (hb b (by simp)).1
    rw [show rest = b ++ (bs.flatten ++ rest') by simpa using h]
    exact List.prefix_append _ _
  | b :: bs, [], rest, rest', h, hb, _, _, hr => by
    exfalso
    refine hr b ?_ (hb b (by simp)).1
    rw [show rest' = b ++ (bs.flatten ++ rest) by simpa using h.symm]
    exact List.prefix_append _ _
  | b :: bs, b' :: bs', rest, rest', h, hb, hb', hr, hr' => by
    have h' : b ++ (bs.flatten ++ rest) = b' ++ (bs'.flatten ++ rest') := by simpa using h
    have hp : b <+: b' ∨ b' <+: b :=
      List.prefix_or_prefix_of_prefix (List.prefix_append b (bs.flatten ++ rest))
        (by rw [h']; exact List.prefix_append _ _)
    have heq : b = b' := by
      rcases hp with hp | hp
      · exact Classical.byContradiction fun hne =>
          (hb' b' (by simp)).2 b hp hne (hb b (by simp)).1
      · exact Classical.byContradiction fun hne =>
          (hb b (by simp)).2 b' hp (Ne.symm hne) (hb' b' (by simp)).1
    subst heq
    have := List.append_cancel_left h'
    obtain ⟨h1, h2⟩ := batches_unique bs bs' rest rest' this (fun x hx => hb x (by simp [hx]))
      (fun x hx => hb' x (by simp [hx])) hr hr'
    exact ⟨by rw [h1], h2⟩

theorem latest_perm {α : Type} {f : Msg → Option α} {h : List Msg} {x : α} {m : Msg}
    (hm : m ∈ h) (hf : f m = some x) (hu : ∀ m' ∈ h, ∀ y, f m' = some y → y = x) :
    latest f h = some x := by
  unfold latest
  rcases hl : (h.filterMap f).getLast? with _ | y
  · rw [List.getLast?_eq_none_iff] at hl
    have : x ∈ h.filterMap f := List.mem_filterMap.2 ⟨m, hm, hf⟩
    rw [hl] at this; simp at this
  · have := List.mem_of_getLast? hl
    obtain ⟨m', hm', hf'⟩ := List.mem_filterMap.1 this
    rw [hu m' hm' y hf']

/-- **C38.** The usual case: the messages of request `i` are one request, one cost matrix and one
set of options per task, in any order and interleaved with messages of other requests in any way.
Exactly one calculation is made, it uses these messages, and it is made when the last of them
arrives: in a shorter history where one of them is still missing, there is none. -/
theorem C38_once_when_last_arrives (i : Int) (r : Request) (m : CostMatrix) (os : List PlanOptions)
    (hne : r.tasks ≠ []) (hos : os.map PlanOptions.taskId = r.tasks) (hnd : r.tasks.Nodup)
    (ms : List Msg) (hperm : (ofRequest i ms).Perm (.request r :: .matrix m :: os.map .options)) :
    (∃ c, calculations i ms = [c] ∧ c.request = some r ∧ c.matrix = some m ∧
      ∀ o ∈ os, (o.taskId, o) ∈ c.plans) ∧
    ∀ pre x, pre ++ [x] <+: ofRequest i ms → ∀ ms', ofRequest i ms' = pre → calculations i ms' = [] := by
  have hmemr : Msg.request r ∈ ofRequest i ms := hperm.mem_iff.2 (by simp)
  have hmemm : Msg.matrix m ∈ ofRequest i ms := hperm.mem_iff.2 (by simp)
  have hmemo : ∀ o ∈ os, Msg.options o ∈ ofRequest i ms := fun o ho => hperm.mem_iff.2 (by simp [ho])
  have hmem : ∀ x ∈ ofRequest i ms, x = .request r ∨ x = .matrix m ∨ ∃ o ∈ os, x = .options o := by
    intro x hx
    have := hperm.mem_iff.1 hx
    simp only [List.mem_cons, List.mem_map] at this
    rcases this with h | h | ⟨o, ho, h⟩
    · exact .inl h
    · exact .inr (.inl h)
    · exact .inr (.inr ⟨o, ho, h.symm⟩)
  have hone : ∀ o ∈ os, ∀ o' ∈ os, o.taskId = o'.taskId → o = o' := by
    intro o ho o' ho' he
    have hn : (os.map PlanOptions.taskId).Nodup := by rw [hos]; exact hnd
    clear hos hperm hmemo hmem hmemr hmemm
    induction os with
    | nil => simp at ho
    | cons a as ih =>
      simp only [List.map_cons, List.nodup_cons, List.mem_map, not_exists, not_and] at hn
      rcases List.mem_cons.1 ho with rfl | h1 <;> rcases List.mem_cons.1 ho' with rfl | h2
      · rfl
      · exact absurd he.symm (hn.1 o' h2)
      · exact absurd he (hn.1 o h1)
      · exact ih h1 h2 hn.2
  have hlr : latest Msg.asRequest (ofRequest i ms) = some r :=
    latest_perm hmemr rfl (by
      intro m' hm' y hy
      rcases hmem m' hm' with rfl | rfl | ⟨o, -, rfl⟩ <;> simp [Msg.asRequest] at hy
      exact hy.symm)
  have hlm : latest Msg.asMatrix (ofRequest i ms) = some m :=
    latest_perm hmemm rfl (by
      intro m' hm' y hy
      rcases hmem m' hm' with rfl | rfl | ⟨o, -, rfl⟩ <;> simp [Msg.asMatrix] at hy
      exact hy.symm)
  have hlo : ∀ o ∈ os, latest (Msg.asOptions o.taskId) (ofRequest i ms) = some o := by
    intro o ho
    refine latest_perm (hmemo o ho) (by simp [Msg.asOptions]) ?_
    intro m' hm' y hy
    rcases hmem m' hm' with rfl | rfl | ⟨o', ho', rfl⟩ <;> simp [Msg.asOptions] at hy
    rw [← hy.2]
    exact hone o' ho' o ho hy.1
  have hcomp : Complete (ofRequest i ms) := by
    refine ⟨r, m, hlr, hlm, hne, ?_⟩
    intro k hk
    rw [← hos] at hk
    obtain ⟨o, ho, rfl⟩ := List.mem_map.1 hk
    exact ⟨o, hlo o ho⟩
  -- a shorter list misses one of the messages
  have hndm : (ofRequest i ms).Nodup := by
    rw [hperm.nodup_iff]
    have hn : (os.map PlanOptions.taskId).Nodup := by rw [hos]; exact hnd
    have : (os.map Msg.options).Nodup := by
      unfold List.Nodup at hn ⊢
      rw [List.pairwise_map] at hn ⊢
      exact hn.imp (by intro a b hab he; simp only [Msg.options.injEq] at he; exact hab (by rw [he]))
    simp [this]
  have hshort : ∀ pre, pre <+: ofRequest i ms → pre ≠ ofRequest i ms → ¬ Complete pre := by
    intro pre hp hne' hc
    obtain ⟨suf, hsuf⟩ := hp
    rcases suf with _ | ⟨x, suf⟩
    · simp at hsuf; exact hne' hsuf
    have hx : x ∈ ofRequest i ms := by rw [← hsuf]; simp
    have hxp : x ∉ pre := by
      intro h
      rw [← hsuf] at hndm
      exact (List.nodup_append.1 hndm).2.2 x h x (by simp) rfl
    have hsub : ∀ y ∈ pre, y ∈ ofRequest i ms := by
      intro y hy; rw [← hsuf]; simp [hy]
    obtain ⟨r', m', hr', hm', -, ho'⟩ := hc
    obtain ⟨y, hy, hyf⟩ := latest_mem hr'
    have hyr : y = .request r := by
      rcases hmem y (hsub y hy) with rfl | rfl | ⟨o, -, rfl⟩ <;> simp_all [Msg.asRequest]
    obtain ⟨z, hz, hzf⟩ := latest_mem hm'
    have hzm : z = .matrix m := by
      rcases hmem z (hsub z hz) with rfl | rfl | ⟨o, -, rfl⟩ <;> simp_all [Msg.asMatrix]
    have hrr : r' = r := by
      rw [hyr] at hyf; simp [Msg.asRequest] at hyf; exact hyf.symm
    rcases hmem x hx with rfl | rfl | ⟨o, ho, rfl⟩
    · exact hxp (hyr ▸ hy)
    · exact hxp (hzm ▸ hz)
    · have hk : o.taskId ∈ r'.tasks := by
        rw [hrr, ← hos]; exact List.mem_map.2 ⟨o, ho, rfl⟩
      obtain ⟨o2, ho2⟩ := ho' _ hk
      obtain ⟨w, hw, hwf⟩ := latest_mem ho2
      rcases hmem w (hsub w hw) with rfl | rfl | ⟨o3, ho3, rfl⟩ <;> simp [Msg.asOptions] at hwf
      have := hone o3 ho3 o ho hwf.1
      subst this
      exact hxp hw
  constructor
  · obtain ⟨bs, rest, h1, h2, h3, h4⟩ := C38_one_calculation_per_batch ms i
    have hu := batches_unique bs [ofRequest i ms] rest [] (by rw [← h1]; simp) h2
      (by intro b hb; rw [List.mem_singleton.1 hb]; exact ⟨hcomp, hshort⟩) h3
      (fun pre hp => waiting_nil pre hp)
    rw [hu.1] at h4
    rcases hcalc : calculations i ms with _ | ⟨c, cs⟩
    · rw [hcalc] at h4; cases h4
    · rw [hcalc] at h4
      cases h4 with
      | cons hc hcs =>
        cases hcs
        refine ⟨c, rfl, by rw [hc.request, hlr], by rw [hc.matrix, hlm], ?_⟩
        intro o ho
        have := hc.options o.taskId
        rw [hlo o ho] at this
        rcases hf : c.plans.find? fun q => q.1 == o.taskId with _ | q
        · rw [hf] at this; simp at this
        · rw [hf] at this
          simp only [Option.map_some, Option.some.injEq] at this
          have h5 := List.find?_some hf
          have h6 := List.mem_of_find?_eq_some hf
          have h7 : q = (o.taskId, o) := by
            rw [← this]
            simp only [beq_iff_eq] at h5
            rw [← this] at h5
            exact Prod.ext h5 rfl
          rw [← h7]; exact h6
  · intro pre x hp ms' hms'
    obtain ⟨bs, rest, h1, h2, h3, h4⟩ := C38_one_calculation_per_batch ms' i
    have hw : ∀ p, p <+: pre → ¬ Complete p := by
      intro p hpp
      refine hshort p (hpp.trans ((List.prefix_append _ _).trans hp)) ?_
      intro he
      have h5 := hpp.length_le
      have h6 := hp.length_le
      rw [he] at h5
      simp at h6
      omega
    have hu := batches_unique bs [] rest pre (by rw [← h1, hms']; simp) h2 (by simp) h3 hw
    rw [hu.1] at h4
    cases hcalc : calculations i ms' with
    | nil => rfl
    | cons c cs => rw [hcalc] at h4; cases h4

/-- A request with no tasks is never calculated, whatever else arrives. -/
theorem C38_empty_request_ignored (ms : List Msg) (i : Int)
    (h : ∀ r, Msg.request r ∈ ofRequest i ms → r.tasks = []) : calculations i ms = [] := by
  obtain ⟨bs, rest, h1, h2, -, h4⟩ := C38_one_calculation_per_batch ms i
  rcases bs with _ | ⟨b, bs⟩
  · cases hc : calculations i ms with
    | nil => rfl
    | cons c cs => rw [hc] at h4; cases h4
  · exfalso
    obtain ⟨⟨r, m, hr, -, hne, -⟩, -⟩ := h2 b (by simp)
    obtain ⟨x, hx, hf⟩ := latest_mem hr
    have hxm : x ∈ ofRequest i ms := by rw [h1]; simp [hx]
    rcases x with r' | o | m' <;> simp [Msg.asRequest] at hf
    subst hf
    exact hne (h _ hxm)

/-- Two requests, interleaved; the matrix of request 7 arrives last, that of request 8 first. -/
example :
    let o7 : PlanOptions := { requestId := 7, taskId := 1, composition := [], options := [] }
    let o8 : PlanOptions := { requestId := 8, taskId := 2, composition := [], options := [] }
    let r7 : Request := { requestId := 7, tasks := [1], relationships := [], operatingRegion := 0 }
    let r8 : Request := { requestId := 8, tasks := [2], relationships := [], operatingRegion := 0 }
    let ms : List Msg := [.options o7, .matrix ⟨8, []⟩, .request r7, .options o8, .request r8,
      .matrix ⟨7, []⟩]
    (ofRequest 7 ms).Perm (.request r7 :: .matrix ⟨7, []⟩ :: [o7].map .options) ∧
    (receiveAll (fun _ => none) ms).2.map (fun c => c.request) = [some r8, some r7] := by
  decide +kernel

end Verif.Assign
