import Verif.Net.Spec
import Verif.Msg.Lemmas

/-!
Properties C11–C14, C18, C19 and C59 of network clients.
-/

namespace Verif.Net

open Verif Verif.Msg

/-! ### C11: ids -/

theorem messageIds_gt : ∀ (h : List IdOp) (s : Ids), ∀ x ∈ messageIds (runM idStep s h).2, s.message ≤ x
  | [], _, x, hx => by simp [messageIds] at hx
  | i :: is, s, x, hx => by
    rw [runM_cons] at hx
    have ih := messageIds_gt is (idStep s i).1 x
    cases i <;> simp only [messageIds, idStep, List.filterMap_cons, List.mem_cons] at hx ih ⊢
    case construct => exact ih hx
    case draw => exact ih hx
    case constructWith => exact ih hx
    case drawMessage =>
      rcases hx with rfl | hx
      · omega
      · have := ih hx; omega
    case send => have := ih hx; omega

/-- **C11 (message ids).** In every history the message ids handed out are strictly increasing, hence
never repeat. (The 64 bit counter is unbounded here.) -/
theorem C11_message_ids_distinct (h : List IdOp) :
    (messageIds (runM idStep {} h).2).Pairwise (· < ·) := by
  suffices ∀ s : Ids, (messageIds (runM idStep s h).2).Pairwise (· < ·) from this {}
  induction h with
  | nil => intro s; simp [messageIds]
  | cons i is ih =>
    intro s
    rw [runM_cons]
    have ih' := ih (idStep s i).1
    cases i with
    | drawMessage =>
      simp only [messageIds, idStep, List.filterMap_cons]
      refine List.pairwise_cons.2 ⟨fun x hx => ?_, ih'⟩
      have h2 : x ∈ messageIds (runM idStep { s with message := s.message + 1 } is).2 := hx
      have h3 := messageIds_gt is _ x h2
      simp only [] at h3
      omega
    | construct => exact ih'
    | draw => exact ih'
    | constructWith id => exact ih'
    | send => exact ih'

/-- The ids that come from the counter, with the operation they come from. -/
def counted : List IdOp → List IdOut → List (Bool × Nat)
  | .construct :: is, .client id :: os => (true, id) :: counted is os
  | .draw :: is, .reserved id :: os => (false, id) :: counted is os
  | _ :: is, _ :: os => counted is os
  | _, _ => []

theorem counted_sorted : ∀ (h : List IdOp) (s : Ids),
    s.client + (h.filter isClientOp).length < 4294967296 →
    ¬ [IdOp.draw, IdOp.construct] <:+: h.filter isClientOp →
    ((counted h (runM idStep s h).2).map (·.2)).Pairwise (· < ·) ∧
    (∀ x ∈ counted h (runM idStep s h).2, s.client ≤ x.2 ∧
      ((h.filter isClientOp).head? ≠ some .construct → s.client < x.2))
  | [], s, _, _ => by simp [counted]
  | i :: is, s, hl, hn => by
    rw [runM_cons]
    cases i with
    | drawMessage => exact counted_sorted is _ hl hn
    | send => exact counted_sorted is _ hl hn
    | construct =>
      have hf : (IdOp.construct :: is).filter isClientOp = .construct :: is.filter isClientOp := rfl
      rw [hf] at hl hn ⊢
      simp only [List.length_cons] at hl
      have hinc : inc32 s.client = s.client + 1 := by unfold inc32; omega
      have hn' : ¬ [IdOp.draw, IdOp.construct] <:+: is.filter isClientOp :=
        fun e => hn (e.trans (List.suffix_cons _ _).isInfix)
      obtain ⟨h1, h2⟩ := counted_sorted is { s with client := inc32 s.client }
        (by simp only [hinc]; omega) hn'
      simp only [idStep, counted, List.map_cons]
      refine ⟨List.pairwise_cons.2 ⟨fun x hx => ?_, h1⟩, ?_⟩
      · obtain ⟨y, hy, rfl⟩ := List.mem_map.1 hx
        have := (h2 y hy).1
        simp only [hinc] at this
        omega
      · intro x hx
        rcases List.mem_cons.1 hx with rfl | hx
        · exact ⟨by simp, fun e => by simp at e⟩
        · have := (h2 x hx).1
          simp only [hinc] at this
          exact ⟨by omega, fun e => by simp at e⟩
    | draw =>
      have hf : (IdOp.draw :: is).filter isClientOp = .draw :: is.filter isClientOp := rfl
      rw [hf] at hl hn ⊢
      simp only [List.length_cons] at hl
      have hinc : inc32 s.client = s.client + 1 := by unfold inc32; omega
      have hn' : ¬ [IdOp.draw, IdOp.construct] <:+: is.filter isClientOp :=
        fun e => hn (e.trans (List.suffix_cons _ _).isInfix)
      have hhead : (is.filter isClientOp).head? ≠ some .construct := by
        intro e
        rcases hq : is.filter isClientOp with _ | ⟨q, qs⟩
        · rw [hq] at e; simp at e
        · rw [hq] at e hn
          simp only [List.head?_cons, Option.some.injEq] at e
          subst e
          exact hn ⟨[], qs, rfl⟩
      obtain ⟨h1, h2⟩ := counted_sorted is { s with client := inc32 s.client }
        (by simp only [hinc]; omega) hn'
      simp only [idStep, counted, List.map_cons]
      refine ⟨List.pairwise_cons.2 ⟨fun x hx => ?_, h1⟩, ?_⟩
      · obtain ⟨y, hy, rfl⟩ := List.mem_map.1 hx
        have := (h2 y hy).2 hhead
        simp only [hinc] at this ⊢
        omega
      · intro x hx
        rcases List.mem_cons.1 hx with rfl | hx
        · simp only [hinc]; omega
        · have := (h2 x hx).1
          simp only [hinc] at this
          exact ⟨by omega, fun _ => by omega⟩
    | constructWith id =>
      have hf : (IdOp.constructWith id :: is).filter isClientOp =
        .constructWith id :: is.filter isClientOp := rfl
      rw [hf] at hl hn ⊢
      simp only [List.length_cons] at hl
      have hinc : inc32 s.client = s.client + 1 := by unfold inc32; omega
      have hn' : ¬ [IdOp.draw, IdOp.construct] <:+: is.filter isClientOp :=
        fun e => hn (e.trans (List.suffix_cons _ _).isInfix)
      obtain ⟨h1, h2⟩ := counted_sorted is { s with client := inc32 s.client }
        (by simp only [hinc]; omega) hn'
      simp only [idStep, counted]
      refine ⟨h1, fun x hx => ?_⟩
      have := (h2 x hx).1
      simp only [hinc] at this
      exact ⟨by omega, fun _ => by omega⟩

theorem live_perm : ∀ (h : List IdOp) (s : Ids),
    (liveIds (runM idStep s h).2).Perm
      (((counted h (runM idStep s h).2).filter (·.1)).map (·.2) ++ givenIds h) ∧
    reservedIds (runM idStep s h).2 = ((counted h (runM idStep s h).2).filter (!·.1)).map (·.2)
  | [], _ => by simp [liveIds, counted, givenIds, reservedIds]
  | i :: is, s => by
    rw [runM_cons]
    obtain ⟨h1, h2⟩ := live_perm is (idStep s i).1
    cases i with
    | construct => exact ⟨h1.cons _, h2⟩
    | draw => exact ⟨h1, congrArg (_ :: ·) h2⟩
    | constructWith id => exact ⟨(h1.cons id).trans List.perm_middle.symm, h2⟩
    | drawMessage => exact ⟨h1, h2⟩
    | send => exact ⟨h1, h2⟩

/-- **C11, partial.** In a history with fewer than 2^32 - 10 operations on the client counter in which
no client is constructed (keeping its own id) directly after an id was reserved with
`getUniqueNetworkClientId`, and in which clients that are given an id are given different reserved
ids: all clients have different ids.

Missing: a client constructed directly after a reservation gets the reserved id
(`C11_client_id_violated`); after 2^32 operations the counter starts again
(`C11_wrap_violated`). -/
theorem C11_client_ids_distinct_partial (h : List IdOp)
    (hl : 10 + (h.filter isClientOp).length < 4294967296)
    (hn : ¬ [IdOp.draw, IdOp.construct] <:+: h.filter isClientOp) (hg : (givenIds h).Nodup)
    (hr : ∀ id ∈ givenIds h, id ∈ reservedIds (runM idStep {} h).2) :
    (liveIds (runM idStep {} h).2).Nodup := by
  obtain ⟨h1, h2⟩ := live_perm h {}
  obtain ⟨h3, -⟩ := counted_sorted h {} hl hn
  refine h1.nodup_iff.2 ?_
  generalize counted h (runM idStep {} h).2 = C at *
  rw [List.nodup_append]
  refine ⟨?_, hg, ?_⟩
  · have : ((C.filter (·.1)).map (·.2)).Pairwise (· < ·) := h3.sublist (List.filter_sublist.map _)
    exact this.imp fun e => Nat.ne_of_lt e
  · intro a ha b hb heq
    subst heq
    have hb' := hr a hb
    rw [h2] at hb'
    obtain ⟨⟨t, x⟩, hx, hxa⟩ := List.mem_map.1 ha
    obtain ⟨⟨u, y⟩, hy, hya⟩ := List.mem_map.1 hb'
    simp only [List.mem_filter] at hx hy
    simp only at hxa hya
    subst hxa
    subst hya
    have hne : ∀ {l : List (Bool × Nat)}, (l.map (·.2)).Pairwise (· < ·) → ∀ {p q}, p ∈ l → q ∈ l →
        p.2 = q.2 → p = q := by
      intro l
      induction l with
      | nil => intro _ p q hp; simp at hp
      | cons z l ih =>
        intro hp p q hpm hqm he
        rw [List.map_cons, List.pairwise_cons] at hp
        rcases List.mem_cons.1 hpm with e1 | hpm
        · rcases List.mem_cons.1 hqm with e2 | hqm
          · rw [e1, e2]
          · have := hp.1 _ (List.mem_map_of_mem hqm)
            rw [← he, e1] at this
            omega
        · rcases List.mem_cons.1 hqm with e2 | hqm
          · have := hp.1 _ (List.mem_map_of_mem hpm)
            rw [he, e2] at this
            omega
          · exact ih hp.2 hpm hqm he
    have := hne h3 hx.1 hy.1 rfl
    simp only [Prod.mk.injEq, and_true] at this
    rw [this] at hx
    simp [hx.2] at hy

/-- Two tasks with reserved ids among other clients. -/
example :
    let h : List IdOp := [.construct, .construct, .draw, .send, .draw, .constructWith 13, .drawMessage,
      .construct, .constructWith 14, .construct]
    10 + (h.filter isClientOp).length < 4294967296 ∧
    ¬ [IdOp.draw, IdOp.construct] <:+: h.filter isClientOp ∧ (givenIds h).Nodup ∧
    (∀ id ∈ givenIds h, id ∈ reservedIds (runM idStep {} h).2) ∧
    liveIds (runM idStep {} h).2 = [10, 11, 13, 15, 14, 17] := by decide

/-- **C11 is violated**: an id is reserved for a task service, another client is constructed, then the
task service is created: both have the id 11. -/
theorem C11_client_id_violated :
    liveIds (runM idStep {} [.draw, .construct, .constructWith 11]).2 = [11, 11] := by decide

/-- **C11 is violated** when the 32 bit counter starts again. -/
theorem C11_wrap_violated :
    (idStep { client := 4294967295 } .construct).1.client = 0 := by decide

/-! ### C12: reception -/

theorem msg_valid {f : Fields} (hc : f.Clean) : f.msg.valid = true :=
  (set_valid_iff ..).mpr ⟨hc.address, hc.payload, hc.contentType.1, hc.descriptor.1, hc.entityId.1, hc.serviceId.1⟩

theorem fields_wire {f : Fields} (hc : f.Clean) : WireForm
    (wireString f.address (attrString f.contentType f.descriptor f.group f.entityId f.serviceId) f.payload)
    f.address f.contentType f.descriptor f.group f.entityId f.serviceId f.payload :=
  { eq := by simp [wireString, attrString]
    address_clean := hc.address.2, ct_clean := hc.contentType.2, ds_clean := hc.descriptor.2,
    gr_clean := hc.group, ei_clean := hc.entityId.2, si_clean := hc.serviceId.2,
    ct_ne := hc.contentType.1, ds_ne := hc.descriptor.1, ei_ne := hc.entityId.1, si_ne := hc.serviceId.1,
    payload_ne := hc.payload }

theorem msg_eq {f : Fields} (hc : f.Clean) : f.msg =
    { valid := true
      str := wireString f.address (attrString f.contentType f.descriptor f.group f.entityId f.serviceId) f.payload
      address := f.address, payload := f.payload
      attrs := some
        { valid := true, str := attrString f.contentType f.descriptor f.group f.entityId f.serviceId,
          contentType := f.contentType, descriptor := f.descriptor, group := f.group,
          entityId := f.entityId, serviceId := f.serviceId } } := by
  have l1 := List.length_pos_iff.mpr hc.contentType.1
  have l2 := List.length_pos_iff.mpr hc.descriptor.1
  have l3 := List.length_pos_iff.mpr hc.entityId.1
  have l4 := List.length_pos_iff.mpr hc.serviceId.1
  have l5 := List.length_pos_iff.mpr hc.payload
  have hattr : ({} : Attrs).set f.contentType f.descriptor f.group f.entityId f.serviceId =
      { valid := true, str := attrString f.contentType f.descriptor f.group f.entityId f.serviceId,
        contentType := f.contentType, descriptor := f.descriptor, group := f.group,
        entityId := f.entityId, serviceId := f.serviceId } := by
    unfold Attrs.set
    rw [if_neg (by omega), if_neg (by omega), if_neg (by omega), if_neg (by omega)]
  unfold Fields.msg AAMsg.set
  rw [(isValidAddress_iff f.address).mpr hc.address]
  simp only [Bool.not_true, Bool.false_eq_true, if_false]
  rw [if_neg (by omega), hattr]
  rfl

/-- A clean message is received as it was sent, unless it is one's own. -/
theorem receive_clean {f : Fields} (hc : f.Clean) (multi : Bool) (e s : Str) :
    receive multi e s f = if (f.entityId, f.serviceId) = (e, s) then none else some f := by
  have hcond : (e ≠ f.entityId ∨ s ≠ f.serviceId) ↔ ¬ (f.entityId, f.serviceId) = (e, s) := by
    simp only [Prod.mk.injEq, ne_eq]
    constructor
    · rintro (h | h) ⟨h1, h2⟩
      · exact h h1.symm
      · exact h h2.symm
    · intro h
      rcases Classical.em (e = f.entityId) with h1 | h1
      · exact .inr fun h2 => h ⟨h1.symm, h2.symm⟩
      · exact .inl h1
  have hfields : fieldsOf f.msg = some f := by
    rw [msg_eq hc]; rfl
  unfold receive
  split
  · rw [msg_valid hc, hfields]
    by_cases h : (f.entityId, f.serviceId) = (e, s)
    · rw [if_neg (fun h' => hcond.1 h' h), if_pos h]
    · rw [if_pos (hcond.2 h), if_neg h]; rfl
  · have hstr : f.msg.str = wireString f.address
        (attrString f.contentType f.descriptor f.group f.entityId f.serviceId) f.payload := by
      rw [msg_eq hc]
    rw [hstr, parse_of_wireForm {} (fields_wire hc)]
    simp only [if_true, fieldsOf, Option.map_some, Option.bind_some]
    by_cases h : (f.entityId, f.serviceId) = (e, s)
    · rw [if_neg (fun h' => hcond.1 h' h), if_pos h]
    · rw [if_pos (hcond.2 h), if_neg h]

theorem hub_clean {f : Fields} (hc : f.Clean) (multi : Bool) (e : Str) :
    hub multi e f = if (f.entityId, f.serviceId) = (e, "1".toList) then none else some f := by
  unfold hub
  rw [msg_valid hc, receive_clean hc]
  by_cases h : (f.entityId, f.serviceId) = (e, "1".toList)
  · rw [if_pos h]; rfl
  · rw [if_neg h]
    simp [msg_valid hc]

theorem prefix_of_append_dollar {a b c : Str} (h : '$' ∉ a) (hp : a <+: b ++ '$' :: c) : a <+: b := by
  rw [List.prefix_iff_eq_take] at hp
  by_cases hl : a.length ≤ b.length
  · rw [List.take_append_of_le_length hl] at hp
    rw [hp]; exact List.take_prefix _ _
  · exfalso
    apply h
    rw [hp, List.take_append]
    obtain ⟨k, hk⟩ : ∃ k, a.length - b.length = k + 1 := ⟨a.length - b.length - 1, by omega⟩
    rw [hk]; simp

theorem frame_prefix {f : Fields} (hc : f.Clean) {a : Str} (ha : '$' ∉ a) (multi : Bool) :
    a.isPrefixOf (frame multi f) = a.isPrefixOf f.address := by
  unfold frame
  split
  · rfl
  · rw [Bool.eq_iff_iff, List.isPrefixOf_iff_prefix, List.isPrefixOf_iff_prefix]
    have hstr : f.msg.str = f.address ++ '$' ::
        (attrString f.contentType f.descriptor f.group f.entityId f.serviceId ++ '$' :: f.payload) := by
      rw [msg_eq hc]; rfl
    rw [hstr]
    exact ⟨prefix_of_append_dollar ha, fun h => h.trans (List.prefix_append _ _)⟩

theorem subscribed_snoc (h : List RIn) (i : RIn) (a : Str) : subscribed (h ++ [i]) a =
    (match i with
      | .add a' => if a' = a then true else subscribed h a
      | .remove a' => if a' = a then false else subscribed h a
      | _ => subscribed h a) := by
  unfold subscribed
  rw [List.foldl_append]
  rfl

/-- The state of the receiver after a history. -/
structure RInv (e s : Str) (h : List RIn) (r : Receiver) (os : List (Option Fields)) : Prop where
  subs : ∀ a, a ∈ r.subs ↔ subscribed h a = true
  queue : r.queue = []
  clean : ∀ f ∈ r.socket, f.Clean
  expected : Expected e s h (os.filterMap id ++ r.socket.filter (fun f => (f.entityId, f.serviceId) ≠ (e, s)))
  length : r.socket.length ≤ pushes h

theorem pushes_snoc (h : List RIn) (i : RIn) : pushes (h ++ [i]) =
    pushes h + (match i with | .push _ => 1 | _ => 0) := by
  unfold pushes
  rw [List.filter_append, List.length_append]
  cases i <;> rfl

theorem rinv_run (multi : Bool) (e s : Str) (h : List RIn) (hcl : ∀ f, .push f ∈ h → f.Clean)
    (hd : ∀ a, .add a ∈ h → '$' ∉ a) :
    RInv e s h (runM (rstep multi e s) {} h).1 (runM (rstep multi e s) {} h).2 := by
  have key := runM_induction (step := rstep multi e s) (s0 := {})
    (P := fun h r os => (∀ f, .push f ∈ h → f.Clean) → (∀ a, .add a ∈ h → '$' ∉ a) →
      RInv e s h r os ∧ ∀ a ∈ r.subs, '$' ∉ a)
    (fun _ _ => ⟨⟨by simp [subscribed], rfl, by simp, .nil, by simp [pushes]⟩, by simp⟩) ?_ h hcl hd
  · exact key.1
  intro h i ih hcl hd
  obtain ⟨⟨h1, h2, h3, h4, h5⟩, h6⟩ := ih (fun f hf => hcl f (List.mem_append_left _ hf))
    (fun a ha => hd a (List.mem_append_left _ ha))
  generalize (runM (rstep multi e s) {} h).1 = r at *
  generalize (runM (rstep multi e s) {} h).2 = os at *
  have hos : ∀ o : Option Fields, (os ++ [o]).filterMap id = os.filterMap id ++ o.toList := by
    intro o; cases o <;> simp
  cases i with
  | add a =>
    have hda := hd a (by simp)
    simp only [rstep, Receiver.add]
    refine ⟨⟨?_, ?_, ?_, ?_, ?_⟩, ?_⟩
    · intro b
      rw [subscribed_snoc]
      simp only []
      split
      · rename_i hc
        simp only [List.contains_eq_mem, decide_eq_true_eq] at hc
        split
        · rename_i e1; subst e1; simp [hc]
        · exact h1 b
      · split
        · rename_i e1; subst e1; simp
        · rename_i e1
          simp only [List.mem_append, List.mem_singleton]
          rw [h1 b]
          constructor
          · rintro (h | h)
            · exact h
            · exact absurd h.symm e1
          · exact .inl
    · split <;> exact h2
    · split <;> exact h3
    · rw [hos, Option.toList_none, List.append_nil]
      refine .other ?_ (by simp)
      split <;> exact h4
    · rw [pushes_snoc]; split <;> simpa using h5
    · split
      · exact h6
      · intro b hb
        simp only [List.mem_append, List.mem_singleton] at hb
        rcases hb with hb | rfl
        · exact h6 b hb
        · exact hda
  | remove a =>
    simp only [rstep, Receiver.remove]
    refine ⟨⟨?_, ?_, ?_, ?_, ?_⟩, ?_⟩
    · intro b
      rw [subscribed_snoc]
      simp only []
      split
      · simp only [List.mem_filter, bne_iff_ne, ne_eq, h1 b]
        split
        · rename_i e1; subst e1; simp
        · rename_i e1; simp [show ¬ b = a from fun e2 => e1 (Eq.symm e2)]
      · rename_i hc
        simp only [List.contains_eq_mem, decide_eq_true_eq] at hc
        split
        · rename_i e1; subst e1; simp [hc]
        · exact h1 b
    · split <;> exact h2
    · split <;> exact h3
    · rw [hos, Option.toList_none, List.append_nil]
      refine .other ?_ (by simp)
      split <;> exact h4
    · rw [pushes_snoc]; split <;> simpa using h5
    · split
      · intro b hb; exact h6 b (List.mem_filter.1 hb).1
      · exact h6
  | getNext =>
    simp only [rstep, Receiver.getNext, h2]
    split
    · rename_i hs
      refine ⟨⟨?_, h2, h3, ?_, ?_⟩, h6⟩
      · intro b; rw [subscribed_snoc]; exact h1 b
      · rw [hos, Option.toList_none, List.append_nil]; exact .other h4 (by simp)
      · rw [pushes_snoc]; simpa using h5
    · rename_i f fs hs
      refine ⟨⟨?_, rfl, ?_, ?_, ?_⟩, h6⟩
      · intro b; rw [subscribed_snoc]; exact h1 b
      · intro g hg; exact h3 g (by rw [hs]; exact List.mem_cons_of_mem _ hg)
      · rw [hos, receive_clean (h3 f (by rw [hs]; simp))]
        refine .other ?_ (by simp)
        rw [hs, List.filter_cons] at h4
        by_cases hown : (f.entityId, f.serviceId) = (e, s)
        · rw [if_pos hown]
          rw [if_neg (by simp only [hown, ne_eq, not_true_eq_false, not_false_eq_true, decide_true, decide_false, Bool.false_eq_true])] at h4
          simpa using h4
        · rw [if_neg hown]
          rw [if_pos (by simp only [hown, ne_eq, not_true_eq_false, not_false_eq_true, decide_true, decide_false, Bool.false_eq_true])] at h4
          simpa using h4
      · rw [pushes_snoc]; rw [hs] at h5; simp only [List.length_cons] at h5; simp only []; omega
  | push f =>
    have hcf := hcl f (by simp)
    have hsub : ∀ b, subscribed (h ++ [.push f]) b = subscribed h b := fun b => by rw [subscribed_snoc]
    have hwant : r.subs.any (fun a => a.isPrefixOf (frame multi f)) = true ↔ Wanted h f.address := by
      rw [List.any_eq_true]
      constructor
      · rintro ⟨a, ha, hp⟩
        rw [frame_prefix hcf (h6 a ha), List.isPrefixOf_iff_prefix] at hp
        exact ⟨a, (h1 a).1 ha, hp⟩
      · rintro ⟨a, ha, hp⟩
        have hm := (h1 a).2 ha
        refine ⟨a, hm, ?_⟩
        rw [frame_prefix hcf (h6 a hm), List.isPrefixOf_iff_prefix]
        exact hp
    simp only [rstep, hub_clean hcf]
    by_cases h7 : (f.entityId, f.serviceId) = (e, "1".toList)
    · rw [if_pos h7]
      refine ⟨⟨fun b => by rw [hsub]; exact h1 b, h2, h3, ?_, by rw [pushes_snoc]; simp only []; omega⟩, h6⟩
      rw [hos, Option.toList_none, List.append_nil]
      exact .skip h4 (.inr (.inr h7))
    · rw [if_neg h7]
      simp only [Receiver.arrive]
      split
      · rename_i hw
        have hw' := hwant.1 hw
        refine ⟨⟨fun b => by rw [hsub]; exact h1 b, h2, ?_, ?_, ?_⟩, h6⟩
        · intro g hg
          simp only [List.mem_append, List.mem_singleton] at hg
          rcases hg with hg | rfl
          · exact h3 g hg
          · exact hcf
        · rw [hos, Option.toList_none, List.append_nil, List.filter_append, ← List.append_assoc]
          by_cases hown : (f.entityId, f.serviceId) = (e, s)
          · have : [f].filter (fun f => (f.entityId, f.serviceId) ≠ (e, s)) = [] := by
              simp only [List.filter_cons, List.filter_nil, hown, ne_eq, not_true_eq_false, decide_false, Bool.false_eq_true, if_false]
            rw [this, List.append_nil]
            exact .skip h4 (.inr (.inl hown))
          · have : [f].filter (fun f => (f.entityId, f.serviceId) ≠ (e, s)) = [f] := by
              simp only [List.filter_cons, List.filter_nil, hown, ne_eq, not_false_eq_true, decide_true, if_true]
            rw [this]
            exact .take h4 hw' hown h7
        · rw [pushes_snoc]; simp only [List.length_append, List.length_cons, List.length_nil]; omega
      · rename_i hw
        refine ⟨⟨fun b => by rw [hsub]; exact h1 b, h2, h3, ?_, by rw [pushes_snoc]; simp only []; omega⟩, h6⟩
        rw [hos, Option.toList_none, List.append_nil]
        exact .skip h4 (.inl fun e1 => hw (hwant.2 e1))

theorem Expected.unique {e s : Str} {h : List RIn} {a b : List Fields} (ha : Expected e s h a)
    (hb : Expected e s h b) : a = b := by
  have aux : ∀ {h : List RIn} {i : RIn} {x : List Fields}, Expected e s (h ++ [i]) x →
      (∃ y, Expected e s h y ∧
        ((x = y ∧ ∀ f, i ≠ .push f) ∨
         (∃ f, i = .push f ∧ x = y ++ [f] ∧ Wanted h f.address ∧ (f.entityId, f.serviceId) ≠ (e, s) ∧
          (f.entityId, f.serviceId) ≠ (e, "1".toList)) ∨
         (∃ f, i = .push f ∧ x = y ∧ (¬ Wanted h f.address ∨ (f.entityId, f.serviceId) = (e, s) ∨
          (f.entityId, f.serviceId) = (e, "1".toList))))) := by
    intro h i x hx
    generalize hg : h ++ [i] = g at hx
    cases hx with
    | nil => simp at hg
    | other h1 h2 =>
      obtain ⟨rfl, h3⟩ := List.append_inj' hg rfl
      simp only [List.cons.injEq, and_true] at h3
      subst h3
      exact ⟨_, h1, .inl ⟨rfl, h2⟩⟩
    | take h1 h2 h3 h4 =>
      obtain ⟨rfl, h5⟩ := List.append_inj' hg rfl
      simp only [List.cons.injEq, and_true] at h5
      exact ⟨_, h1, .inr (.inl ⟨_, h5, rfl, h2, h3, h4⟩)⟩
    | skip h1 h2 =>
      obtain ⟨rfl, h5⟩ := List.append_inj' hg rfl
      simp only [List.cons.injEq, and_true] at h5
      exact ⟨_, h1, .inr (.inr ⟨_, h5, rfl, h2⟩)⟩
  induction ha generalizing b with
  | nil =>
    generalize hg : ([] : List RIn) = g at hb
    cases hb with
    | nil => rfl
    | other => simp at hg
    | take => simp at hg
    | skip => simp at hg
  | other _ h2 ih =>
    obtain ⟨y, hy, h3 | ⟨f, h3, -⟩ | ⟨f, h3, -⟩⟩ := aux hb
    · rw [h3.1]; exact ih hy
    · exact absurd h3 (h2 f)
    · exact absurd h3 (h2 f)
  | @take h fs f _ h2 h3 h4 ih =>
    obtain ⟨y, hy, h5 | ⟨f', h5, h6, -⟩ | ⟨f', h5, -, h6⟩⟩ := aux hb
    · exact absurd rfl (h5.2 f)
    · cases h5; rw [h6, ih hy]
    · cases h5
      rcases h6 with h6 | h6 | h6
      · exact absurd h2 h6
      · exact absurd h6 h3
      · exact absurd h6 h4
  | @skip h fs f _ h2 ih =>
    obtain ⟨y, hy, h5 | ⟨f', h5, -, h6, h7, h8⟩ | ⟨f', h5, h6, -⟩⟩ := aux hb
    · exact absurd rfl (h5.2 f)
    · cases h5
      rcases h2 with h2 | h2 | h2
      · exact absurd h6 h2
      · exact absurd h2 h7
      · exact absurd h2 h8
    · cases h5; rw [h6, ih hy]

theorem Expected.exists (e s : Str) : ∀ h : List RIn, ∃ fs, Expected e s h fs := by
  intro h
  suffices ∀ n (h : List RIn), h.length = n → ∃ fs, Expected e s h fs from this _ h rfl
  intro n
  induction n with
  | zero => intro h hl; rw [List.length_eq_zero_iff.1 hl]; exact ⟨_, .nil⟩
  | succ n ih =>
    intro h hl
    rcases List.eq_nil_or_concat h with rfl | ⟨g, i, rfl⟩
    · simp at hl
    · rw [List.concat_eq_append] at hl ⊢
      obtain ⟨fs, hfs⟩ := ih g (by simpa using hl)
      by_cases hp : ∃ f, i = .push f
      · obtain ⟨f, rfl⟩ := hp
        by_cases h1 : Wanted g f.address
        · by_cases h2 : (f.entityId, f.serviceId) = (e, s)
          · exact ⟨_, .skip hfs (.inr (.inl h2))⟩
          · by_cases h3 : (f.entityId, f.serviceId) = (e, "1".toList)
            · exact ⟨_, .skip hfs (.inr (.inr h3))⟩
            · exact ⟨_, .take hfs h1 h2 h3⟩
        · exact ⟨_, .skip hfs (.inl h1)⟩
      · exact ⟨_, .other hfs fun f e => hp ⟨f, e⟩⟩

/-- **C12 (nothing else, in order).** In every history of subscribing, unsubscribing, messages pushed
by any clients and calls of `getNextMessage`, the messages that were handed over are an initial part of
those that the client has to get. -/
theorem C12_prefix_partial (multi : Bool) (e s : Str) (h : List RIn) (fs : List Fields)
    (hcl : ∀ f, .push f ∈ h → f.Clean) (hd : ∀ a, .add a ∈ h → '$' ∉ a) (hx : Expected e s h fs) :
    (runM (rstep multi e s) {} h).2.filterMap id <+: fs := by
  have := (rinv_run multi e s h hcl hd).expected
  rw [← this.unique hx]
  exact List.prefix_append _ _

theorem drain_socket (multi : Bool) (e s : Str) : ∀ (n : Nat) (r : Receiver), r.queue = [] →
    (∀ f ∈ r.socket, f.Clean) → r.socket.length ≤ n →
    (runM (rstep multi e s) r (List.replicate n .getNext)).2.filterMap id =
      r.socket.filter (fun f => (f.entityId, f.serviceId) ≠ (e, s))
  | 0, r, _, _, hl => by
    have : r.socket = [] := List.length_eq_zero_iff.1 (by omega)
    simp [this]
  | n + 1, r, hq, hc, hl => by
    rw [List.replicate_succ, runM_cons]
    rcases hs : r.socket with _ | ⟨f, fs⟩
    · have hst : rstep multi e s r .getNext = (r, none) := by simp [rstep, Receiver.getNext, hq, hs]
      rw [hst]
      have := drain_socket multi e s n r hq hc (by rw [hs]; simp)
      rw [hs] at this
      simpa using this
    · have hst : rstep multi e s r .getNext = ({ r with socket := fs }, receive multi e s f) := by
        simp [rstep, Receiver.getNext, hq, hs]
      have hcf := hc f (by rw [hs]; simp)
      rw [hst]
      have := drain_socket multi e s n { r with socket := fs } hq
        (fun g hg => hc g (by rw [hs]; exact List.mem_cons_of_mem _ hg))
        (by rw [hs] at hl; simpa using hl)
      rw [receive_clean hcf, List.filter_cons]
      by_cases hown : (f.entityId, f.serviceId) = (e, s)
      · rw [if_pos hown, if_neg (by simp only [hown, ne_eq, not_true_eq_false, not_false_eq_true, decide_true, decide_false, Bool.false_eq_true])]
        simpa using this
      · rw [if_neg hown, if_pos (by simp only [hown, ne_eq, not_true_eq_false, not_false_eq_true, decide_true, decide_false, Bool.false_eq_true])]
        simpa using this

/-- **C12 (nothing lost).** After as many further calls of `getNextMessage` as messages were pushed,
exactly the messages that the client has to get were handed over, each once and in order.

Missing (both theorems): messages whose fields contain delimiters are garbled in single-part mode
(`C12_delimiter_violated`). -/
theorem C12_complete_partial (multi : Bool) (e s : Str) (h : List RIn) (fs : List Fields) (n : Nat)
    (hcl : ∀ f, .push f ∈ h → f.Clean) (hd : ∀ a, .add a ∈ h → '$' ∉ a) (hx : Expected e s h fs)
    (hn : pushes h ≤ n) :
    (runM (rstep multi e s) {} (h ++ List.replicate n .getNext)).2.filterMap id = fs := by
  have hr := rinv_run multi e s h hcl hd
  rw [runM_append, List.filterMap_append]
  rw [drain_socket multi e s n _ hr.queue hr.clean (Nat.le_trans hr.length hn)]
  exact hr.expected.unique hx

/-- A message for the examples. -/
def exMsg (address : String) (entity service : String) : Fields :=
  { address := address.toList, contentType := "lmcp".toList, descriptor := "D".toList, group := [],
    entityId := entity.toList, serviceId := service.toList, payload := "p$|".toList }

/-- A history with a removed subscription, an own message and one that comes too early. -/
def exHistory : List RIn :=
  [.push (exMsg "a.b" "1" "20"), .add "a".toList, .add "b".toList, .push (exMsg "a.b" "1" "21"),
   .push (exMsg "a.c" "1" "30"), .remove "b".toList, .push (exMsg "b" "1" "20"), .getNext,
   .push (exMsg "ab" "7" "30")]

example : (∀ f, .push f ∈ exHistory → f.Clean) ∧ (∀ a, .add a ∈ exHistory → '$' ∉ a) ∧
    (runM (rstep false "1".toList "30".toList) {} (exHistory ++ List.replicate 5 .getNext)).2.filterMap id =
      [exMsg "a.b" "1" "21", exMsg "ab" "7" "30"] := by
  refine ⟨?_, ?_, by decide +kernel⟩
  · intro f hf
    simp only [exHistory, List.mem_cons, List.not_mem_nil, or_false, reduceCtorEq, RIn.push.injEq,
      false_or] at hf
    rcases hf with rfl | rfl | rfl | rfl | rfl <;> exact ⟨by decide, by decide, by decide, by decide,
      by decide, by decide, by decide⟩
  · intro a ha
    simp only [exHistory, List.mem_cons, List.not_mem_nil, or_false, reduceCtorEq, RIn.add.injEq,
      false_or] at ha
    rcases ha with rfl | rfl <;> decide

/-- **C12 is violated** in single-part mode when an attribute contains a delimiter: the message is
lost. -/
theorem C12_delimiter_violated :
    (runM (rstep false "1".toList "30".toList) {}
      [.add "a".toList, .push { exMsg "a" "1" "20" with descriptor := "D|x".toList }, .getNext]).2 =
        [none, none, none] ∧
    (runM (rstep true "1".toList "30".toList) {}
      [.add "a".toList, .push { exMsg "a" "1" "20" with descriptor := "D|x".toList }, .getNext]).2 =
        [none, none, some { exMsg "a" "1" "20" with descriptor := "D|x".toList }] := by
  decide +kernel

/-! ### C13: removing all subscriptions -/

/-- **C13 is violated** for every non-empty set of subscriptions: the loop never ends. -/
theorem C13_never_returns_violated (subs : List Str) (h : subs ≠ []) (fuel : Nat) :
    removeAllLoop fuel subs = none := by
  induction fuel with
  | zero => rfl
  | succ n ih =>
    rcases subs with _ | ⟨a, l⟩
    · exact absurd rfl h
    · rw [removeAllLoop]; exact ih

/-- **C13, partial.** It returns when there is nothing to remove.  Missing: every other case. -/
theorem C13_returns_partial (fuel : Nat) : removeAllLoop (fuel + 1) [] = some ([], true) := rfl

/-! ### C14: unicast -/

theorem dot_not_in_decimal (n : Nat) : '.' ∉ decimal n := by
  intro h
  have := decimal_isDigit h
  simp at this

theorem prefix_split {a b x y : Str} {d : Char} (ha : d ∉ a) (hb : d ∉ b)
    (h : a ++ d :: x <+: b ++ d :: y) : a = b ∧ x <+: y := by
  induction a generalizing b with
  | nil =>
    rcases b with _ | ⟨c, b⟩
    · exact ⟨rfl, by simpa using h⟩
    · simp only [List.nil_append, List.cons_append, List.cons_prefix_cons] at h
      exact absurd (h.1 ▸ List.mem_cons_self ..) hb
  | cons c a ih =>
    rcases b with _ | ⟨c', b⟩
    · simp only [List.nil_append, List.cons_append, List.cons_prefix_cons] at h
      exact absurd (h.1 ▸ List.mem_cons_self ..) ha
    · simp only [List.cons_append, List.cons_prefix_cons] at h
      obtain ⟨h1, h2⟩ := ih (fun e => ha (List.mem_cons_of_mem _ e)) (fun e => hb (List.mem_cons_of_mem _ e)) h.2
      exact ⟨by rw [h.1, h1], h2⟩

theorem unicast_prefix (e s e' s' : Nat) :
    unicastAddress e s <+: unicastAddress e' s' ↔ e = e' ∧ decimal s <+: decimal s' := by
  unfold unicastAddress entityCastAddress
  constructor
  · intro h
    have h1 : decimal e ++ '.' :: ("sid".toList ++ decimal s) <+:
        decimal e' ++ '.' :: ("sid".toList ++ decimal s') := by
      have := (List.prefix_append_right_inj "eid".toList).1 (by simpa [List.append_assoc] using h)
      simpa using this
    obtain ⟨h2, h3⟩ := prefix_split (dot_not_in_decimal e) (dot_not_in_decimal e') h1
    exact ⟨decimal_injective h2, (List.prefix_append_right_inj _).1 h3⟩
  · rintro ⟨rfl, h⟩
    rw [List.prefix_append_right_inj, List.prefix_append_right_inj]
    exact h

/-- What a client that subscribed only to its own unicast address gets when another client sends a
message. -/
theorem unicast_reception (multi : Bool) (e s : Nat) (f : Fields) (hc : f.Clean)
    (hown : (f.entityId, f.serviceId) ≠ (decimal e, decimal s))
    (hhub : (f.entityId, f.serviceId) ≠ (decimal e, "1".toList)) :
    (runM (rstep multi (decimal e) (decimal s)) {} [.add (unicastAddress e s), .push f, .getNext]).2 =
      [none, none, if unicastAddress e s <+: f.address then some f else none] := by
  have hd : '$' ∉ unicastAddress e s := by
    intro h
    simp only [unicastAddress, entityCastAddress, List.mem_append] at h
    rcases h with (h | h) | h | h
    · revert h; decide
    · have := decimal_isDigit h; simp at this
    · revert h; decide
    · have := decimal_isDigit h; simp at this
  simp only [runM_cons, runM_nil, rstep, Receiver.add, List.contains_nil, Bool.false_eq_true, if_false,
    hub_clean hc, if_neg hhub, Receiver.arrive, List.nil_append, List.any_cons, List.any_nil,
    Bool.or_false, frame_prefix hc hd, List.isPrefixOf_iff_prefix]
  by_cases hp : unicastAddress e s <+: f.address
  · simp [hp, Receiver.getNext, receive_clean hc, hown]
  · simp [hp, Receiver.getNext]

/-- **C14 (delivery).** A message for the unicast address of a client is delivered to it, for all entity
and service ids. -/
theorem C14_delivered (multi : Bool) (e s : Nat) (f : Fields) (hc : f.Clean)
    (ha : f.address = unicastAddress e s)
    (hown : (f.entityId, f.serviceId) ≠ (decimal e, decimal s))
    (hhub : (f.entityId, f.serviceId) ≠ (decimal e, "1".toList)) :
    (runM (rstep multi (decimal e) (decimal s)) {} [.add (unicastAddress e s), .push f, .getNext]).2 =
      [none, none, some f] := by
  rw [unicast_reception multi e s f hc hown hhub, if_pos (by rw [ha]; exact List.prefix_refl _)]

/-- **C14, partial.** A message for another client is not delivered when the other client belongs to
another entity or its id has the same number of decimal digits or fewer.

Missing: ids of which one is the beginning of the other (`C14_prefix_violated`). -/
theorem C14_only_addressee_partial (multi : Bool) (e s e' s' : Nat) (f : Fields) (hc : f.Clean)
    (ha : f.address = unicastAddress e' s') (hne : (e', s') ≠ (e, s))
    (hl : e ≠ e' ∨ (decimal s').length ≤ (decimal s).length)
    (hown : (f.entityId, f.serviceId) ≠ (decimal e, decimal s))
    (hhub : (f.entityId, f.serviceId) ≠ (decimal e, "1".toList)) :
    (runM (rstep multi (decimal e) (decimal s)) {} [.add (unicastAddress e s), .push f, .getNext]).2 =
      [none, none, none] := by
  rw [unicast_reception multi e s f hc hown hhub, if_neg]
  rw [ha, unicast_prefix]
  rintro ⟨h1, h2⟩
  rcases hl with hl | hl
  · exact hl h1
  · have := h2.eq_of_length_le hl
    exact hne (by rw [h1, decimal_injective this])

theorem decimal_append_digit (s d : Nat) (hs : 0 < s) (hd : d < 10) :
    decimal s <+: decimal (10 * s + d) := by
  unfold decimal
  rw [← Nat.toDigits_append_toDigits (by decide) hs hd]
  exact List.prefix_append _ _

/-- **C14 is violated** for all entities, all services `s > 0` and all digits: a message for the service
10 s + d is also delivered to the service s. -/
theorem C14_prefix_violated (multi : Bool) (e s d : Nat) (hs : 0 < s) (hd : d < 10) (f : Fields)
    (hc : f.Clean) (ha : f.address = unicastAddress e (10 * s + d))
    (hown : (f.entityId, f.serviceId) ≠ (decimal e, decimal s))
    (hhub : (f.entityId, f.serviceId) ≠ (decimal e, "1".toList)) :
    (runM (rstep multi (decimal e) (decimal s)) {} [.add (unicastAddress e s), .push f, .getNext]).2 =
      [none, none, some f] := by
  rw [unicast_reception multi e s f hc hown hhub, if_pos]
  rw [ha, unicast_prefix]
  exact ⟨rfl, decimal_append_digit s d hs hd⟩

/-- Service 10 gets the message for service 103. -/
example : let f := exMsg "eid1.sid103" "1" "50"
    f.Clean ∧ f.address = unicastAddress 1 103 ∧
    (runM (rstep false (decimal 1) (decimal 10)) {} [.add (unicastAddress 1 10), .push f, .getNext]).2 =
      [none, none, some f] := by
  refine ⟨⟨by decide, by decide, by decide, by decide, by decide, by decide, by decide⟩, by decide,
    by decide +kernel⟩

/-! ### C18: processing loops -/

variable {α : Type}

/-- **C18 (deserialised messages).** For every sequence of messages, every handler and every id, the
loop gives the subclass the messages one after the other.  Either it is still running: then every
message was given to the handler and none asked to stop; or it ended at a message `m`: nothing before
asked to stop and either `m` is a KillService for the own id and was not given to the handler, or `m` is
the last message given to the handler and the handler asked to stop.  Exceptions change nothing. -/
theorem C18_lmcp_loop (id : Int) (kill : α → Option Int) (handler : List α → Handling) (ms : List α) :
    (lmcpLoop true id kill handler [] ms = (ms, .running) ∧ (∀ m ∈ ms, kill m ≠ some id) ∧
      ∀ p m q, ms = p ++ m :: q → handler (p ++ [m]) ≠ .stop) ∨
    ∃ p m q, ms = p ++ m :: q ∧ (∀ x ∈ p, kill x ≠ some id) ∧
      (∀ p' m' q', p = p' ++ m' :: q' → handler (p' ++ [m']) ≠ .stop) ∧
      ((kill m = some id ∧ lmcpLoop true id kill handler [] ms = (p, .terminated)) ∨
       (kill m ≠ some id ∧ handler (p ++ [m]) = .stop ∧
        lmcpLoop true id kill handler [] ms = (p ++ [m], .terminated))) := by
  suffices ∀ (ms given : List α),
      (lmcpLoop true id kill handler given ms = (given ++ ms, .running) ∧ (∀ m ∈ ms, kill m ≠ some id) ∧
        ∀ p m q, ms = p ++ m :: q → handler (given ++ p ++ [m]) ≠ .stop) ∨
      ∃ p m q, ms = p ++ m :: q ∧ (∀ x ∈ p, kill x ≠ some id) ∧
        (∀ p' m' q', p = p' ++ m' :: q' → handler (given ++ p' ++ [m']) ≠ .stop) ∧
        ((kill m = some id ∧ lmcpLoop true id kill handler given ms = (given ++ p, .terminated)) ∨
         (kill m ≠ some id ∧ handler (given ++ p ++ [m]) = .stop ∧
          lmcpLoop true id kill handler given ms = (given ++ p ++ [m], .terminated))) by
    simpa using this ms []
  intro ms
  induction ms with
  | nil => intro given; left; exact ⟨by simp [lmcpLoop], by simp, by simp⟩
  | cons m ms ih =>
    intro given
    by_cases hk : kill m = some id
    · right
      refine ⟨[], m, ms, rfl, by simp, by simp, .inl ⟨hk, by simp [lmcpLoop, hk]⟩⟩
    · have hcont : handler (given ++ [m]) ≠ .stop →
          lmcpLoop true id kill handler given (m :: ms) = lmcpLoop true id kill handler (given ++ [m]) ms := by
        intro hh
        have hb : (true && kill m == some id) = false := by simpa using hk
        rw [lmcpLoop, hb]
        simp only [Bool.false_eq_true, if_false]
        rcases hx : handler (given ++ [m]) with _ | _ | _
        · rfl
        · exact absurd hx hh
        · rfl
      by_cases hh : handler (given ++ [m]) = .stop
      · right
        refine ⟨[], m, ms, rfl, by simp, by simp, .inr ⟨hk, by simpa using hh, ?_⟩⟩
        have hb : (true && kill m == some id) = false := by simpa using hk
        rw [lmcpLoop, hb]
        simp [hh]
      · rw [hcont hh]
        rcases ih (given ++ [m]) with ⟨h1, h2, h3⟩ | ⟨p, x, q, h1, h2, h3, h4⟩
        · left
          refine ⟨by rw [h1]; simp, ?_, ?_⟩
          · intro y hy
            rcases List.mem_cons.1 hy with rfl | hy
            · exact hk
            · exact h2 y hy
          · intro p y q hpq
            rcases p with _ | ⟨z, p⟩
            · simp only [List.nil_append, List.cons.injEq] at hpq
              rw [← hpq.1]; simpa using hh
            · simp only [List.cons_append, List.cons.injEq] at hpq
              rw [← hpq.1]
              have := h3 p y q hpq.2
              simpa using this
        · right
          refine ⟨m :: p, x, q, by rw [h1]; rfl, ?_, ?_, ?_⟩
          · intro y hy
            rcases List.mem_cons.1 hy with rfl | hy
            · exact hk
            · exact h2 y hy
          · intro p' y q' hpq
            rcases p' with _ | ⟨z, p'⟩
            · simp only [List.nil_append, List.cons.injEq] at hpq
              rw [← hpq.1]; simpa using hh
            · simp only [List.cons_append, List.cons.injEq] at hpq
              rw [← hpq.1]
              have := h3 p' y q' hpq.2
              simpa using this
          · rcases h4 with ⟨h5, h6⟩ | ⟨h5, h6, h7⟩
            · exact .inl ⟨h5, by rw [h6]; simp⟩
            · exact .inr ⟨h5, by simpa using h6, by rw [h7]; simp⟩

/-- Messages 1, 2, 3; the handler throws on the first and stops on the second. -/
example : lmcpLoop true 7 (fun m : Nat => if m = 9 then some 7 else none)
    (fun l => match l with | [_] => .throws | [_, 2] => .stop | _ => .done) [] [1, 2, 3] = ([1, 2], .terminated) ∧
    lmcpLoop true 7 (fun m : Nat => if m = 9 then some 7 else none)
    (fun _ => .throws) [] [1, 2, 9, 3] = ([1, 2], .terminated) := by decide

/-- **C18 (serialised messages), partial.** When the handler does not throw and no KillService for another
client is received, the loop for serialised messages behaves like the loop for deserialised messages.

Missing: an exception ends the thread (`C18_exception_violated`); KillService messages for others are not
given to the handler (`C18_foreign_kill_violated`). -/
theorem C18_serialized_loop_partial (id : Int) (kill : α → Option Int) (handler : List α → Handling)
    (given ms : List α) (ht : ∀ l, handler l ≠ .throws) (hk : ∀ m ∈ ms, kill m = none ∨ kill m = some id) :
    serializedLoop true id kill handler given ms = lmcpLoop true id kill handler given ms := by
  induction ms generalizing given with
  | nil => rfl
  | cons m ms ih =>
    have ih' := fun g => ih g (fun x hx => hk x (List.mem_cons_of_mem _ hx))
    rw [serializedLoop, lmcpLoop]
    rcases hk m (by simp) with h | h
    · rw [h]
      simp only [Option.isSome_none, Bool.and_false, Bool.false_eq_true, if_false]
      have hb : (true && (none : Option Int) == some id) = false := rfl
      rw [hb]
      simp only [Bool.false_eq_true, if_false]
      rcases hx : handler (given ++ [m]) with _ | _ | _
      · exact ih' _
      · rfl
      · exact absurd hx (ht _)
    · rw [h]; simp

/-- **C18 is violated** for serialised messages: an exception of the handler on the first message ends the
thread; the second message is lost and the client never reports that it terminated. -/
theorem C18_exception_violated :
    serializedLoop true 7 (fun _ : Nat => none) (fun l => if l = [1] then .throws else .done) [] [1, 2] =
      ([1], .died) := by decide

/-- **C18 is violated** for serialised messages: a KillService for service 8 does not reach the handler of
client 7 (a bridge does not forward it). -/
theorem C18_foreign_kill_violated :
    serializedLoop true 7 (fun m : Nat => if m = 9 then some 8 else none) (fun _ => .done) [] [1, 9, 2] =
      ([1, 2], .running) := by decide

/-- **C18 (services with given ids).** A service that was created with the id `id` terminates when it
receives a KillService message for `id`, whatever its own id was. -/
theorem C18_given_id_service (i : Identity) (id : Int) (kill : α → Option Int)
    (handler : List α → Handling) (given : List α) (m : α) (ms : List α) (hm : kill m = some id) :
    (overrideService i id).networkId = id ∧
    lmcpLoop true (overrideService i id).idString kill handler given (m :: ms) = (given, .terminated) := by
  refine ⟨rfl, ?_⟩
  rw [lmcpLoop, hm]
  have : (true && some id == some (overrideService i id).idString) = true := by
    simp [overrideService]
  rw [this]; rfl

/-- **C18 is violated** for bridges with given ids: the loop still compares with the old id, so the
KillService for the bridge's id is not recognised. -/
theorem C18_given_id_bridge_violated :
    let b := overrideBridge { networkId := 10, idString := 10 } 600
    b.networkId = 600 ∧
    serializedLoop true b.idString (fun m : Nat => if m = 9 then some 600 else none) (fun _ => .done) [] [9, 1] =
      ([1], .running) := by decide

/-! ### C19: the termination loop -/

/-- **C19 is violated**: when the limit for the warning is not above the limit for aborting (3000 and 10000
by default), the loop never aborts: as long as the subclass does not terminate it goes on. -/
theorem C19_never_aborts_violated (period warn abort : Nat) (hwa : warn ≤ abort) (terminate : Nat → Bool) :
    ∀ (fuel k duration : Nat), (watch period warn abort terminate fuel k duration).2 ≠ .aborted
  | 0, _, _ => by simp [watch]
  | fuel + 1, k, duration => by
    rw [watch]
    split
    · simp
    · simp only []
      split
      · exact C19_never_aborts_violated period warn abort hwa terminate fuel (k + 1) _
      · split
        · omega
        · exact C19_never_aborts_violated period warn abort hwa terminate fuel (k + 1) _

/-- A subclass that never terminates keeps the loop waiting, however long. -/
theorem C19_waits_forever_violated (period warn abort : Nat) (hwa : warn ≤ abort) :
    ∀ (fuel k duration : Nat), (watch period warn abort (fun _ => false) fuel k duration).2 = .waiting
  | 0, _, _ => rfl
  | fuel + 1, k, duration => by
    rw [watch]
    simp only [Bool.false_eq_true, if_false]
    split
    · exact C19_waits_forever_violated period warn abort hwa fuel (k + 1) _
    · split
      · omega
      · exact C19_waits_forever_violated period warn abort hwa fuel (k + 1) _

/-- **C19, partial.** The loop warns after every failed attempt once more than the warning limit has passed
(before the 32 bit duration overflows), not before, and it ends when the subclass terminates: with the first
success at attempt `n` it ends after `n` attempts, and the j-th attempt is followed by a warning exactly when
(j + 1) periods exceed the warning limit.

Missing: aborting. -/
theorem C19_warns_partial (period warn abort : Nat) (hwa : warn ≤ abort) (terminate : Nat → Bool) (n fuel : Nat)
    (h1 : ∀ k < n, terminate k = false) (h2 : terminate n = true) (hf : n < fuel)
    (ho : n * period < 4294967296) :
    watch period warn abort terminate fuel 0 0 =
      ((List.range n).map (fun j => if (j + 1) * period > warn then .warn else .none), .finished) := by
  suffices ∀ (r k fuel : Nat), k + r = n → r < fuel →
      watch period warn abort terminate fuel k (k * period) =
        ((List.range' k r).map (fun j => if (j + 1) * period > warn then .warn else .none), .finished) by
    have h := this n 0 fuel (by omega) hf
    rw [Nat.zero_mul] at h
    rw [h, List.range_eq_range']
  intro r
  induction r with
  | zero =>
    intro k fuel hk hr
    rcases fuel with _ | fuel
    · omega
    · rw [watch]
      have : k = n := by omega
      simp [this, h2]
  | succ r ih =>
    intro k fuel hk hr
    rcases fuel with _ | fuel
    · omega
    · rw [watch, h1 k (by omega)]
      have hle : (k + 1) * period ≤ n * period := Nat.mul_le_mul_right _ (by omega)
      have hd : (k * period + period) % 4294967296 = (k + 1) * period := by
        rw [Nat.mod_eq_of_lt (by rw [Nat.succ_mul] at hle; omega), Nat.succ_mul]
      simp only [Bool.false_eq_true, if_false, hd]
      rw [ih (k + 1) fuel (by omega) (by omega), List.range'_succ, List.map_cons]
      split
      · rfl
      · rw [if_neg (by omega)]

/-- The defaults: the subclass terminates at the ninth attempt. -/
example : watch 500 3000 10000 (fun k => k == 8) 20 0 0 =
    ([.none, .none, .none, .none, .none, .none, .warn, .warn], .finished) := by decide

/-! ### C59: subscription requests take effect -/

theorem requested_split (h1 h2 : List CIn) (a : Str) : requested (h1 ++ h2) a =
    h2.foldl (request a) (requested h1 a) := by
  unfold requested
  rw [List.foldl_append]

theorem staged_requests : ∀ (h : List CIn) (c : Client), c.phase ≠ .started → OnlyRequests h → ∀ a,
    (h.foldl cstep c).phase = c.phase ∧ (h.foldl cstep c).receiver = c.receiver ∧
    ((a ∈ (h.foldl cstep c).staged) ↔ h.foldl (request a) (decide (a ∈ c.staged)) = true)
  | [], c, _, _, a => by simp
  | i :: is, c, hp, ho, a => by
    have ho' : OnlyRequests is := fun j hj => ho j (List.mem_cons_of_mem _ hj)
    have hi := ho i (by simp)
    have hstep : (cstep c i).phase = c.phase ∧ (cstep c i).receiver = c.receiver ∧
        (decide (a ∈ (cstep c i).staged) = request a (decide (a ∈ c.staged)) i) := by
      cases i with
      | add b =>
        simp only [cstep, if_neg hp, request]
        refine ⟨trivial, trivial, ?_⟩
        split
        · rename_i hc
          simp only [List.contains_eq_mem, decide_eq_true_eq] at hc
          split
          · rename_i e; subst e; simpa using hc
          · rfl
        · split
          · rename_i e; subst e; simp
          · rename_i e; simp [show ¬ a = b from fun e2 => e (Eq.symm e2)]
      | remove b =>
        simp only [cstep, if_neg hp, request]
        refine ⟨trivial, trivial, ?_⟩
        split
        · rename_i e; subst e; simp
        · rename_i e; simp [show ¬ a = b from fun e2 => e (Eq.symm e2)]
      | «initialize» => exact absurd rfl hi.1
      | start => exact absurd rfl hi.2
    obtain ⟨h1, h2, h3⟩ := staged_requests is (cstep c i) (by rw [hstep.1]; exact hp) ho' a
    simp only [List.foldl_cons]
    refine ⟨h1.trans hstep.1, h2.trans hstep.2.1, ?_⟩
    rw [h3, hstep.2.2]

theorem started_requests : ∀ (h : List CIn) (c : Client), c.phase = .started → OnlyRequests h → ∀ a,
    ((a ∈ (h.foldl cstep c).receiver.subs) ↔ h.foldl (request a) (decide (a ∈ c.receiver.subs)) = true)
  | [], c, _, _, a => by simp
  | i :: is, c, hp, ho, a => by
    have ho' : OnlyRequests is := fun j hj => ho j (List.mem_cons_of_mem _ hj)
    have hi := ho i (by simp)
    have hstep : (cstep c i).phase = c.phase ∧
        (decide (a ∈ (cstep c i).receiver.subs) = request a (decide (a ∈ c.receiver.subs)) i) := by
      cases i with
      | add b =>
        simp only [cstep, if_pos hp, Receiver.add, request]
        refine ⟨trivial, ?_⟩
        split
        · rename_i hc
          simp only [List.contains_eq_mem, decide_eq_true_eq] at hc
          split
          · rename_i e; subst e; simpa using hc
          · rfl
        · split
          · rename_i e; subst e; simp
          · rename_i e; simp [show ¬ a = b from fun e2 => e (Eq.symm e2)]
      | remove b =>
        simp only [cstep, if_pos hp, Receiver.remove, request]
        refine ⟨trivial, ?_⟩
        split
        · split
          · rename_i e; subst e; simp
          · rename_i e; simp [show ¬ a = b from fun e2 => e (Eq.symm e2)]
        · rename_i hc
          simp only [List.contains_eq_mem, decide_eq_true_eq] at hc
          split
          · rename_i e; subst e; simpa using hc
          · rfl
      | «initialize» => exact absurd rfl hi.1
      | start => exact absurd rfl hi.2
    have h1 := started_requests is (cstep c i) (by rw [hstep.1]; exact hp) ho' a
    simp only [List.foldl_cons]
    rw [h1, hstep.2]

theorem foldl_add_mem (a : Str) : ∀ (l : List Str) (r : Receiver),
    a ∈ (l.foldl Receiver.add r).subs ↔ a ∈ r.subs ∨ a ∈ l
  | [], r => by simp
  | b :: l, r => by
    rw [List.foldl_cons, foldl_add_mem a l]
    unfold Receiver.add
    split
    · rename_i hc
      simp only [List.contains_eq_mem, decide_eq_true_eq] at hc
      simp only [List.mem_cons]
      constructor
      · rintro (h | h)
        · exact .inl h
        · exact .inr (.inr h)
      · rintro (h | rfl | h)
        · exact .inl h
        · exact .inl hc
        · exact .inr h
    · rw [List.mem_append, List.mem_singleton, List.mem_cons]
      constructor
      · rintro ((h | h) | h)
        · exact .inl h
        · exact .inr (.inl h)
        · exact .inr (.inr h)
      · rintro (h | h | h)
        · exact .inl (.inl h)
        · exact .inl (.inr h)
        · exact .inr h

/-- **C59, partial.** A client whose subclass requests subscriptions before `initializeNetworkClient` and
after its thread has started is subscribed to exactly what it requested.

Missing: requests in between are lost (`C59_lost_request_violated`). -/
theorem C59_requests_take_effect_partial (h1 h3 : List CIn) (o1 : OnlyRequests h1) (o3 : OnlyRequests h3)
    (a : Str) :
    a ∈ ((lifetime h1 [] h3).foldl cstep {}).receiver.subs ↔ requested (h1 ++ h3) a = true := by
  unfold lifetime
  rw [List.foldl_append, List.foldl_cons, List.nil_append, List.foldl_cons]
  obtain ⟨-, -, hs⟩ := staged_requests h1 {} (by decide) o1 a
  rw [started_requests h3 _ rfl o3 a, requested_split]
  have hsub : decide (a ∈ (cstep (cstep (h1.foldl cstep {}) .initialize) .start).receiver.subs) =
      requested h1 a := by
    rw [Bool.eq_iff_iff, decide_eq_true_eq]
    show a ∈ (List.foldl Receiver.add {} (h1.foldl cstep {}).staged).subs ↔ _
    rw [foldl_add_mem, hs]
    unfold requested
    simp
  rw [hsub]

example : let h1 : List CIn := [.add "a".toList, .add "b".toList, .remove "a".toList]
    let h3 : List CIn := [.add "c".toList, .remove "b".toList]
    ((lifetime h1 [] h3).foldl cstep {}).receiver.subs = ["c".toList] := by decide

/-- **C59 is violated** for every address and every client: a subscription requested by `initialize()` or
`start()` of the subclass (BatchSummaryService requests all its subscriptions there) is not made, and a
subscription cancelled there stays. -/
theorem C59_lost_request_violated (h1 : List CIn) (o1 : OnlyRequests h1) (a b : Str)
    (ha : requested h1 a = false) (hb : requested h1 b = true) :
    a ∉ ((lifetime h1 [.add a, .remove b] []).foldl cstep {}).receiver.subs ∧
    b ∈ ((lifetime h1 [.add a, .remove b] []).foldl cstep {}).receiver.subs := by
  unfold lifetime
  have key : ∀ x, x ∈ ((h1 ++ CIn.initialize :: ([CIn.add a, .remove b] ++ [CIn.start])).foldl cstep {}).receiver.subs ↔
      requested h1 x = true := by
    intro x
    rw [List.foldl_append, List.foldl_cons]
    obtain ⟨-, -, hs⟩ := staged_requests h1 {} (by decide) o1 x
    have o2 : OnlyRequests [CIn.add a, .remove b] := by
      intro i hi
      simp only [List.mem_cons, List.not_mem_nil, or_false] at hi
      rcases hi with rfl | rfl <;> simp
    rw [List.foldl_append]
    obtain ⟨-, h2, -⟩ := staged_requests [CIn.add a, .remove b] (cstep (h1.foldl cstep {}) .initialize)
      (by simp [cstep]) o2 x
    simp only [List.foldl_cons, List.foldl_nil, cstep] at h2 ⊢
    rw [h2, foldl_add_mem, hs]
    unfold requested
    simp
  constructor
  · intro h; rw [(key a).1 h] at ha; exact absurd ha (by decide)
  · exact (key b).2 hb

end Verif.Net
