import Verif.Sentinel.Lemmas
import Verif.Sentinel.Spec

/-! Properties C06 to C10. -/

namespace Verif.Sentinel

open Verif

/-! ### preparation -/

theorem Framable.locatable {p : Str} (h : Framable p) : Locatable p := by
  refine ⟨h.noTerminator, ?_⟩
  have hm := h.noMarker
  have hh := h.noHead
  intro hi
  have key : ∀ q : Str, (['#', '@'] ++ q) <+: p → False :=
    fun q hq => hh ((List.prefix_append _ _).trans hq)
  rw [show (APS ++ p).tail = '@' :: '#' :: '@' :: '#' :: '@' :: '#' :: '@' :: p from rfl] at hi
  rw [List.infix_cons_iff, List.infix_cons_iff, List.infix_cons_iff, List.infix_cons_iff,
    List.infix_cons_iff, List.infix_cons_iff, List.infix_cons_iff] at hi
  rcases hi with hi | hi | hi | hi | hi | hi | hi | hi
  all_goals first | exact hm hi | skip
  all_goals simp only [APS, List.cons_prefix_cons] at hi
  all_goals first | exact absurd hi.1 (by decide) | skip
  · exact key [] hi.2.2.2.2.2.2
  · exact key ['#', '@'] hi.2.2.2.2
  · exact key ['#', '@', '#', '@'] hi.2.2

theorem toInt_small {n : Nat} (h : n < 2147483648) : toInt n = (n : Int) := by
  unfold toInt
  rw [Nat.mod_eq_of_lt (by omega), if_pos h]

theorem stoi_decimal {n : Nat} (h : n < 2147483648) : stoi (decimal n) = .ok (n : Int) := by
  unfold stoi
  have : (decimal n).isEmpty = false := by simpa using decimal_ne_nil n
  rw [this, decimalValue_decimal]
  simp [h]

theorem allDigits_decimal (n : Nat) : allDigits (decimal n) = true := by
  simp only [allDigits, List.all_eq_true]
  exact fun c hc => decimal_isDigit hc

theorem checkSegment_frame (b : Buf) {p : Str} (h1 : p.length < 2147483648)
    (h2 : checksum p < 2147483648) :
    checkSegment b (decimal p.length) p (decimal (checksum p)) =
      ({ b with validCount := b.validCount + 1 }, .ok p) := by
  unfold checkSegment
  rw [allDigits_decimal, allDigits_decimal]
  simp only [Bool.and_self, if_true]
  rw [stoi_decimal h1]
  simp only [toInt_small h1, beq_self_eq_true, if_true]
  rw [stoi_decimal h2]
  simp only [toInt_small h2, beq_self_eq_true, if_true]

theorem frame_segment (g p rest : Str) :
    g ++ (frame p ++ rest) = segment g (decimal p.length) p (decimal (checksum p)) rest := by
  simp [frame, segment]

/-- A good frame behind terminator-free junk is decoded. -/
theorem next_frame (b : Buf) (chunk g p rest : Str) (hp : Framable p) (hg : ¬ AC <:+: g)
    (hd : b.data ++ chunk = g ++ (frame p ++ rest)) :
    (next b chunk).2 = .ok p ∧ (next b chunk).1.data = rest := by
  rw [frame_segment] at hd
  rw [next_segment b chunk g _ p _ rest hd hg (allDigits_decimal _) (allDigits_decimal _)
    hp.locatable, checkSegment_frame _ hp.size hp.sum]
  exact ⟨rfl, bufAfter_data _ _ _⟩

theorem frame_ne_nil (p : Str) : frame p ≠ [] := by simp [frame, BPS]

theorem AC_infix_frame (p : Str) : AC <:+: frame p := (List.suffix_append _ _).isInfix

/-- When data that begins with a good frame contains the terminator, the frame is complete. -/
theorem first_frame_complete {p d rest t : Str} (hp : Framable p) (hac : AC <:+: d)
    (hd : d ++ rest = frame p ++ t) : frame p <+: d := by
  have h1 : frame p <+: d ++ rest := hd ▸ List.prefix_append _ _
  have h2 : d <+: d ++ rest := List.prefix_append _ _
  by_cases hl : (frame p).length ≤ d.length
  · exact List.prefix_of_prefix_length_le h1 h2 hl
  · have h3 := List.prefix_of_prefix_length_le h2 h1 (by omega)
    exfalso
    have h4 : d <+: (frame p).dropLast := by
      obtain ⟨t, ht⟩ := h3
      have htne : t ≠ [] := by
        intro e; rw [e, List.append_nil] at ht; rw [ht] at hl; omega
      rw [← ht, List.dropLast_append_of_ne_nil htne]
      exact List.prefix_append _ _
    have h5 := noAC_before (g := []) (by decide) (allDigits_decimal p.length)
      (allDigits_decimal (checksum p)) hp.locatable
    apply h5
    have h6 : (frame p).dropLast = [] ++ (BPS ++ (decimal p.length ++ (APS ++ (p ++
        (BC ++ (decimal (checksum p) ++ AC.dropLast)))))) := by
      unfold frame
      rw [List.dropLast_append_of_ne_nil (by decide)]
      simp
    rw [← h6]
    exact hac.trans h4.isInfix

/-- Reading part of a stream of good frames: the loop delivers the complete ones
and keeps an incomplete one. -/
theorem drain_frames : ∀ (fuel : Nat) (b : Buf) (chunk rest : Str) (ps : List Str),
    (∀ p ∈ ps, Framable p) → (b.data ++ chunk) ++ rest = (ps.map frame).flatten →
    (b.data ++ chunk).length < fuel →
    ∃ qs, ps = (drain fuel b chunk).2 ++ qs ∧
      (drain fuel b chunk).1.data ++ rest = (qs.map frame).flatten ∧
      ¬ AC <:+: (drain fuel b chunk).1.data := by
  intro fuel
  induction fuel with
  | zero => intro b chunk rest ps _ _ h; omega
  | succ fuel ih =>
    intro b chunk rest ps hps hd hf
    by_cases hac : AC <:+: b.data ++ chunk
    · cases ps with
      | nil =>
        simp only [List.map_nil, List.flatten_nil, List.append_eq_nil_iff] at hd
        rw [hd.1.1, hd.1.2] at hac
        exact absurd hac (by decide)
      | cons p ps =>
        simp only [List.map_cons, List.flatten_cons] at hd
        have hp := hps p (by simp)
        have hpre := first_frame_complete hp hac hd
        obtain ⟨r, hr⟩ := hpre
        have hdr : r ++ rest = (ps.map frame).flatten := by
          rw [← hr, List.append_assoc] at hd
          exact List.append_cancel_left hd
        obtain ⟨n1, n2⟩ := next_frame b chunk [] p r hp (by decide) (by simpa using hr.symm)
        have hlen : r.length < fuel := by
          have := congrArg List.length hr
          have h0 : 0 < (frame p).length := List.length_pos_iff.mpr (frame_ne_nil p)
          simp only [List.length_append] at this hf
          omega
        obtain ⟨qs, q1, q2, q3⟩ := ih (next b chunk).1 [] rest ps
          (fun q hq => hps q (by simp [hq])) (by rw [n2]; simpa using hdr)
          (by rw [n2]; simpa using hlen)
        have hpe : p.isEmpty = false := by simpa using hp.ne
        have hstep : drain (fuel + 1) b chunk =
            ((drain fuel (next b chunk).1 []).1, p :: (drain fuel (next b chunk).1 []).2) := by
          rw [drain]
          cases hn : next b chunk with
          | mk b' o =>
            rw [hn] at n1
            simp only at n1
            subst n1
            simp [hpe]
        rw [hstep]
        exact ⟨qs, by simp [← q1], q2, q3⟩
    · have hn := next_data_of_not_found b chunk hac
      rw [drain, hn]
      exact ⟨ps, by simp, hd, hac⟩

/-! ### C06 -/

/-- **C06 (partial).** For every sequence of framable payloads and every way of
cutting the framed byte stream into chunks, the receive loop delivers exactly the
payloads in order and ends with an empty buffer.  Missing: payloads outside
`Framable`, which do not survive, see the `violated` theorems. -/
theorem C06_round_trip_any_chunking_partial (ps cs : List Str) (hps : ∀ p ∈ ps, Framable p)
    (hcs : cs.flatten = (ps.map frame).flatten) :
    (receive {} cs).2 = ps ∧ (receive {} cs).1.data = [] := by
  suffices H : ∀ (cs : List Str) (b : Buf) (ps : List Str), (∀ p ∈ ps, Framable p) →
      ¬ AC <:+: b.data → b.data ++ cs.flatten = (ps.map frame).flatten →
      (receive b cs).2 = ps ∧ (receive b cs).1.data = [] from
    H cs {} ps hps (by decide) (by simpa using hcs)
  intro cs
  induction cs with
  | nil =>
    intro b ps hps hac hd
    simp only [List.flatten_nil, List.append_nil] at hd
    cases ps with
    | nil => exact ⟨rfl, by simpa [receive] using hd⟩
    | cons p ps =>
      exfalso
      apply hac
      rw [hd, List.map_cons, List.flatten_cons]
      exact (AC_infix_frame p).trans (List.prefix_append _ _).isInfix
  | cons c cs ih =>
    intro b ps hps hac hd
    rw [List.flatten_cons, ← List.append_assoc] at hd
    obtain ⟨qs, q1, q2, q3⟩ := drain_frames (b.data.length + c.length + 1) b c cs.flatten ps hps hd
      (by simp)
    have hqs : ∀ p ∈ qs, Framable p := fun p hp => hps p (by rw [q1]; simp [hp])
    obtain ⟨r1, r2⟩ := ih _ qs hqs q3 q2
    simp only [receive]
    exact ⟨by rw [r1, ← q1], r2⟩

/-- Non-vacuity: two payloads with partial sentinels, cut in the middle of a sentinel. -/
example : Framable "a$b|+=+=+=+=x!%!%!%!%".toList ∧ Framable "?^#".toList := by
  refine ⟨⟨?_, ?_, ?_, ?_, ?_, ?_⟩, ⟨?_, ?_, ?_, ?_, ?_, ?_⟩⟩ <;> decide +kernel

example :
    let s := frame "a|+=+=+=+=x".toList ++ frame "?^#".toList
    (receive {} [s.take 5, s.drop 5 |>.take 30, [], s.drop 35]).2
      = ["a|+=+=+=+=x".toList, "?^#".toList] := by decide +kernel

/-- **C06 is violated** by a payload that begins with `#@`: its own frame is
thrown away although the payload contains no complete sentinel. -/
theorem C06_leading_marker_violated :
    ∃ p : Str, p ≠ [] ∧ ¬ AC <:+: p ∧ ¬ APS <:+: p ∧ ¬ BC <:+: p ∧ ¬ BPS <:+: p ∧
      receive {} [frame p] = ({ invalidCount := 1 }, []) :=
  ⟨"#@a".toList, by decide, by decide, by decide, by decide, by decide, by decide +kernel⟩

/-- **C06 is violated** by a payload that contains the terminator: the receiver
delivers nothing of it and is left with rubbish in its buffer. -/
theorem C06_inner_terminator_violated :
    ∃ p : Str, (receive {} [frame p]).2 = [] ∧ (receive {} [frame p]).1.data ≠ [] ∧ p ≠ [] :=
  ⟨"x?^?^?^?^yz".toList, by decide +kernel⟩

/-! ### C07 -/

private theorem findStr_AC_append {g x : Str} {i : Nat} (h : findStr AC g = some i) :
    findStr AC (g ++ x) = some i := by
  obtain ⟨h1, h2, h3⟩ := findStr_some h
  have hl := h1.length_le
  rw [length_AC, List.length_drop] at hl
  apply findStr_eq_some
  · rw [List.drop_append_of_le_length (by omega)]
    exact h1.trans (List.prefix_append _ _)
  · intro j hj hp
    rw [List.drop_append_of_le_length (by omega)] at hp
    exact h2 j hj (List.prefix_of_prefix_length_le hp (List.prefix_append _ _)
      (by rw [length_AC, List.length_drop]; omega))

/-- **C07.** Behind any junk an intact frame is still delivered: after at most one
call per eight junk bytes (one per terminator in the junk) a call returns the
payload and leaves exactly the bytes after the frame. -/
theorem C07_resynchronises (b : Buf) (chunk g p rest : Str) (hp : Framable p)
    (hd : b.data ++ chunk = g ++ (frame p ++ rest)) :
    ∃ k, 8 * k ≤ g.length ∧ (nthCall b chunk k).2 = .ok p ∧ (nthCall b chunk k).1.data = rest := by
  induction hn : g.length using Nat.strongRecOn generalizing g b chunk with
  | ind n ih =>
    cases hf : findStr AC g with
    | none =>
      obtain ⟨h1, h2⟩ := next_frame b chunk g p rest hp (findStr_none hf) hd
      exact ⟨0, by omega, h1, h2⟩
    | some i =>
      obtain ⟨k1, _, _⟩ := findStr_some hf
      have hl := k1.length_le
      rw [length_AC, List.length_drop] at hl
      have hf' : findStr AC (b.data ++ chunk) = some i := hd ▸ findStr_AC_append hf
      have hdata := next_data_of_found b chunk hf'
      rw [hd, List.drop_append_of_le_length (by omega)] at hdata
      have hlen : (g.drop (i + 8)).length = g.length - (i + 8) := List.length_drop
      obtain ⟨k, hk, hk1, hk2⟩ := ih (g.drop (i + 8)).length (by omega) (next b chunk).1 []
        (g.drop (i + 8)) (by rw [hdata]; simp) rfl
      exact ⟨k + 1, by omega, hk1, hk2⟩

/-- Non-vacuity: junk with a broken frame and a stray terminator. -/
example : ("+=+=+=+=9#@#@#@#@xy!%!%!%!%1?^?^?^?^zz?^?^?^?^+=+=" : String).toList ++
      (frame "hello".toList ++ "+=".toList)
    = "+=+=+=+=9#@#@#@#@xy!%!%!%!%1?^?^?^?^zz?^?^?^?^+=+=".toList ++ (frame "hello".toList ++ "+=".toList)
    ∧ Framable "hello".toList := by
  refine ⟨rfl, ⟨?_, ?_, ?_, ?_, ?_, ?_⟩⟩ <;> decide +kernel

/-! ### C08 -/

private theorem checked_of_checkSegment {b b' : Buf} {sz p ck q : Str}
    (h : checkSegment b sz p ck = (b', .ok q)) (hq : q ≠ []) : q = p ∧ Checked sz p ck := by
  unfold checkSegment at h
  split at h
  · next hd =>
    simp only [Bool.and_eq_true, allDigits, List.all_eq_true] at hd
    split at h
    · next n hn =>
      split at h
      · next hlen =>
        split at h
        · next k hk =>
          split at h
          · next hck =>
            simp only [Prod.mk.injEq, Outcome.ok.injEq] at h
            refine ⟨h.2.symm, hd.1, hd.2, ?_, ?_⟩
            · simp only [beq_iff_eq] at hlen
              unfold stoi at hn
              split at hn
              · simp at hn
              · split at hn
                · simp only [Outcome.ok.injEq] at hn
                  unfold toInt at hlen
                  split at hlen <;> omega
                · simp at hn
            · simp only [beq_iff_eq] at hck
              unfold stoi at hk
              split at hk
              · simp at hk
              · split at hk
                · simp only [Outcome.ok.injEq] at hk
                  unfold toInt at hck
                  have hm : checksum p % 4294967296 = checksum p := by
                    unfold checksum; omega
                  have he : checksum p = (p.map Char.toNat).sum % 4294967296 := rfl
                  rw [hm] at hck
                  split at hck <;> omega
                · simp at hk
          · simp only [Prod.mk.injEq, Outcome.ok.injEq] at h
            exact absurd h.2.symm hq
        · simp at h
        · simp at h
      · simp only [Prod.mk.injEq, Outcome.ok.injEq] at h
        exact absurd h.2.symm hq
    · simp at h
    · simp at h
  · simp only [Prod.mk.injEq, Outcome.ok.injEq] at h
    exact absurd h.2.symm hq

/-- **C08 (one call).** A delivered payload stands between the sentinels of a frame
in the received bytes whose stated size and stated sum are those of the payload. -/
theorem C08_delivered_payload_is_checked (b b' : Buf) (chunk p : Str)
    (h : next b chunk = (b', .ok p)) (hp : p ≠ []) :
    ∃ g sz ck rest, Checked sz p ck ∧ b'.data = rest ∧
      b.data ++ chunk = g ++ ("+=+=+=+=".toList ++ sz ++ "#@#@#@#@".toList ++ p
        ++ "!%!%!%!%".toList ++ ck ++ "?^?^?^?^".toList ++ rest) := by
  rcases next_cases b chunk with ⟨_, he⟩ | ⟨i, _, he⟩ | ⟨g, sz, q, ck, rest, hs, _, he⟩
  · rw [he] at h; simp only [Prod.mk.injEq, Outcome.ok.injEq] at h; exact absurd h.2.symm hp
  · rw [he] at h; simp only [Prod.mk.injEq, Outcome.ok.injEq] at h; exact absurd h.2.symm hp
  · rw [he] at h
    obtain ⟨rfl, hc⟩ := checked_of_checkSegment h hp
    refine ⟨g, sz, ck, rest, hc, ?_, ?_⟩
    · have := congrArg (fun x => x.1.data) h
      simp only [checkSegment_data, bufAfter_data] at this
      exact this.symm
    · rw [hs]
      have e1 : "+=+=+=+=".toList = BPS := by decide
      have e2 : "#@#@#@#@".toList = APS := by decide
      have e3 : "!%!%!%!%".toList = BC := by decide
      have e4 : "?^?^?^?^".toList = AC := by decide
      rw [e1, e2, e3, e4]
      simp [segment]

private theorem Explains.trans {s r t : Str} {ps qs : List Str} (h1 : Explains s ps r)
    (h2 : Explains r qs t) : Explains s (ps ++ qs) t := by
  induction h1 with
  | done => exact h2
  | skip g s ps r _ ih => exact .skip _ _ _ _ (ih h2)
  | deliver sz p ck s ps r hc _ ih => exact .deliver _ _ _ _ _ _ hc (ih h2)

private theorem Explains.append {s r : Str} {ps : List Str} (h : Explains s ps r) (t : Str) :
    Explains (s ++ t) ps (r ++ t) := by
  induction h with
  | done => exact .done _
  | skip g s ps r _ ih => rw [List.append_assoc]; exact .skip _ _ _ _ ih
  | deliver sz p ck s ps r hc _ ih =>
    rw [List.append_assoc]; exact .deliver _ _ _ _ _ _ hc ih

private theorem explains_next (b : Buf) (chunk : Str) :
    ∃ ps, Explains (b.data ++ chunk) ps (next b chunk).1.data ∧
      (∀ p, (next b chunk).2 = .ok p → p ≠ [] → ps = [p]) ∧
      ((∀ p, (next b chunk).2 = .ok p → p = []) → ps = []) := by
  have hskip : ∃ g, b.data ++ chunk = g ++ (next b chunk).1.data := by
    by_cases hac : AC <:+: b.data ++ chunk
    · cases hf : findStr AC (b.data ++ chunk) with
      | none => exact absurd hac (findStr_none hf)
      | some i =>
        rw [next_data_of_found b chunk hf]
        exact ⟨_, (List.take_append_drop (i + 8) _).symm⟩
    · rw [next_data_of_not_found b chunk hac]
      exact ⟨[], rfl⟩
  by_cases hd : ∃ p, (next b chunk).2 = .ok p ∧ p ≠ []
  · obtain ⟨p, h1, h2⟩ := hd
    obtain ⟨g, sz, ck, rest, hc, hr, he⟩ :=
      C08_delivered_payload_is_checked b (next b chunk).1 chunk p (Prod.ext rfl h1) h2
    refine ⟨[p], ?_, ?_, fun h => absurd (h p h1) h2⟩
    · rw [he, hr]
      exact .skip _ _ _ _ (.deliver _ _ _ _ _ _ hc (.done _))
    · intro q hq _
      rw [h1] at hq; simp only [Outcome.ok.injEq] at hq; rw [hq]
  · obtain ⟨g, hg⟩ := hskip
    refine ⟨[], ?_, fun p h1 h2 => absurd ⟨p, h1, h2⟩ hd, fun _ => rfl⟩
    rw [hg]
    exact .skip _ _ _ _ (.done _)

private theorem explains_drain : ∀ (fuel : Nat) (b : Buf) (chunk : Str), fuel ≠ 0 →
    Explains (b.data ++ chunk) (drain fuel b chunk).2 (drain fuel b chunk).1.data := by
  intro fuel
  induction fuel with
  | zero => intro _ _ h; exact absurd rfl h
  | succ fuel ih =>
    intro b chunk _
    obtain ⟨ps, h1, h2, h3⟩ := explains_next b chunk
    rw [drain]
    cases hn : next b chunk with
    | mk b' o =>
      rw [hn] at h1 h2 h3
      simp only at h1 h2 h3
      cases o with
      | ok p =>
        simp only
        by_cases hp : p = []
        · subst hp
          have := h3 (by intro p hp; simpa using hp.symm)
          subst this
          simpa using h1
        · have := h2 p rfl hp
          subst this
          have hpe : p.isEmpty = false := by simpa using hp
          simp only [hpe, Bool.false_eq_true, if_false]
          cases fuel with
          | zero => simpa [drain] using h1
          | succ fuel =>
            have := ih b' [] (by omega)
            rw [List.append_nil] at this
            exact h1.trans this
      | throws => have := h3 (by intro p hp; simp at hp); subst this; exact h1
      | ub => have := h3 (by intro p hp; simp at hp); subst this; exact h1

/-- **C08 (every history).** Whatever bytes arrive in whatever chunks, the payloads
delivered are the payloads of checked frames that lie one after the other in the
received byte stream. -/
theorem C08_every_history (cs : List Str) :
    Explains cs.flatten (receive {} cs).2 (receive {} cs).1.data := by
  suffices H : ∀ (cs : List Str) (b : Buf),
      Explains (b.data ++ cs.flatten) (receive b cs).2 (receive b cs).1.data by
    simpa using H cs {}
  intro cs
  induction cs with
  | nil => intro b; simpa [receive] using Explains.done b.data
  | cons c cs ih =>
    intro b
    have h1 := (explains_drain (b.data.length + c.length + 1) b c (by omega)).append cs.flatten
    have h2 := ih (drain (b.data.length + c.length + 1) b c).1
    simp only [receive]
    rw [List.flatten_cons, ← List.append_assoc]
    exact h1.trans h2

private theorem sum_ne_of_change {a z : Str} {c c' : Char} (h : c ≠ c') :
    checksum (a ++ c :: z) ≠ checksum (a ++ c' :: z) := by
  unfold checksum
  simp only [List.map_append, List.map_cons, List.sum_append, List.sum_cons]
  have hb : byteVal c ≠ byteVal c' := by
    intro e
    apply h
    unfold byteVal Char.toNat at e
    exact Char.ext (UInt32.toNat_inj.mp e)
  have h1 : byteVal c < 4294967296 := c.val.toNat_lt
  have h2 : byteVal c' < 4294967296 := c'.val.toNat_lt
  omega

/-- **C08 (altered byte).** If one byte of a framed payload was replaced by another
one (and the altered payload does not by chance contain a sentinel), nothing is
delivered for this frame. -/
theorem C08_altered_byte_not_delivered (b : Buf) (chunk a z g rest : Str) (c c' : Char) (h : c ≠ c')
    (hp : Framable (a ++ c :: z)) (hp' : Framable (a ++ c' :: z)) (hg : ¬ AC <:+: g)
    (hd : b.data ++ chunk = g ++ (BPS ++ decimal (a ++ c :: z).length ++ APS ++ (a ++ c' :: z)
      ++ BC ++ decimal (checksum (a ++ c :: z)) ++ AC ++ rest)) :
    (next b chunk).2 = .ok [] ∧ (next b chunk).1.data = rest := by
  have hd' : b.data ++ chunk = segment g (decimal (a ++ c :: z).length) (a ++ c' :: z)
      (decimal (checksum (a ++ c :: z))) rest := by rw [hd]; simp [segment]
  rw [next_segment b chunk g _ _ _ rest hd' hg (allDigits_decimal _) (allDigits_decimal _)
    hp'.locatable]
  refine ⟨?_, by rw [checkSegment_data, bufAfter_data]⟩
  unfold checkSegment
  rw [allDigits_decimal, allDigits_decimal]
  simp only [Bool.and_self, if_true]
  have hl : (a ++ c :: z).length = (a ++ c' :: z).length := by simp
  rw [stoi_decimal hp.size]
  simp only [hl, toInt_small hp'.size, beq_self_eq_true, if_true]
  rw [stoi_decimal hp.sum]
  simp only [toInt_small hp'.sum]
  have : ((checksum (a ++ c' :: z) : Int) == (checksum (a ++ c :: z) : Int)) = false := by
    simp only [beq_eq_false_iff_ne, ne_eq]
    have := sum_ne_of_change (a := a) (z := z) h
    omega
  rw [this]
  simp

/-- Non-vacuity of `C08_altered_byte_not_delivered`. -/
example : Framable ("he".toList ++ 'l' :: "lo".toList) ∧ Framable ("he".toList ++ 'L' :: "lo".toList) := by
  refine ⟨⟨?_, ?_, ?_, ?_, ?_, ?_⟩, ⟨?_, ?_, ?_, ?_, ?_, ?_⟩⟩ <;> decide +kernel

/-- The check does not see reordered bytes: a frame whose payload bytes were
swapped is delivered. -/
theorem C08_swapped_bytes_delivered :
    ∃ p q : Str, p ≠ q ∧ checksum p = checksum q ∧
      (receive {} [BPS ++ decimal p.length ++ APS ++ q ++ BC ++ decimal (checksum p) ++ AC]).2 = [q] :=
  ⟨"ab".toList, "ba".toList, by decide, by decide, by decide +kernel⟩

/-! ### C09 -/

/-- **C09 is violated:** a frame with an empty size, or with an empty checksum,
passes the digits test and then makes `std::stoi` throw. -/
theorem C09_empty_number_violated :
    (next {} (BPS ++ APS ++ "x".toList ++ BC ++ "120".toList ++ AC)).2 = .throws ∧
    (next {} (BPS ++ "1".toList ++ APS ++ "x".toList ++ BC ++ AC)).2 = .throws := by
  decide +kernel

/-- **C09 is violated by the project's own encoder:** the frame of any locatable
payload whose byte sum needs 32 bits makes the decoder throw. -/
theorem C09_large_sum_violated (p : Str) (hp : Locatable p) (hl : p.length < 2147483648)
    (hs : 2147483648 ≤ checksum p) : (next {} (frame p)).2 = .throws := by
  have hd : ({} : Buf).data ++ frame p =
      segment [] (decimal p.length) p (decimal (checksum p)) [] := by
    have := frame_segment [] p []
    simpa using this
  rw [next_segment {} (frame p) [] _ p _ [] hd (by decide) (allDigits_decimal _)
    (allDigits_decimal _) hp]
  unfold checkSegment
  rw [allDigits_decimal, allDigits_decimal]
  simp only [Bool.and_self, if_true]
  rw [stoi_decimal hl]
  simp only [toInt_small hl, beq_self_eq_true, if_true]
  have : stoi (decimal (checksum p)) = .throws := by
    unfold stoi
    have : (decimal (checksum p)).isEmpty = false := by simpa using decimal_ne_nil _
    rw [this, decimalValue_decimal]
    simp only [Bool.false_eq_true, if_false]
    rw [if_neg (by omega)]
  rw [this]

private theorem locatable_replicate (n : Nat) :
    Locatable (List.replicate n 'y') ∧ (List.replicate n 'y').length = n ∧
      checksum (List.replicate n 'y') = n * 121 % 4294967296 := by
  refine ⟨⟨?_, ?_⟩, List.length_replicate, ?_⟩
  · intro h
    have := h.subset (show '?' ∈ AC by decide)
    rw [List.mem_replicate] at this
    exact absurd this.2 (by decide)
  · intro h
    rw [List.tail_append_of_ne_nil (by decide)] at h
    have h := infix_strip_right (b := List.replicate n 'y') (by
      intro c hc
      rw [List.mem_replicate] at hc
      rw [hc.2]; decide) (by decide) h
    exact not_infix_of_length (by decide) h
  · unfold checksum
    rw [List.map_replicate, List.sum_replicate_nat]
    rfl

/-- Non-vacuity of `C09_large_sum_violated`: about 20 MB of the character `y`. -/
example : ∃ p : Str, Locatable p ∧ p.length < 2147483648 ∧ 2147483648 ≤ checksum p := by
  obtain ⟨n, hn⟩ : ∃ n : Nat, n = 20000000 := ⟨_, rfl⟩
  obtain ⟨h1, h2, h3⟩ := locatable_replicate n
  exact ⟨List.replicate n 'y', h1, by omega, by omega⟩

/-- **C09 (partial).** The decoder throws only on a segment with a number that is
empty or does not fit into an `int`; it has no undefined behaviour.  Missing:
absence of exceptions for all byte streams, which is false. -/
theorem C09_throws_only_on_bad_number_partial (b : Buf) (chunk : Str) :
    (next b chunk).2 ≠ .ub ∧
    ((next b chunk).2 = .throws →
      ∃ g sz p ck rest, b.data ++ chunk = segment g sz p ck rest ∧
        (sz = [] ∨ 2147483648 ≤ decimalValue sz ∨ ck = [] ∨ 2147483648 ≤ decimalValue ck) ∧
        (next b chunk).1.data = rest) := by
  have hstoi : ∀ s, stoi s ≠ .ub ∧ (stoi s = .throws → s = [] ∨ 2147483648 ≤ decimalValue s) := by
    intro s
    unfold stoi
    split
    · next h => exact ⟨by simp, fun _ => Or.inl (by simpa using h)⟩
    · split
      · simp
      · exact ⟨by simp, fun _ => Or.inr (by omega)⟩
  rcases next_cases b chunk with ⟨_, he⟩ | ⟨i, _, he⟩ | ⟨g, sz, p, ck, rest, hs, _, he⟩
  · rw [he]; simp
  · rw [he]; simp
  · have hdata : (next b chunk).1.data = rest := by rw [he, checkSegment_data, bufAfter_data]
    have key : (next b chunk).2 ≠ .ub ∧ ((next b chunk).2 = .throws →
        sz = [] ∨ 2147483648 ≤ decimalValue sz ∨ ck = [] ∨ 2147483648 ≤ decimalValue ck) := by
      rw [he]
      unfold checkSegment
      split
      · split
        · split
          · split
            · split <;> simp
            · next h =>
              refine ⟨by simp, fun _ => ?_⟩
              rcases (hstoi ck).2 h with h | h <;> simp [h]
            · next h => exact absurd h (hstoi ck).1
          · simp
        · next h =>
          refine ⟨by simp, fun _ => ?_⟩
          rcases (hstoi sz).2 h with h | h <;> simp [h]
        · next h => exact absurd h (hstoi sz).1
      · simp
    exact ⟨key.1, fun h => ⟨g, sz, p, ck, rest, hs, key.2 h, hdata⟩⟩

/-! ### C10 -/

/-- **C10 (termination).** The drain loop terminates: once the fuel exceeds the
number of buffered bytes its value no longer matters. -/
theorem C10_drain_terminates (b : Buf) (chunk : Str) (f₁ f₂ : Nat)
    (h₁ : (b.data ++ chunk).length < f₁) (h₂ : (b.data ++ chunk).length < f₂) :
    drain f₁ b chunk = drain f₂ b chunk := by
  induction f₁ generalizing b chunk f₂ with
  | zero => omega
  | succ f₁ ih =>
    cases f₂ with
    | zero => omega
    | succ f₂ =>
      rw [drain, drain]
      cases hn : next b chunk with
      | mk b' o =>
        cases o with
        | ok p =>
          simp only
          by_cases hp : p = []
          · simp [hp]
          · have hpe : p.isEmpty = false := by simpa using hp
            simp only [hpe, Bool.false_eq_true, if_false]
            obtain ⟨g, sz, ck, rest, _, hr, he⟩ := C08_delivered_payload_is_checked b b' chunk p hn hp
            have hl := congrArg List.length he
            have hpl := List.length_pos_iff.mpr hp
            simp only [List.length_append] at hl
            have hlt : (b'.data ++ []).length < (b.data ++ chunk).length := by
              rw [List.append_nil, List.length_append, hl, hr]
              omega
            rw [ih b' [] f₂ (by omega) (by omega)]
        | throws => rfl
        | ub => rfl

/-- **C10 is violated:** a corrupted frame in front of a good one stops the loop
and the complete good frame stays in the buffer. -/
theorem C10_complete_frame_left_violated :
    ∃ bad p : Str, Framable p ∧
      (drain 1000 {} (bad ++ frame p)).2 = [] ∧ (drain 1000 {} (bad ++ frame p)).1.data = frame p := by
  refine ⟨BPS ++ "5".toList ++ APS ++ "x".toList ++ BC ++ "1".toList ++ AC, "ok".toList,
    ⟨?_, ?_, ?_, ?_, ?_, ?_⟩, ?_, ?_⟩ <;> decide +kernel

/-- **C10 (partial).** If the buffered bytes are good frames followed by bytes
without a terminator, the loop delivers all the frames and leaves just the rest.
Missing: buffers with corrupted frames. -/
theorem C10_drain_delivers_all_partial (b : Buf) (chunk tail : Str) (ps : List Str)
    (hps : ∀ p ∈ ps, Framable p) (hnt : ¬ AC <:+: tail)
    (hd : b.data ++ chunk = (ps.map frame).flatten ++ tail) (f : Nat)
    (hf : (b.data ++ chunk).length < f) :
    (drain f b chunk).2 = ps ∧ (drain f b chunk).1.data = tail := by
  induction ps generalizing b chunk f with
  | nil =>
    simp only [List.map_nil, List.flatten_nil, List.nil_append] at hd
    cases f with
    | zero => omega
    | succ f =>
      rw [drain, next_data_of_not_found b chunk (hd ▸ hnt)]
      exact ⟨rfl, hd⟩
  | cons p ps ih =>
    cases f with
    | zero => omega
    | succ f =>
      have hp := hps p (by simp)
      simp only [List.map_cons, List.flatten_cons, List.append_assoc] at hd
      obtain ⟨n1, n2⟩ := next_frame b chunk [] p ((ps.map frame).flatten ++ tail) hp (by decide)
        (by simpa using hd)
      have hpe : p.isEmpty = false := by simpa using hp.ne
      have hlen : ((next b chunk).1.data ++ []).length < f := by
        rw [List.append_nil, n2]
        have h0 : 0 < (frame p).length := List.length_pos_iff.mpr (frame_ne_nil p)
        rw [hd] at hf
        simp only [List.length_append] at hf ⊢
        omega
      obtain ⟨i1, i2⟩ := ih (next b chunk).1 [] (fun q hq => hps q (by simp [hq]))
        (by rw [List.append_nil, n2]) f hlen
      rw [drain]
      cases hn : next b chunk with
      | mk b' o =>
        rw [hn] at n1 i1 i2
        simp only at n1
        subst n1
        simp only [hpe, Bool.false_eq_true, if_false]
        exact ⟨by rw [i1], i2⟩

/-- Non-vacuity of C10: two good frames and the beginning of a third. -/
example :
    let data := frame "one".toList ++ frame "two".toList ++ (frame "three".toList).take 20
    drain 1000 {} data = ({ data := (frame "three".toList).take 20, validCount := 2 },
      ["one".toList, "two".toList]) := by decide +kernel

end Verif.Sentinel
