import Verif.Msg.Lemmas

/-! Properties C01 to C05. -/

namespace Verif.Msg

open Verif

/-! ### C01 -/

/-- **C01.** A message built from clean fields and any non-empty payload is valid
and parsing its wire string, on any message object, gives back every field. -/
theorem C01_wire_round_trip (m₀ m₁ : AAMsg) {ad ct ds gr ei si p : Str}
    (had : ad ≠ [] ∧ '$' ∉ ad)
    (hct : ct ≠ [] ∧ '$' ∉ ct ∧ '|' ∉ ct) (hds : ds ≠ [] ∧ '$' ∉ ds ∧ '|' ∉ ds)
    (hgr : '$' ∉ gr ∧ '|' ∉ gr)
    (hei : ei ≠ [] ∧ '$' ∉ ei ∧ '|' ∉ ei) (hsi : si ≠ [] ∧ '$' ∉ si ∧ '|' ∉ si)
    (hp : p ≠ []) :
    (m₀.set ad ct ds gr ei si p).valid = true ∧
    ∃ m', m₁.setFromString (m₀.set ad ct ds gr ei si p).getString = .ok m' ∧
      m'.valid = true ∧ m'.address = ad ∧ m'.payload = p ∧
      ∃ a, m'.attrs = some a ∧ a.contentType = ct ∧ a.descriptor = ds ∧ a.group = gr ∧
        a.entityId = ei ∧ a.serviceId = si := by
  have hcond : (ad ≠ [] ∧ '$' ∉ ad) ∧ p ≠ [] ∧ ct ≠ [] ∧ ds ≠ [] ∧ ei ≠ [] ∧ si ≠ [] :=
    ⟨had, hp, hct.1, hds.1, hei.1, hsi.1⟩
  refine ⟨(set_valid_iff ..).mpr hcond, ?_⟩
  have hw : WireForm (wireString ad (attrString ct ds gr ei si) p) ad ct ds gr ei si p :=
    { eq := by simp [wireString, attrString]
      address_clean := had.2, ct_clean := hct.2, ds_clean := hds.2, gr_clean := hgr,
      ei_clean := hei.2, si_clean := hsi.2, ct_ne := hct.1, ds_ne := hds.1, ei_ne := hei.1,
      si_ne := hsi.1, payload_ne := hp }
  rw [set_eq _ hcond]
  exact ⟨_, parse_of_wireForm m₁ hw, rfl, rfl, rfl, _, rfl, rfl, rfl, rfl, rfl, rfl⟩

/-- Non-vacuity of C01: a message whose payload is full of delimiters. -/
example : (({} : AAMsg).set "uxas.project.X".toList "lmcp".toList "afrl.cmasi.Y".toList []
    "100".toList "64".toList "$|a$b||$".toList).getString
    = "uxas.project.X$lmcp|afrl.cmasi.Y||100|64$$|a$b||$".toList := by decide

/-! ### C02 -/

/-- **C02 (acceptance).** A byte string is accepted exactly when it has the wire
grammar.  `WireForm` allows an empty address, see
`C02_nonempty_address_violated`. -/
theorem C02_accepts_iff_wire_form_partial (m₀ : AAMsg) (s : Str) :
    (∃ m, m₀.setFromString s = .ok m ∧ m.valid = true) ↔
      ∃ ad ct ds gr ei si p, WireForm s ad ct ds gr ei si p := by
  constructor
  · rintro ⟨m, h, hv⟩
    obtain ⟨_, a, _, _, _, hw⟩ := wireForm_of_parse h hv
    exact ⟨_, _, _, _, _, _, _, hw⟩
  · rintro ⟨ad, ct, ds, gr, ei, si, p, hw⟩
    exact ⟨_, parse_of_wireForm m₀ hw, rfl⟩

/-- **C02 (fields).** The fields reported after acceptance are those of the
grammar and re-concatenate to the received bytes; parsing never faults. -/
theorem C02_reported_fields (m₀ : AAMsg) (s : Str) :
    ∃ m, m₀.setFromString s = .ok m ∧
      (m.valid = true →
        m.getString = s ∧ ∃ a, m.attrs = some a ∧
          WireForm s m.address a.contentType a.descriptor a.group a.entityId a.serviceId
            m.payload) := by
  obtain ⟨m, hm⟩ := setFromString_ok m₀ s
  refine ⟨m, hm, fun hv => ?_⟩
  obtain ⟨hs, a, ha, _, _, hw⟩ := wireForm_of_parse hm hv
  exact ⟨by simp [AAMsg.getString, ha, hs], a, ha, hw⟩

/-- **C02 (unambiguous).** The grammar reads a byte string in at most one way. -/
theorem C02_wire_form_unique {s ad ct ds gr ei si p ad' ct' ds' gr' ei' si' p' : Str}
    (h : WireForm s ad ct ds gr ei si p) (h' : WireForm s ad' ct' ds' gr' ei' si' p') :
    ad = ad' ∧ ct = ct' ∧ ds = ds' ∧ gr = gr' ∧ ei = ei' ∧ si = si' ∧ p = p' := by
  have e := (parse_of_wireForm {} h).symm.trans (parse_of_wireForm {} h')
  simp only [Outcome.ok.injEq, AAMsg.mk.injEq, Option.some.injEq, Attrs.mk.injEq] at e
  obtain ⟨_, _, h1, h2, _, _, h3, h4, h5, h6, h7⟩ := e
  exact ⟨h1, h3, h4, h5, h6, h7, h2⟩

/-- **C02 fails for the address:** the parser accepts a string with an empty
address, which `setAddressAttributesAndPayload` refuses to build. -/
theorem C02_nonempty_address_violated :
    ∃ (s : Str) (m : AAMsg), ({} : AAMsg).setFromString s = .ok m ∧ m.valid = true ∧
      m.address = [] ∧
      ∀ m₀ ct ds gr ei si p, ((m₀ : AAMsg).set m.address ct ds gr ei si p).valid = false := by
  refine ⟨"$lmcp|D|g|1|2$payload".toList,
    { valid := true, str := "$lmcp|D|g|1|2$payload".toList, address := [],
      payload := "payload".toList,
      attrs := some
        { valid := true, str := "lmcp|D|g|1|2".toList, contentType := "lmcp".toList,
          descriptor := "D".toList, group := "g".toList, entityId := "1".toList,
          serviceId := "2".toList } }, by decide, rfl, rfl, ?_⟩
  intros; simp [AAMsg.set, isValidAddress]

/-! ### C03 -/

/-- What the object guarantees after every history. -/
private def Inv (m : AAMsg) : Prop :=
  m.valid = true → ∀ a, m.attrs = some a → a.valid = true ∧
    a.str = attrString a.contentType a.descriptor a.group a.entityId a.serviceId ∧
    m.str = wireString m.address a.str m.payload

private theorem inv_step {m m' : AAMsg} {op : AAOp} (h : Inv m) (hs : m.step op = .ok m') :
    Inv m' := by
  cases op with
  | set ad ct ds gr ei si p =>
    simp only [AAMsg.step, Outcome.ok.injEq] at hs
    subst hs
    intro hv a ha
    have hc := (set_valid_iff ..).mp hv
    rw [set_eq _ hc] at ha ⊢
    simp only [Option.some.injEq] at ha
    subst ha
    exact ⟨rfl, rfl, rfl⟩
  | setFromString s =>
    simp only [AAMsg.step] at hs
    intro hv a ha
    obtain ⟨h1, a', h2, h3, h4, hw⟩ := wireForm_of_parse hs hv
    rw [ha] at h2; simp only [Option.some.injEq] at h2; subst h2
    refine ⟨h3, h4, ?_⟩
    rw [h1, wireForm_eq hw, h4]; rfl
  | updateSource gr ei si =>
    simp only [AAMsg.step, AAMsg.updateSource] at hs
    split at hs
    · simp at hs
    · next a0 ha0 =>
      simp only [Outcome.ok.injEq] at hs
      subst hs
      intro hv a ha
      simp only [Option.some.injEq] at ha
      simp only [Bool.and_eq_true] at hv
      subst ha
      refine ⟨hv.2, ?_, rfl⟩
      have h2 := hv.2
      unfold Attrs.updateSource at h2 ⊢
      cases ei <;> cases si <;> simp at h2 ⊢
  | updateAddress ad =>
    simp only [AAMsg.step, AAMsg.updateAddress] at hs
    split at hs
    · simp at hs
    · next a0 ha0 =>
      simp only [Outcome.ok.injEq] at hs
      subst hs
      intro hv a ha
      simp only at hv ha
      rw [ha0] at ha; simp only [Option.some.injEq] at ha; subst ha
      obtain ⟨h1, h2, _⟩ := h hv _ ha0
      exact ⟨h1, h2, rfl⟩
  | takeAttributes =>
    simp only [AAMsg.step, Outcome.ok.injEq] at hs
    subst hs
    intro _ a ha; simp at ha

private theorem inv_run {ops : List AAOp} {m m' : AAMsg} (h : Inv m) (hs : m.run ops = .ok m') :
    Inv m' := by
  induction ops generalizing m with
  | nil => simp only [AAMsg.run, Outcome.ok.injEq] at hs; exact hs ▸ h
  | cons op ops ih =>
    obtain ⟨m1, h1, h2⟩ := Outcome.bind_eq_ok.mp hs
    exact ih (inv_step h h1) h2

/-- **C03 (serialisation part).** After every history of public calls on a new
object, a valid message (whose attributes were not moved out) has as its string
the delimited concatenation of its fields. -/
theorem C03_valid_string_matches_fields {ops : List AAOp} {m : AAMsg} {a : Attrs}
    (hrun : ({} : AAMsg).run ops = .ok m) (hv : m.valid = true) (ha : m.attrs = some a) :
    m.getString = m.address ++ "$".toList ++ a.contentType ++ "|".toList ++ a.descriptor
      ++ "|".toList ++ a.group ++ "|".toList ++ a.entityId ++ "|".toList ++ a.serviceId
      ++ "$".toList ++ m.payload := by
  have h0 : Inv {} := by intro h; simp at h
  obtain ⟨_, h2, h3⟩ := inv_run h0 hrun hv a ha
  simp only [AAMsg.getString, ha, Option.isSome_some, if_true]
  rw [h3, h2]
  simp [wireString, attrString]

/-- The arguments of a call contain no delimiter where the grammar forbids it. -/
def AAOp.Clean : AAOp → Prop
  | .set _ ct ds gr ei si _ =>
      ('$' ∉ ct ∧ '|' ∉ ct) ∧ ('$' ∉ ds ∧ '|' ∉ ds) ∧ ('$' ∉ gr ∧ '|' ∉ gr) ∧
      ('$' ∉ ei ∧ '|' ∉ ei) ∧ ('$' ∉ si ∧ '|' ∉ si)
  | .setFromString _ => True
  | .updateSource gr ei si =>
      ('$' ∉ gr ∧ '|' ∉ gr) ∧ ('$' ∉ ei ∧ '|' ∉ ei) ∧ ('$' ∉ si ∧ '|' ∉ si)
  | .updateAddress ad => '$' ∉ ad
  | .takeAttributes => True

private def Inv2 (m : AAMsg) : Prop :=
  m.valid = true → ∀ a, m.attrs = some a → a.valid = true ∧
    WireForm m.str m.address a.contentType a.descriptor a.group a.entityId a.serviceId m.payload

private theorem inv2_step {m m' : AAMsg} {op : AAOp} (hc : op.Clean) (hi : Inv m) (h : Inv2 m)
    (hs : m.step op = .ok m') : Inv2 m' := by
  cases op with
  | set ad ct ds gr ei si p =>
    simp only [AAMsg.step, Outcome.ok.injEq] at hs
    subst hs
    intro hv a ha
    have hcond := (set_valid_iff ..).mp hv
    rw [set_eq _ hcond] at ha ⊢
    simp only [Option.some.injEq] at ha
    subst ha
    obtain ⟨c1, c2, c3, c4, c5⟩ := hc
    obtain ⟨⟨_, h2⟩, h3, h4, h5, h6, h7⟩ := hcond
    exact ⟨rfl, by simp [wireString, attrString], h2, c1, c2, c3, c4, c5, h4, h5, h6, h7, h3⟩
  | setFromString s =>
    simp only [AAMsg.step] at hs
    intro hv a ha
    obtain ⟨h1, a', h2, h3, h4, hw⟩ := wireForm_of_parse hs hv
    rw [ha] at h2; simp only [Option.some.injEq] at h2; subst h2
    rw [h1]
    exact ⟨h3, hw⟩
  | updateSource gr ei si =>
    simp only [AAMsg.step, AAMsg.updateSource] at hs
    split at hs
    · simp at hs
    · next a0 ha0 =>
      simp only [Outcome.ok.injEq] at hs
      subst hs
      intro hv a ha
      simp only [Option.some.injEq] at ha
      simp only [Bool.and_eq_true] at hv
      obtain ⟨c1, c2, c3⟩ := hc
      obtain ⟨hav, hw⟩ := h hv.1 _ ha0
      have h2 := hv.2
      subst ha
      refine ⟨hv.2, ?_⟩
      unfold Attrs.updateSource at h2 ⊢
      by_cases he : ei = []
      · simp [he] at h2
      · by_cases hsi : si = []
        · have : ¬ ei.length < 1 := by have := List.length_pos_iff.mpr he; omega
          simp [hsi, this] at h2
        · have h3 : ¬ ei.length < 1 := by have := List.length_pos_iff.mpr he; omega
          have h4 : ¬ si.length < 1 := by have := List.length_pos_iff.mpr hsi; omega
          simp only [h3, h4, if_false]
          exact ⟨by simp [wireString, attrString], hw.address_clean, hw.ct_clean, hw.ds_clean,
            c1, c2, c3, hw.ct_ne, hw.ds_ne, he, hsi, hw.payload_ne⟩
  | updateAddress ad =>
    simp only [AAMsg.step, AAMsg.updateAddress] at hs
    split at hs
    · simp at hs
    · next a0 ha0 =>
      simp only [Outcome.ok.injEq] at hs
      subst hs
      intro hv a ha
      simp only at hv ha
      rw [ha0] at ha; simp only [Option.some.injEq] at ha; subst ha
      obtain ⟨h1, hw⟩ := h hv _ ha0
      refine ⟨h1, ?_, hc, hw.ct_clean, hw.ds_clean, hw.gr_clean, hw.ei_clean, hw.si_clean,
        hw.ct_ne, hw.ds_ne, hw.ei_ne, hw.si_ne, hw.payload_ne⟩
      rw [(hi hv _ ha0).2.1]
      simp [wireString, attrString]
  | takeAttributes =>
    simp only [AAMsg.step, Outcome.ok.injEq] at hs
    subst hs
    intro _ a ha; simp at ha

private theorem inv2_run {ops : List AAOp} {m m' : AAMsg} (hc : ∀ op ∈ ops, op.Clean) (hi : Inv m)
    (h : Inv2 m) (hs : m.run ops = .ok m') : Inv2 m' := by
  induction ops generalizing m with
  | nil => simp only [AAMsg.run, Outcome.ok.injEq] at hs; exact hs ▸ h
  | cons op ops ih =>
    obtain ⟨m1, h1, h2⟩ := Outcome.bind_eq_ok.mp hs
    exact ih (fun o ho => hc o (by simp [ho])) (inv_step hi h1)
      (inv2_step (hc op (by simp)) hi h h1) h2

/-- **C03 (parse-back part, partial).** If no call was given an attribute
containing a delimiter or an updated address containing `$`, the string of a
valid message parses back to the same fields.  Missing: the classes do not check
this themselves, see `C03_parse_back_violated`. -/
theorem C03_parse_back_partial {ops : List AAOp} {m : AAMsg} {a : Attrs}
    (hclean : ∀ op ∈ ops, op.Clean)
    (hrun : ({} : AAMsg).run ops = .ok m) (hv : m.valid = true) (ha : m.attrs = some a)
    (m₁ : AAMsg) :
    ∃ m' a', m₁.setFromString m.getString = .ok m' ∧ m'.valid = true ∧ m'.attrs = some a' ∧
      m'.address = m.address ∧ m'.payload = m.payload ∧ a'.contentType = a.contentType ∧
      a'.descriptor = a.descriptor ∧ a'.group = a.group ∧ a'.entityId = a.entityId ∧
      a'.serviceId = a.serviceId := by
  have h0 : Inv {} := by intro h; simp at h
  have h0' : Inv2 {} := by intro h; simp at h
  obtain ⟨_, hw⟩ := inv2_run hclean h0 h0' hrun hv a ha
  simp only [AAMsg.getString, ha, Option.isSome_some, if_true]
  exact ⟨_, _, parse_of_wireForm m₁ hw, rfl, rfl, rfl, rfl, rfl, rfl, rfl, rfl, rfl⟩

/-- A history used as witness: build a message, then re-address it. -/
private def readdress : List AAOp :=
  [.set "a".toList "lmcp".toList "D".toList [] "1".toList "2".toList "pay".toList,
   .updateAddress "x$y".toList]

/-- **C03 parse-back is violated** by an unchecked `updateAddress`: the object
claims to be valid but its string is not accepted by the parser. -/
theorem C03_parse_back_violated :
    ∃ ops m, ({} : AAMsg).run ops = .ok m ∧ m.valid = true ∧ m.attrs.isSome = true ∧
      ∃ m', ({} : AAMsg).setFromString m.getString = .ok m' ∧ m'.valid = false := by
  refine ⟨readdress,
    { valid := true, str := "x$y$lmcp|D||1|2$pay".toList, address := "x$y".toList,
      payload := "pay".toList,
      attrs := some
        { valid := true, str := "lmcp|D||1|2".toList, contentType := "lmcp".toList,
          descriptor := "D".toList, group := [], entityId := "1".toList,
          serviceId := "2".toList } }, by decide, rfl, rfl, ?_⟩
  exact ⟨_, rfl, by decide⟩

/-- The same defect can silently change the fields: a `|` inside an attribute
shifts the attribute boundaries but keeps the message parseable (here the
descriptor `D|x` with an empty group would have six parts, and a `$` inside the
descriptor moves the rest of the attributes into the payload). -/
theorem C03_attribute_delimiter_violated :
    ∃ m : AAMsg, ({} : AAMsg).run
        [.set "a".toList "c|d|g|e|f$".toList "D".toList [] "1".toList "2".toList "pay".toList]
          = .ok m ∧ m.valid = true ∧ m.payload = "pay".toList ∧
      ∃ m', ({} : AAMsg).setFromString m.getString = .ok m' ∧ m'.valid = true ∧
        m'.payload ≠ m.payload := by
  refine ⟨({} : AAMsg).set "a".toList "c|d|g|e|f$".toList "D".toList [] "1".toList "2".toList
    "pay".toList, rfl, by decide, by decide, ?_⟩
  exact ⟨_, rfl, by decide, by decide⟩

/-- Non-vacuity of `C03_parse_back_partial` on a history with a failing call, a
parse, a source update and an address update. -/
example :
    let ops : List AAOp := [.set [] [] [] [] [] [] [],
      .setFromString "b$lmcp|D|g|1|2$$p|q".toList,
      .updateSource "grp".toList "77".toList "8".toList, .updateAddress "new.addr".toList]
    (∀ op ∈ ops, op.Clean) ∧
      ∃ m, ({} : AAMsg).run ops = .ok m ∧ m.valid = true ∧ m.attrs.isSome = true ∧
        m.getString = "new.addr$lmcp|D|grp|77|8$$p|q".toList := by
  refine ⟨?_, _, rfl, by decide, by decide, by decide⟩
  intro op hop
  simp only [List.mem_cons, List.not_mem_nil, or_false] at hop
  rcases hop with rfl | rfl | rfl | rfl <;> simp [AAOp.Clean]

/-! ### C04 -/

/-- **C04 (partial).** Round trip of the two-part message for payloads of at
least two bytes.  Missing: one-byte payloads, see `C04_one_byte_violated`. -/
theorem C04_two_part_round_trip_partial (m₀ m₁ : AddrMsg) {ad p : Str}
    (had : ad ≠ [] ∧ '$' ∉ ad) (hp : 2 ≤ p.length) :
    (m₀.set ad p).valid = true ∧
    m₁.setFromString (m₀.set ad p).str =
      { valid := true, str := ad ++ "$".toList ++ p, address := ad, payload := p } := by
  have hva := (isValidAddress_iff ad).mpr had
  have hset : ∀ m : AddrMsg, m.set ad p =
      { valid := true, str := ad ++ '$' :: p, address := ad, payload := p } := by
    intro m
    unfold AddrMsg.set
    rw [hva]
    simp only [Bool.not_true, Bool.false_eq_true, if_false]
    rw [if_neg (by omega)]
  rw [hset m₀]
  refine ⟨rfl, ?_⟩
  have l1 := List.length_pos_iff.mpr had.1
  have hlen : (ad ++ '$' :: p).length = ad.length + 1 + p.length := by
    simp only [List.length_append, List.length_cons]; omega
  unfold AddrMsg.setFromString
  simp only
  rw [if_pos (by omega)]
  unfold AddrMsg.parse
  rw [findChar_append had.2]
  simp only
  rw [if_pos (by omega), List.take_left, ← List.drop_drop, List.drop_left]
  rw [show List.drop 1 ('$' :: p) = p from rfl, List.take_of_length_le (by omega), hset]
  simp

/-- **C04 is violated for every one-byte payload and every address:** the object
is valid but its own string is rejected. -/
theorem C04_one_byte_violated (m₀ m₁ : AddrMsg) {ad : Str} (had : ad ≠ [] ∧ '$' ∉ ad) (c : Char) :
    (m₀.set ad [c]).valid = true ∧
    (m₁.setFromString (m₀.set ad [c]).str).valid = false := by
  have hva := (isValidAddress_iff ad).mpr had
  have hset : m₀.set ad [c] =
      { valid := true, str := ad ++ '$' :: [c], address := ad, payload := [c] } := by
    unfold AddrMsg.set
    rw [hva]; simp
  rw [hset]
  refine ⟨rfl, ?_⟩
  have l1 := List.length_pos_iff.mpr had.1
  have hlen : (ad ++ '$' :: [c]).length = ad.length + 2 := by
    simp only [List.length_append, List.length_cons, List.length_nil]
  unfold AddrMsg.setFromString
  simp only
  rw [if_pos (by omega)]
  unfold AddrMsg.parse
  rw [findChar_append had.2]
  simp only
  rw [if_neg (by omega)]

example : ("a".toList ≠ [] ∧ '$' ∉ "a".toList) ∧ 2 ≤ "b$".toList.length := by decide

/-! ### C05 -/

private theorem length_le_join (d : Char) (ts : List Str) : ts.length ≤ (join d ts).length + 1 := by
  induction ts with
  | nil => simp
  | cons t ts ih =>
    cases ts with
    | nil => simp
    | cons u us =>
      rw [join_cons_of_ne (by simp)]
      simp only [List.length_append, List.length_cons] at ih ⊢
      omega

private theorem tokensOf_length_le (d : Char) (s : Str) :
    (tokensOf d s).length ≤ s.length + 1 := by
  have h := length_le_join d (tokensOf d s)
  rwa [(tokensOf_isSplit d s).2.2] at h

/-- **C05.** `split` cuts at every delimiter: its result is a list of
delimiter-free tokens whose join is the input, and it is the only such list.
(The bound says that the string is below 4 GiB, the range of the token
counter.) -/
theorem C05_split_inverse_of_join (s : Str) (d : Char) (hlen : s.length < 4294967295) :
    ∃ ts, split s d = .ok ts ∧ IsSplit d s ts ∧ ∀ ts', IsSplit d s ts' → ts' = ts := by
  refine ⟨tokensOf d s, ?_, tokensOf_isSplit d s, fun _ h => isSplit_eq_tokensOf h⟩
  rw [split_default, List.take_of_length_le]
  have := tokensOf_length_le d s
  omega

/-- **C05 (token limit).** With a positive token limit `split` returns the first
tokens of the full split. -/
theorem C05_split_limited (s : Str) (d : Char) (ts : List Str) (h : IsSplit d s ts)
    {maxTok : Nat} (hm : 0 < maxTok) : split s d maxTok false = .ok (ts.take maxTok) := by
  rw [split_noapp s d hm, isSplit_eq_tokensOf h]

/-- **C05 (token limit, rest appended).** With a token limit of `n + 1` and the rest appended,
`split` returns the first `n` tokens of the full split and the concatenation of all the others,
without the delimiters between them. -/
theorem C05_split_limited_append (s : Str) (d : Char) (ts : List Str) (h : IsSplit d s ts) (n : Nat) :
    split s d (n + 1) true =
      .ok (if ts.length ≤ n then ts else ts.take n ++ [(ts.drop n).flatten]) := by
  rw [split_app, isSplit_eq_tokensOf h, capTokens_eq]

example : split "a|b|c|d".toList '|' 2 true = .ok ["a".toList, "bcd".toList] := by decide
example : split "a|b|c|d".toList '|' 2 false = .ok ["a".toList, "b".toList] := by decide

/-- With a token limit of zero a non-empty string makes `split` call `back()` on
an empty vector. -/
theorem C05_split_zero_limit_ub (s : Str) (d : Char) (app : Bool) (h : s ≠ []) :
    split s d 0 app = .ub := by
  have : s.isEmpty = false := by simpa using h
  simp [split, splitLoop, getline, this, appendToBack]

example : split "a||b|".toList '|' = .ok ["a".toList, [], "b".toList, []] := by decide
example : split [] '|' = .ok [[]] := by decide

end Verif.Msg
