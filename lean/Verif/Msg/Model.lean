import Verif.Common

/-!
Model of the message classes of `src/cpp/Communications` and of
`StringUtil::split`.

Simplifications: logging is dropped; a moved-from unique pointer
(`getMessageAttributesOwnership`) is modelled by `attrs := none`.
-/

namespace Verif.Msg

open Verif

/-! ### `src/cpp/Utilities/UxAS_StringUtil.h` -/

/-- `std::getline(ss, item, delimiter)` on the rest of the stream: fails when
nothing is left, otherwise extracts up to the delimiter and drops it.
(UxAS_StringUtil.h:42) -/
def getline (d : Char) (s : Str) : Option (Str × Str) :=
  if s.isEmpty then none
  else some (s.takeWhile (· != d), (s.dropWhile (· != d)).drop 1)

/-- `tokens.back().append(item)`; undefined for an empty vector.
(UxAS_StringUtil.h:48-51) -/
def appendToBack (tokens : List Str) (item : Str) : Outcome (List Str) :=
  match tokens.getLast? with
  | none => .ub
  | some b => .ok (tokens.dropLast ++ [b ++ item])

/-- The `while (std::getline(...))` loop; returns the tokens and the final
`emplaceCount`.  `fuel` bounds the number of iterations; it is called with more
fuel than the string has characters, which `getline` cannot exceed.
(UxAS_StringUtil.h:42-58) -/
def splitLoop (d : Char) (maxTok : Nat) (app : Bool) :
    Nat → Str → List Str → Nat → Outcome (List Str × Nat)
  | 0, _, tokens, cnt => .ok (tokens, cnt)
  | fuel + 1, s, tokens, cnt =>
    match getline d s with
    | none => .ok (tokens, cnt)
    | some (item, rest) =>
      (if cnt < maxTok then Outcome.ok (tokens ++ [item]) else appendToBack tokens item).bind
        fun tokens' =>
          if cnt + 1 == maxTok && !app then .ok (tokens', cnt + 1)
          else splitLoop d maxTok app fuel rest tokens' (cnt + 1)

/-- `StringUtil::split`.  `value.find_last_of(delimiter) == value.size()-1`
holds for the empty string (both sides are `npos`) and for strings ending in
the delimiter.  (UxAS_StringUtil.h:35-65; the 32 bit counter is unbounded here) -/
def split (value : Str) (d : Char) (maxTok : Nat := 4294967295) (app : Bool := false) :
    Outcome (List Str) :=
  (splitLoop d maxTok app (value.length + 1) value [] 0).bind fun (tokens, cnt) =>
    if cnt < maxTok && (value.isEmpty || value.getLast? == some d) then .ok (tokens ++ [[]])
    else .ok tokens

/-! ### `src/cpp/Communications/AddressedMessage.h` -/

/-- `isValidAddress` (AddressedMessage.h:53-69). -/
def isValidAddress (a : Str) : Bool :=
  if a.length < 1 then false
  else if (findChar '$' a).isSome then false
  else true

/-- `AddressedMessage` data members (AddressedMessage.h:182-185). -/
structure AddrMsg where
  valid : Bool := false
  str : Str := []
  address : Str := []
  payload : Str := []
deriving Repr, DecidableEq

/-- `setAddressAndPayload` (AddressedMessage.h:77-103). -/
def AddrMsg.set (m : AddrMsg) (address payload : Str) : AddrMsg :=
  if !isValidAddress address then { m with valid := false }
  else if payload.length < 1 then { m with valid := false }
  else { valid := true, str := address ++ '$' :: payload, address := address, payload := payload }

/-- `parseAddressedMessageStringAndSetFields` (AddressedMessage.h:163-180). -/
def AddrMsg.parse (m : AddrMsg) (s : Str) : AddrMsg :=
  match findChar '$' s with
  | none => { m with valid := false }
  | some i =>
    if i ≤ s.length - 3 then m.set (s.take i) ((s.drop (i + 1)).take (s.length - (i + 1)))
    else { m with valid := false }

/-- `setAddressAndPayloadFromDelimitedString` (AddressedMessage.h:105-118). -/
def AddrMsg.setFromString (m : AddrMsg) (s : Str) : AddrMsg :=
  if s.length ≥ 3 then m.parse s else { m with valid := false }

/-! ### `src/cpp/Communications/MessageAttributes.h` -/

/-- `MessageAttributes` data members (MessageAttributes.h:237-243). -/
structure Attrs where
  valid : Bool := false
  str : Str := []
  contentType : Str := []
  descriptor : Str := []
  group : Str := []
  entityId : Str := []
  serviceId : Str := []
deriving Repr, DecidableEq

/-- Concatenation used for `m_string` (MessageAttributes.h:90-94, 121-125). -/
def attrString (ct ds gr ei si : Str) : Str :=
  ct ++ '|' :: (ds ++ '|' :: (gr ++ '|' :: (ei ++ '|' :: si)))

/-- `setAttributes` (MessageAttributes.h:45-98). -/
def Attrs.set (m : Attrs) (ct ds gr ei si : Str) : Attrs :=
  if ct.length < 1 then { m with valid := false }
  else if ds.length < 1 then { m with valid := false }
  else if ei.length < 1 then { m with valid := false }
  else if si.length < 1 then { m with valid := false }
  else { valid := true, str := attrString ct ds gr ei si,
         contentType := ct, descriptor := ds, group := gr, entityId := ei, serviceId := si }

/-- `updateSourceAttributes`: the fields are assigned before the checks and the
string is not rebuilt when a check fails (MessageAttributes.h:100-127). -/
def Attrs.updateSource (m : Attrs) (gr ei si : Str) : Attrs :=
  let m := { m with group := gr, entityId := ei, serviceId := si }
  if ei.length < 1 then { m with valid := false }
  else if si.length < 1 then { m with valid := false }
  else { m with str := attrString m.contentType m.descriptor m.group m.entityId m.serviceId }

/-- `parseMessageAttributesStringAndSetFields` (MessageAttributes.h:221-235). -/
def Attrs.parse (m : Attrs) (s : Str) : Outcome Attrs :=
  (split s '|').bind fun tokens =>
    match tokens with
    | [ct, ds, gr, ei, si] => .ok (m.set ct ds gr ei si)
    | _ => .ok { m with valid := false }

/-- `setAttributesFromDelimitedString` (MessageAttributes.h:129-142). -/
def Attrs.setFromString (m : Attrs) (s : Str) : Outcome Attrs :=
  if s.length ≥ 8 then m.parse s else .ok { m with valid := false }

/-! ### `src/cpp/Communications/AddressedAttributedMessage.h` -/

/-- Data members of `AddressedAttributedMessage` (AddressedMessage.h:182-185 and
AddressedAttributedMessage.h:204). -/
structure AAMsg where
  valid : Bool := false
  str : Str := []
  address : Str := []
  payload : Str := []
  attrs : Option Attrs := none
deriving Repr, DecidableEq

/-- `m_address + "$" + attributes + "$" + m_payload`
(AddressedAttributedMessage.h:74, 90, 98). -/
def wireString (address attrs payload : Str) : Str :=
  address ++ '$' :: (attrs ++ '$' :: payload)

/-- `setAddressAttributesAndPayload` (AddressedAttributedMessage.h:50-84). -/
def AAMsg.set (m : AAMsg) (address ct ds gr ei si payload : Str) : AAMsg :=
  if !isValidAddress address then { m with valid := false }
  else if payload.length < 1 then { m with valid := false }
  else
    let a := ({} : Attrs).set ct ds gr ei si
    if a.valid then
      { valid := true, str := wireString address a.str payload, address := address,
        payload := payload, attrs := some a }
    else { m with attrs := some a, valid := false }

/-- `updateSourceAttributes`; dereferences the attributes pointer
(AddressedAttributedMessage.h:86-92). -/
def AAMsg.updateSource (m : AAMsg) (gr ei si : Str) : Outcome AAMsg :=
  match m.attrs with
  | none => .ub
  | some a =>
    let a' := a.updateSource gr ei si
    .ok { m with valid := m.valid && a'.valid, attrs := some a',
                 str := wireString m.address a'.str m.payload }

/-- `updateAddress` (AddressedAttributedMessage.h:94-100). -/
def AAMsg.updateAddress (m : AAMsg) (address : Str) : Outcome AAMsg :=
  match m.attrs with
  | none => .ub
  | some a => .ok { m with address := address, str := wireString address a.str m.payload }

/-- `parseAddressedAttributedMessageStringAndSetFields`
(AddressedAttributedMessage.h:159-201). -/
def AAMsg.parse (m : AAMsg) (s : Str) : Outcome AAMsg :=
  match findChar '$' s with
  | none => .ok { m with valid := false }
  | some i =>
    if i > s.length - 11 then .ok { m with valid := false }
    else
      match (findChar '$' (s.drop (i + 1))).map (· + (i + 1)) with
      | none => .ok { m with valid := false }
      | some j =>
        if j == s.length - 1 then .ok { m with valid := false }
        else
          (({} : Attrs).setFromString ((s.drop (i + 1)).take (j - (i + 1)))).bind fun a =>
            if !a.valid then .ok { m with attrs := some a, valid := false }
            else .ok { valid := true, str := s, address := s.take i,
                       payload := (s.drop (j + 1)).take (s.length - (j + 1)), attrs := some a }

/-- `setAddressAttributesAndPayloadFromDelimitedString`
(AddressedAttributedMessage.h:102-115). -/
def AAMsg.setFromString (m : AAMsg) (s : Str) : Outcome AAMsg :=
  if s.length ≥ 11 then m.parse s else .ok { m with valid := false }

/-- `getString` (AddressedAttributedMessage.h:123-135). -/
def AAMsg.getString (m : AAMsg) : Str :=
  if m.attrs.isSome then m.str else []

/-- AddressedAttributedMessage.h 50-130: the public mutating calls on one message object.
-/
inductive AAOp where
  | set (address ct ds gr ei si payload : Str)
  | setFromString (s : Str)
  | updateSource (gr ei si : Str)
  | updateAddress (address : Str)
  | takeAttributes
deriving Repr

/-- AddressedAttributedMessage.h 50-130: one public call. -/
def AAMsg.step (m : AAMsg) : AAOp → Outcome AAMsg
  | .set a ct ds gr ei si p => .ok (m.set a ct ds gr ei si p)
  | .setFromString s => m.setFromString s
  | .updateSource gr ei si => m.updateSource gr ei si
  | .updateAddress a => m.updateAddress a
  | .takeAttributes => .ok { m with attrs := none }

/-- Not in the code: a history of public calls. -/
def AAMsg.run (m : AAMsg) : List AAOp → Outcome AAMsg
  | [] => .ok m
  | op :: ops => (m.step op).bind fun m' => m'.run ops

end Verif.Msg
