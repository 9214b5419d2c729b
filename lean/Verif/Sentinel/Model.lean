import Verif.Common

/-!
Model of `src/cpp/Utilities/UxAS_SentinelSerialBuffer.{h,cpp}`, the framing used
on TCP streams and serial lines.

Simplifications: logging is dropped (including
`getDetectSentinelBaseStringsMessage`, which only produces log text); the
`uint32_t` statistics counters do not wrap.
-/

namespace Verif.Sentinel

open Verif

/-- `getSerialSentinelBeforePayloadSize` (UxAS_SentinelSerialBuffer.h:44-45) -/
def BPS : Str := ['+', '=', '+', '=', '+', '=', '+', '=']
/-- `getSerialSentinelAfterPayloadSize` (UxAS_SentinelSerialBuffer.h:56-57) -/
def APS : Str := ['#', '@', '#', '@', '#', '@', '#', '@']
/-- `getSerialSentinelBeforeChecksum` (UxAS_SentinelSerialBuffer.h:68-69) -/
def BC : Str := ['!', '%', '!', '%', '!', '%', '!', '%']
/-- `getSerialSentinelAfterChecksum` (UxAS_SentinelSerialBuffer.h:80-81) -/
def AC : Str := ['?', '^', '?', '^', '?', '^', '?', '^']

/-- For UxAS_SentinelSerialBuffer.cpp, `calculateChecksum`: byte value of a character. -/
def byteVal (c : Char) : Nat := c.toNat

/-- `calculateChecksum`: `uint32_t` sum of the bytes (UxAS_SentinelSerialBuffer.cpp:26-37).
The clamp of the length to `UINT32_MAX` is dropped: such strings cannot be held. -/
def checksum (s : Str) : Nat := (s.map byteVal).sum % 4294967296

/-- `createSentinelizedString` (UxAS_SentinelSerialBuffer.cpp:39-50). -/
def frame (data : Str) : Str :=
  BPS ++ decimal data.length ++ APS ++ data ++ BC ++ decimal (checksum data) ++ AC

/-- For UxAS_SentinelSerialBuffer.cpp 57-60, 112: `std::string::find(pat)`: first
occurrence. -/
def findStr (pat : Str) : Str → Option Nat
  | [] => if pat.isEmpty then some 0 else none
  | c :: s => if pat.isPrefixOf (c :: s) then some 0 else (findStr pat s).map (· + 1)

/-- For UxAS_SentinelSerialBuffer.cpp 120, 126, 132: `std::string::rfind(pat, pos)`: last
occurrence starting at or before `pos`. -/
def rfindStr (pat s : Str) : Nat → Option Nat
  | 0 => if pat.isPrefixOf s then some 0 else none
  | p + 1 => if pat.isPrefixOf (s.drop (p + 1)) then some (p + 1) else rfindStr pat s p

/-- For UxAS_SentinelSerialBuffer.cpp 169, 171, 189: `size_t` subtraction. -/
def subU (a b : Nat) : Nat := if b ≤ a then a - b else 18446744073709551616 + a - b

/-- For UxAS_SentinelSerialBuffer.cpp 147, 169, 171, 189: `std::string::substr(pos, n)`
for `pos` inside the string. -/
def substr (s : Str) (pos n : Nat) : Str := (s.drop pos).take n

/-- For UxAS_SentinelSerialBuffer.cpp 192, 195: `static_cast<int>` of a `size_t` or
`uint32_t`. -/
def toInt (n : Nat) : Int :=
  if n % 4294967296 < 2147483648 then ((n % 4294967296 : Nat) : Int)
  else ((n % 4294967296 : Nat) : Int) - 4294967296

/-- `find_first_not_of("1234567890") == npos` (UxAS_SentinelSerialBuffer.cpp:175, 181). -/
def allDigits (s : Str) : Bool := s.all Char.isDigit

/-- For UxAS_SentinelSerialBuffer.cpp 192, 195: `std::stoi` on a string of digits:
`invalid_argument` for the empty string, `out_of_range` above `INT_MAX`. -/
def stoi (s : Str) : Outcome Int :=
  if s.isEmpty then .throws
  else if decimalValue s < 2147483648 then .ok (decimalValue s : Nat)
  else .throws

/-- Data members (UxAS_SentinelSerialBuffer.h:129-132). -/
structure Buf where
  data : Str := []
  validCount : Nat := 0
  invalidCount : Nat := 0
  disregardedCount : Nat := 0
deriving Repr, DecidableEq

/-- The checks on one extracted segment: size string, payload and checksum string
(UxAS_SentinelSerialBuffer.cpp:174-241).  The buffer passed in already has the segment
erased, so its contents survive an exception. -/
def checkSegment (b : Buf) (szStr payload ckStr : Str) : Buf × Outcome Str :=
  if allDigits szStr && allDigits ckStr then
    match stoi szStr with
    | .ok n =>
      if toInt payload.length == n then
        match stoi ckStr with
        | .ok k =>
          if toInt (checksum payload) == k then
            ({ b with validCount := b.validCount + 1 }, .ok payload)
          else ({ b with invalidCount := b.invalidCount + 1 }, .ok [])
        | .throws => (b, .throws)
        | .ub => (b, .ub)
      else ({ b with invalidCount := b.invalidCount + 1 }, .ok [])
    | .throws => (b, .throws)
    | .ub => (b, .ub)
  else ({ b with invalidCount := b.invalidCount + 1 }, .ok [])

/-- `getNextPayloadString` (UxAS_SentinelSerialBuffer.cpp:105-242).  The final buffer is
returned even when the call throws. -/
def next (b : Buf) (chunk : Str) : Buf × Outcome Str :=
  let data := b.data ++ chunk
  match findStr AC data with
  | none => ({ b with data := data }, .ok [])
  | some aftChecksum =>
    let inspectLength := aftChecksum + AC.length
    let bc := rfindStr BC data aftChecksum
    -- a missing marker is `npos`; the next `rfind` then starts from the end
    let aps := rfindStr APS data (bc.getD data.length)
    let bps := rfindStr BPS data (aps.getD data.length)
    match bc, aps, bps with
    | some befChecksum, some aftPayloadSz, some befPayloadSz =>
      let totalLen := subU (aftChecksum + AC.length) befPayloadSz
      let wholeStr := substr data befPayloadSz totalLen
      -- erase the segment, then the disregarded data in front of it
      let data' := data.take befPayloadSz ++ data.drop (befPayloadSz + totalLen)
      let b' : Buf :=
        if befPayloadSz > 0 then
          { b with data := data'.drop befPayloadSz, disregardedCount := b.disregardedCount + 1 }
        else { b with data := data' }
      let aftPayloadSz := subU aftPayloadSz befPayloadSz
      let befChecksum := subU befChecksum befPayloadSz
      let aftChecksum := subU aftChecksum befPayloadSz
      let szStr := substr wholeStr BPS.length (subU aftPayloadSz BPS.length)
      let ckStr := substr wholeStr (befChecksum + BC.length)
        (subU (subU aftChecksum befChecksum) BC.length)
      let payload := substr wholeStr (aftPayloadSz + APS.length)
        (subU (subU befChecksum aftPayloadSz) APS.length)
      checkSegment b' szStr payload ckStr
    | _, _, _ => ({ b with data := data.drop inspectLength }, .ok [])

/-- The receive loop of the callers: hand in a chunk, then keep asking with an
empty chunk while a non-empty payload comes back
(ZeroMqAddressedAttributedMessageReceiver.cpp:77-92 and the TCP and serial
bridges).  An exception ends the loop.  `fuel` bounds the iterations. -/
def drain : Nat → Buf → Str → Buf × List Str
  | 0, b, _ => (b, [])
  | fuel + 1, b, chunk =>
    match next b chunk with
    | (b', .ok p) =>
      if p.isEmpty then (b', [])
      else
        let r := drain fuel b' []
        (r.1, p :: r.2)
    | (b', _) => (b', [])

/-- Not in the code: reception of a list of chunks; every chunk is drained. The fuel
exceeds the number of payloads the buffer can hold. -/
def receive (b : Buf) : List Str → Buf × List Str
  | [] => (b, [])
  | c :: cs =>
    let r := drain (b.data.length + c.length + 1) b c
    let r' := receive r.1 cs
    (r'.1, r.2 ++ r'.2)

end Verif.Sentinel
