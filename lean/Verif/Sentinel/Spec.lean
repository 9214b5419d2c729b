import Verif.Sentinel.Model

/-! Specification vocabulary for the framing properties. -/

namespace Verif.Sentinel

open Verif

/-- Payloads that survive the framing: non-empty, without the terminator
`?^?^?^?^` and the marker `#@#@#@#@`, not starting with `#@`, and with size and
byte sum in the range of a C++ `int`. -/
structure Framable (p : Str) : Prop where
  ne : p ≠ []
  noTerminator : ¬ AC <:+: p
  noMarker : ¬ APS <:+: p
  noHead : ¬ ['#', '@'] <+: p
  size : p.length < 2147483648
  sum : checksum p < 2147483648

/-- `sz` and `ck` are digit strings that state the size and byte sum of `p`. -/
structure Checked (sz p ck : Str) : Prop where
  szDigits : ∀ c ∈ sz, c.isDigit = true
  ckDigits : ∀ c ∈ ck, c.isDigit = true
  size : decimalValue sz = p.length % 4294967296
  sum : decimalValue ck = (p.map Char.toNat).sum % 4294967296

/-- `Explains s ps r`: the byte stream `s` can be read as skipped bytes and checked
frames carrying exactly the payloads `ps` in order, followed by the unread `r`. -/
inductive Explains : Str → List Str → Str → Prop where
  | done (s : Str) : Explains s [] s
  | skip (g s : Str) (ps : List Str) (r : Str) : Explains s ps r → Explains (g ++ s) ps r
  | deliver (sz p ck s : Str) (ps : List Str) (r : Str) : Checked sz p ck → Explains s ps r →
      Explains ("+=+=+=+=".toList ++ sz ++ "#@#@#@#@".toList ++ p ++ "!%!%!%!%".toList ++ ck
        ++ "?^?^?^?^".toList ++ s) (p :: ps) r

/-- The state and result of the `k`-th (counted from 0) call of a caller that
hands in `chunk` first and then empty chunks, whatever the results. -/
def nthCall (b : Buf) (chunk : Str) : Nat → Buf × Outcome Str
  | 0 => next b chunk
  | k + 1 => nthCall (next b chunk).1 [] k

end Verif.Sentinel
