import Verif.Common

/-! Specification vocabulary for the message classes, independent of the model. -/

namespace Verif.Msg

open Verif

/-- Tokens joined by a delimiter. -/
def join (d : Char) : List Str → Str
  | [] => []
  | [t] => t
  | t :: ts => t ++ d :: join d ts

/-- `ts` is the way of cutting `s` at every occurrence of `d`. -/
def IsSplit (d : Char) (s : Str) (ts : List Str) : Prop :=
  ts ≠ [] ∧ (∀ t ∈ ts, d ∉ t) ∧ join d ts = s

/-- The wire grammar
`address $ contentType | descriptor | group | entityId | serviceId $ payload`,
without any claim about the address being non-empty. -/
structure WireForm (s address ct ds gr ei si payload : Str) : Prop where
  eq : s = address ++ ['$'] ++ ct ++ ['|'] ++ ds ++ ['|'] ++ gr ++ ['|'] ++ ei ++ ['|'] ++ si
        ++ ['$'] ++ payload
  address_clean : '$' ∉ address
  ct_clean : '$' ∉ ct ∧ '|' ∉ ct
  ds_clean : '$' ∉ ds ∧ '|' ∉ ds
  gr_clean : '$' ∉ gr ∧ '|' ∉ gr
  ei_clean : '$' ∉ ei ∧ '|' ∉ ei
  si_clean : '$' ∉ si ∧ '|' ∉ si
  ct_ne : ct ≠ []
  ds_ne : ds ≠ []
  ei_ne : ei ≠ []
  si_ne : si ≠ []
  payload_ne : payload ≠ []

end Verif.Msg
