import Verif.Bridge.Model
import Verif.Net.Spec
import Verif.Msg.Lemmas

/-!
Specification vocabulary for bridges.
-/

namespace Verif.Bridge

open Verif Verif.Msg Verif.Net

/-- Addresses that the configuration admits as aliases: no empty name and no empty or delimited alias. -/
def Cfg.AliasesOk (c : Cfg) : Prop := ∀ p ∈ c.aliases, p.1 ≠ [] ∧ p.2 ≠ [] ∧ '$' ∉ p.2

/-- The address after renaming. -/
def renamed (c : Cfg) (address : Str) : Str :=
  match c.aliases.find? (fun p => p.1 == address) with
  | some p => p.2
  | none => address

/-- What a TCP bridge has to publish on the inside for a message from the outside. -/
def inside (c : Cfg) (f : Fields) : Option Fields :=
  if f.address ∈ c.nonImport then none
  else if c.selfGenerated then
    some { f with address := renamed c f.address, group := "TcpBridge".toList, entityId := c.entity,
                  serviceId := c.network }
  else some { f with address := renamed c f.address }

/-- The stream of bytes sent by the other side. -/
def stream (fs : List Fields) : Str := (fs.map fun f => Sentinel.frame f.msg.str).flatten

/-- The addresses advertised by a peer since it last exited; peers that give the own entity number are
ignored. -/
def advertised (own : Nat) (u : Str) (h : List ZIn) : List Str :=
  h.foldl (fun acc i => match i with
    | .enter u' hd => if u' = u ∧ hd.entityId ≠ decimal own then acc ++ tokensOf ';' hd.subscriptions else acc
    | .exit u' => if u' = u then [] else acc
    | .publish _ => acc) []

/-- All peers have an entity number below 2^31 in their headers, in decimal. -/
def Numbered (h : List ZIn) : Prop :=
  ∀ u hd, .enter u hd ∈ h → ∃ n, n < 2147483648 ∧ hd.entityId = decimal n

/-- The client with this routing id is connected: an odd number of packets without data has arrived. -/
def connected (ps : List Packet) (r : Str) : Bool :=
  (ps.filter fun p => p.data.isEmpty && p.route == r).length % 2 == 1

end Verif.Bridge
