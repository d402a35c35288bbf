import Verif.Model.Server

/-!
# What a metrics line should say about a connection

In terms of what the client sent and received.
-/

namespace GJ.Spec

/-- The context in the header of a request, if the client got that far. -/
def contextSent : List Tok → Option String
  | .u16 3 :: .str ctx :: _ => some ctx
  | _ => none

/-- The request type in the header, if the client got that far. -/
def typeSent : List Tok → Option Nat
  | .u16 3 :: .str _ :: .u16 t :: _ => some t
  | _ => none

/-- The names of the five kinds of request. -/
def actionName : Nat → Option String
  | 0 => some "extract"
  | 1 => some "axes"
  | 2 => some "scan"
  | 3 => some "forwarded-extract"
  | 4 => some "forwarded-scan"
  | _ => none

/-- How large a request is: the number of fields, requests or offsets asked for. -/
def sizeAsked : ServerReq → Option (String × Nat)
  | .extract rs => some ("count_extraction_requests", rs.length)
  | .axes _ _ => none
  | .scan rs _ => some ("count_scan_requests", rs.length)
  | .forwardExtract fm => some ("count_extraction_requests", (fm.map fun f => f.2.length).sum)
  | .forwardScan sm => some ("count_received_offsets", (sm.map fun f => f.2.length).sum)

/-- The client was sent an exception. -/
def SentException (reply : List Tok) : Prop := ∃ w, Tok.exc w ∈ reply

/-- What a client has that stays for `room` items of the reply; `none`: it stays to the end. -/
def takenBy (room : Option Nat) (reply : List Tok) : List Tok :=
  match room with
  | none => reply
  | some k => reply.take k

/-- The client went away before the end of the reply. -/
def LeftEarly (room : Option Nat) (reply : List Tok) : Prop := ∃ k, room = some k ∧ k < reply.length

end GJ.Spec
