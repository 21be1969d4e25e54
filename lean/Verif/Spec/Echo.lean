import Verif.Model.Server

/-!
# What a client that sends fences goes by

Written from the description of the Fence messages: a request is answered with its payload and with those of its
flags that the server supports, without the request bit.
-/

namespace Verif.Echo

open Verif.Server

/-- the answer to a request: the three flags BlockBefore, BlockAfter and SyncNext may be set -/
def answerTo (flags : Nat) (payload : Bytes) : Bytes :=
  [248, 0, 0, 0] ++ be32 (flags % 8) ++ [UInt8.ofNat payload.length] ++ payload

/-- is the fence `b` a request (the server's own) rather than an answer? -/
def isRequest (b : Bytes) : Bool := decide (128 ≤ (b.getD 4 0).toNat)

/-- the answer the client waits for after this -/
def owed : Eff → Option Bytes
  | .fenceReq flags payload => some (answerTo flags payload)
  | _ => none

/-- the answer the client is given -/
def given : Eff → Option Bytes
  | .send _ .fence b => if isRequest b then none else some b
  | _ => none

/-- the answers that the requests taken from the client ask for, in order -/
def asked (l : List Eff) : List Bytes := l.filterMap owed

/-- the answers sent, in order -/
def answered (l : List Eff) : List Bytes := l.filterMap given

/-- the client waits for the answer to each request before it makes the next one: when the server takes a request,
all earlier ones have been answered -/
def Patient (l : List Eff) : Prop :=
  ∀ p e q, l = p ++ e :: q → owed e ≠ none → (answered p).length = (asked p).length

end Verif.Echo
