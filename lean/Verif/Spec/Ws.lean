import Verif.Basic

/-! # RFC 6455 section 5.2 as a byte-at-a-time decoder

Written from the RFC, without reference to the model.  An unmasked frame is given the key
`0 0 0 0`. -/

namespace Verif.Ws

inductive Dec where
  /-- bytes of an incomplete header -/
  | hdr (acc : Bytes)
  /-- inside a payload: key, offset, bytes to come (at least one) -/
  | pay (key : Bytes) (i rem : Nat)
  /-- a frame that is not a non-empty piece of a binary message was met -/
  | outside
  deriving DecidableEq, Repr

structure DecState where
  st : Dec := .hdr []
  /-- a binary message has been started -/
  started : Bool := false
  deriving DecidableEq, Repr

/-- the number of extended length bytes announced by the second header byte -/
def extLen (b1 : UInt8) : Nat := if b1.toNat % 128 = 126 then 2 else if b1.toNat % 128 = 127 then 8 else 0

/-- the header size announced by the second header byte -/
def headerSize (b1 : UInt8) : Nat := 2 + extLen b1 + (if b1.toNat ≥ 128 then 4 else 0)

/-- payload length of a complete header -/
def payloadLen (acc : Bytes) : Nat :=
  match acc with
  | _ :: b1 :: rest => if extLen b1 = 0 then b1.toNat % 128 else beNat (rest.take (extLen b1))
  | _ => 0

/-- masking key of a complete header -/
def maskKey (acc : Bytes) : Bytes :=
  match acc with
  | _ :: b1 :: rest => if b1.toNat ≥ 128 then rest.drop (extLen b1) else [0, 0, 0, 0]
  | _ => []

def opcodeOf (acc : Bytes) : Nat :=
  match acc with
  | b0 :: _ => b0.toNat % 16
  | _ => 0

def complete (acc : Bytes) : Bool :=
  match acc with
  | _ :: b1 :: _ => acc.length == headerSize b1
  | _ => false

/-- one byte -/
def decStep (d : DecState) (b : UInt8) : DecState × Bytes :=
  match d.st with
  | .outside => (d, [])
  | .hdr acc =>
    let acc := acc ++ [b]
    if complete acc then
      if payloadLen acc = 0 then ({ d with st := .outside }, [])
      else if opcodeOf acc = 2 then ({ st := .pay (maskKey acc) 0 (payloadLen acc), started := true }, [])
      else if opcodeOf acc = 0 ∧ d.started then ({ d with st := .pay (maskKey acc) 0 (payloadLen acc) }, [])
      else ({ d with st := .outside }, [])
    else ({ d with st := .hdr acc }, [])
  | .pay key i rem =>
    ({ d with st := if rem = 1 then .hdr [] else .pay key (i + 1) (rem - 1) }, [b ^^^ (key[i % 4]?).getD 0])

def decRun : DecState → Bytes → DecState × Bytes
  | d, [] => (d, [])
  | d, b :: bs => ((decRun (decStep d b).1 bs).1, (decStep d b).2 ++ (decRun (decStep d b).1 bs).2)

/-- cut points at which the code keeps track correctly: fewer than two bytes of a header, or a
payload offset that is a multiple of four or whose key does not depend on the offset -/
def Fine : Dec → Prop
  | .hdr acc => acc.length < 2
  | .pay key i _ => i % 4 = 0 ∨ ∃ k, key = [k, k, k, k]
  | .outside => False

/-- every segment boundary is a fine cut point -/
def FineCuts : DecState → List Bytes → Prop
  | _, [] => True
  | d, b :: bs => Fine (decRun d b).1.st ∧ FineCuts (decRun d b).1 bs

end Verif.Ws
