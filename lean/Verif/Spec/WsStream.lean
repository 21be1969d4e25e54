import Verif.Model.WsStream
import Verif.Spec.Tcp

/-! # What a WebSocket client sees

Frames as RFC 6455, section 5.2 has them, and a client's reader. -/

namespace Verif.WsStream

/-- the length field of an unmasked frame -/
def lenField (n : Nat) : Bytes :=
  if n < 126 then [UInt8.ofNat n] else if n < 65536 then 126 :: be16 n else 127 :: be64 n

/-- a final, unmasked frame -/
def frame (op : Nat) (p : Bytes) : Bytes := UInt8.ofNat (128 + op) :: (lenField p.length ++ p)

/-- a client's reader of one frame: the opcode, the payload and what follows; `none` if there is no whole
frame that is final and not masked -/
def readFrame : Bytes → Option ((Nat × Bytes) × Bytes)
  | b0 :: b1 :: rest =>
    if b0.toNat < 128 ∨ 128 ≤ b1.toNat then none
    else
      let ext := if b1.toNat = 126 then 2 else if b1.toNat = 127 then 8 else 0
      let len := if ext = 0 then b1.toNat else beNat (rest.take ext)
      if rest.length < ext + len then none
      else some ((b0.toNat % 16, (rest.drop ext).take len), rest.drop (ext + len))
  | _ => none

/-- a client's reader: all whole frames.  Each takes at least two bytes, so `w.length` is enough for `fuel`. -/
def readAll : Nat → Bytes → List (Nat × Bytes)
  | 0, _ => []
  | fuel + 1, w =>
    match readFrame w with
    | some (f, rest) => f :: readAll fuel rest
    | none => []

def received (w : Bytes) : List (Nat × Bytes) := readAll w.length w

/-- the bytes of frames -/
def bytesOf (ms : List (Nat × Bytes)) : Bytes := ms.flatMap fun m => frame m.1 m.2

/-- the binary messages among the frames -/
def messages (fs : List (Nat × Bytes)) : List (Nat × Bytes) := fs.filter fun f => decide (f.1 = 2)

/-- A read answers no ping, or one that arrived as a whole: the answer announces the bytes that follow. -/
def WholePong : List Bytes → Prop
  | [] => True
  | [h, p] => h = [138, UInt8.ofNat p.length] ∧ p.length < 126
  | _ => False

/-- what the user of the stream hands to it: a message, or a function that makes one when it is sent -/
inductive Frame where
  | msg (d : Bytes)
  | late (f : Nat → Bytes)
  | pong (d : Bytes)

/-- opcode and payload that may be seen of it -/
def Frame.Seen : Frame → Nat × Bytes → Prop
  | .msg d, m => m = (2, d)
  | .late f, m => ∃ t, m = (2, f t)
  | .pong d, m => m = (10, d)

/-- each of these frames is seen as one of those -/
inductive AllSeen : List Frame → List (Nat × Bytes) → Prop
  | nil : AllSeen [] []
  | cons {f m fs ms} : f.Seen m → AllSeen fs ms → AllSeen (f :: fs) (m :: ms)

/-- not the answer to a ping -/
def Frame.user : Frame → Bool
  | .pong _ => false
  | _ => true

/-- what an operation of the user hands to the stream -/
def Op.frame : Op → List Frame
  | .send d .. => [.msg d]
  | .exec f _ => [.late f]
  | _ => []

/-- no callback does anything -/
def Op.Quiet : Op → Prop
  | .send _ cb _ _ => cb = .stop
  | _ => True

/-- `x` contains a whole header line with this name and this value -/
def HeaderLine (x k v : Bytes) : Prop := ∃ b : Bytes, (∀ c ∈ b, c = 32 ∨ c = 9) ∧ (13 : UInt8) ∉ v ∧
  k ++ Http.lit ":" ++ b ++ v ++ Http.lit "\r\n" <:+: x

/-- A piece of a request in which the key is still missing.  There are not too many colons (C32), and the
fields that list protocols and versions contain no white space (C33). -/
def Pending (x : Bytes) : Prop := x.count 58 ≤ 32 ∧ ∀ k v, HeaderLine x k v →
  Http.caseEq k (Http.lit "Sec-WebSocket-Key") = false ∧
  ((Http.caseEq k (Http.lit "Sec-WebSocket-Protocol") || Http.caseEq k (Http.lit "Sec-WebSocket-Version")) = true →
    ∀ c ∈ v, Http.isSpace c = false)

end Verif.WsStream
