import Verif.Model.Tcp

/-! # Specification vocabulary for the send queue -/

namespace Verif.Tcp

/-- `p` is a byte string that submission `src` may legitimately put on the wire -/
def Poss : Src → Bytes → Prop
  | .data b, p => p = b
  | .exec f, p => ∃ t, p = f t

/-- the submissions and the byte strings correspond one to one -/
def PossAll : List (Nat × Src) → List Bytes → Prop
  | [], [] => True
  | a :: as, p :: ps => Poss a.2 p ∧ PossAll as ps
  | _, _ => False

/-- no callback in this tree closes the stream -/
def Reaction.NoClose : Reaction → Prop
  | .stop => True
  | .close _ => False
  | .send _ cb k => cb.NoClose ∧ k.NoClose

def Op.NoCloseCb : Op → Prop
  | .send _ cb => cb.NoClose
  | _ => True

def Op.NoExec : Op → Prop
  | .exec _ => False
  | _ => True

/-- what a queued request would contribute if it were sent at time `t` -/
def Req.bytesAt (t : Nat) (r : Req) : Bytes :=
  match r.body with
  | .data b => b
  | .exec f _ => f t

/-- the callbacks passed in by this operation do nothing -/
def Op.Quiet : Op → Prop
  | .send _ cb => cb = .stop
  | _ => True

/-- what an operation hands to the stream -/
def Op.submission : Op → Option Src
  | .send d _ => some (.data d)
  | .exec f => some (.exec f)
  | _ => none

/-- the bytes of a data submission -/
def Src.bytes : Src → Bytes
  | .data b => b
  | .exec _ => []

/-- what stands in the queue when an operation writes: what stood there, and what it brings itself -/
def Op.offers (now : Nat) (s : State) : Op → List Bytes
  | .send d _ => s.queue.map (Req.bytesAt now) ++ [d]
  | .exec f => s.queue.map (Req.bytesAt now) ++ [f now]
  | _ => s.queue.map (Req.bytesAt now)

/-- The kernel fails, or takes exactly the first `j` of several messages.  At most 1024 are offered at once. -/
def Strands (offers : List Bytes) (k : Kernel) : Prop :=
  k = .error ∨ ∃ n j, k = .sent n ∧ 0 < j ∧ j < offers.length ∧
    min n (offers.take 1024).flatten.length = (offers.take j).flatten.length

end Verif.Tcp
