import Verif.Model.Tls
import Verif.Spec.Tcp

/-! # Specification vocabulary for the TLS stream -/

namespace Verif.Tls

/-- all that was handed to the stream, one after the other -/
def State.submitted (s : State) : Bytes := (s.accepted.map fun e => e.2.1).flatten

/-- what waits in the queue -/
def State.waiting (s : State) : Bytes := (s.queue.map Req.data).flatten

/-- the application data in what arrived -/
def dataOf : List In → Bytes
  | [] => []
  | .record b :: l => b ++ dataOf l
  | _ :: l => dataOf l

/-- nothing was handed to the stream before the handshake was over -/
def State.Late (s : State) : Prop := ∀ e ∈ s.accepted, e.2.2 = .ready

/-- the owner does not close the stream itself, no callback does, and neither a send nor the handshake
fails for good -/
def Op.Fair : Op → Prop
  | .arrive _ => True
  | .event _ _ hr hw _ as => hr ≠ .fatal ∧ hw ≠ .fatal ∧ .fatal ∉ as
  | .poke _ => True
  | .send _ cb as => cb.NoClose ∧ .fatal ∉ as
  | .close => False

/-- every record fits into `n` bytes and every read has room for `n` bytes -/
def Op.Fits (n : Nat) : Op → Prop
  | .arrive (.record b) => b.length ≤ n
  | .event _ _ _ _ space _ => n ≤ space
  | .poke space => n ≤ space
  | _ => True

/-- the owner reads only when told to and always has room; the event loop never reports the socket
readable and writable at once -/
def Op.Plain : Op → Prop
  | .event r w _ _ space _ => ¬ (r = true ∧ w = true) ∧ 0 < space
  | .poke _ => False
  | _ => True

/-- the owner does not ask for data of its own accord -/
def Op.NoPoke : Op → Prop
  | .poke _ => False
  | _ => True

end Verif.Tls
