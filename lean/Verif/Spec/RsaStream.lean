import Verif.Model.RsaStream
import Verif.Spec.Raw

/-!
# The RSA-AES message layer

As in the rfbproto document: messages are numbered from 0, in each direction; each is its length in two bytes, the
encrypted text, and the code; the nonce is the number of the message, 16 bytes in little-endian order; and the length is
the associated data.
-/

namespace Verif.RsaStream
open Verif.Enc

/-- the number of a message as 16 bytes, least first -/
def nonce (i : Nat) : Bytes := (List.range 16).map fun j => UInt8.ofNat (i / 256 ^ j)

/-- a message -/
def frame (k : Eax) (i : Nat) (text : Bytes) : Bytes :=
  be16 text.length ++ k.ctr (nonce i) text ++ k.tag (nonce i) (be16 text.length) (k.ctr (nonce i) text)

/-- messages from number `i` on -/
def frames (k : Eax) : Nat → List Bytes → Bytes
  | _, [] => []
  | i, t :: ts => frame k i t ++ frames k (i + 1) ts

/-- a peer reads one message -/
def peerRead (k : Eax) (i : Nat) : Bytes → Option (Bytes × Bytes)
  | a :: b :: l =>
    if l.length < rd16 a b + 16 then none
    else if (l.drop (rd16 a b)).take 16 = k.tag (nonce i) [a, b] (l.take (rd16 a b)) then
      some (k.ctr (nonce i) (l.take (rd16 a b)), l.drop (rd16 a b + 16))
    else none
  | _ => none

/-- a peer reads `n` messages -/
def peer (k : Eax) : Nat → Nat → Bytes → Option (Bytes × Bytes)
  | 0, _, l => some ([], l)
  | n + 1, i, l => do
    let (t, l) ← peerRead k i l
    let (t', l) ← peer k n (i + 1) l
    some (t ++ t', l)

end Verif.RsaStream
