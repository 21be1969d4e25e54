import Verif.Spec.Server

/-!
# Clients that do what the protocol asks of them

What such a client sends, and what may happen around it.
-/

namespace Verif.System

open Verif.Server

/-- a ClientInit message that asks for exclusive access -/
def isExcl : Eff → Bool
  | .msg .init _ [0] _ => true
  | _ => false

/-- how often client `i` asked for exclusive access -/
def exclAsked (s : Sys) (i : Nat) : Nat := (s.peers[i]?.map fun p => p.log.countP isExcl).getD 0

/-- what is displayed can be described to a client -/
def Shows (fb : Option Fb) : Prop := ∃ b f, fb = some b ∧ b.fmt = some f

/-- Everything that may happen while client `i` introduces itself: all that other clients and the
application do, as long as the application does not close the client, does not take the display away and
does not ask for authentication without a way to authenticate. -/
def Bystander (i : Nat) : SysOp → Prop
  | .client j o _ _ => j ≠ i ∨ match o with
    | .readable _ | .appClose => False
    | _ => True
  | .display fb => Shows fb
  | .enableAuth a _ f => a = true → f = true
  | _ => True

/-- In these operations client `i` sends the message `m`: it arrives in pieces, in order, when the
environment is as in `P`, and others do other things meanwhile.  The last operation is the last piece. -/
inductive Says (i : Nat) (P : Env → Prop) : Bytes → List SysOp → Prop
  | last {b env} (net) : b ≠ [] → P env → Says i P b [.client i (.readable (.data b)) env net]
  | more {b m env ops} (net) : b ≠ [] → P env → Says i P m ops →
      Says i P (b ++ m) (.client i (.readable (.data b)) env net :: ops)
  | other {m o ops} : Bystander i o → Says i P m ops → Says i P m (o :: ops)

/-- client `i` sends these messages one after another -/
inductive Talks (i : Nat) (P : Env → Prop) : List Bytes → List SysOp → Prop
  | nil : Talks i P [] []
  | cons {m ms ops ops'} : Says i P m ops → Talks i P ms ops' → Talks i P (m :: ms) (ops ++ ops')

/-- Something done by others went wrong: the server had undefined behaviour or aborted on it, or another
client asked for exclusive access, which ends all other connections. -/
def Spoiled (table : List Nat) (i : Nat) (ops : List SysOp) (s : Sys) : Prop :=
  ∃ pre o post t, ops = pre ++ o :: post ∧ Bystander i o ∧ sysRun table pre s = .ok t ∧
    ∀ t', sysStep table o t = .ok t' → ∃ j, j ≠ i ∧ exclAsked t j < exclAsked t' j

/-- what a client and the application see of the handshake: the messages of the handshake, the change of
the channel, the credentials shown to the application, and the start of the session -/
def handshakeOf (l : List Eff) : List Eff :=
  l.filter fun e => match e with
    | .send _ k _ => k.handshake || k == .serverInit
    | .upgrade _ | .auth .. | .newClient | .disconnectOthers => true
    | _ => false

/-! ## The messages of the handshake -/

/-- the list of security types as it is sent -/
def typesMsg (l : List Nat) : Bytes := UInt8.ofNat l.length :: l.map UInt8.ofNat

/-- the number of the RSA-AES security type with hashes of 32 (`long`) or 20 bytes -/
def rsaType (long : Bool) : Nat := if long then 129 else 5

/-- the message a client gets when the application does not approve -/
def refusal : Bytes :=
  be32 1 ++ be32 28 ++ "Invalid username or password".toUTF8.toList

/-- the credentials in VeNCrypt's Plain subtype -/
def plainMsg (u p : Bytes) : Bytes := be32 u.length ++ be32 p.length ++ u ++ p

/-- the public key of a client: the size in bits, the modulus and the exponent -/
def rsaKeyMsg (bits : Nat) (n e : Bytes) : Bytes := be32 bits ++ n ++ e

/-- the encrypted challenge of a client -/
def rsaChallengeMsg (c : Bytes) : Bytes := be16 c.length ++ c

/-- hashes have 32 or 20 bytes -/
def hashLen (long : Bool) : Nat := if long then 32 else 20

/-- the credentials in RSA-AES -/
def rsaCredsMsg (u p : Bytes) : Bytes := UInt8.ofNat u.length :: (u ++ UInt8.ofNat p.length :: p)

/-- the format a client is told for 24 bit formats -/
def toldFmt (f : PixFmt) : PixFmt := if f.bpp = 24 then { f with bpp := 32 } else f

/-- The ways to introduce oneself, with all that goes over the wire: Apple's, where `pt` is what the
credentials decrypt to, and RSA-AES (with hashes of 32 bytes if `long`) with a public key, the
challenges for the client (`c`) and for the server (`c'`), and the hashes of the server (`h`) and of the
client (`h'`).  `key` is the server's public key. -/
inductive Method where
  | none
  | vencrypt (user pass : Bytes)
  | apple (user pass key enc pub : Bytes)
  | rsa (long : Bool) (user pass key : Bytes) (bits : Nat) (n e c c' h h' : Bytes)

/-- the security type -/
def Method.type : Method → Nat
  | .none => 1
  | .vencrypt .. => 19
  | .apple .. => 30
  | .rsa long .. => rsaType long

/-- what the client sends after its version, up to the credentials -/
def Method.msgs : Method → List Bytes
  | .none => [[1]]
  | .vencrypt u p => [[19], [0, 2], [0, 0, 1, 6], plainMsg u p]
  | .apple _ _ _ enc pub => [[30], enc ++ pub]
  | .rsa long u p _ bits n e _ c' h h' =>
    [[UInt8.ofNat (rsaType long)], rsaKeyMsg bits n e, rsaChallengeMsg c', h', rsaCredsMsg u p]

/-- what is being said is well formed: user names and passwords without zero bytes and of a length that
the server has room for, keys and hashes of the right length -/
def Method.Fit : Method → Prop
  | .none => True
  | .vencrypt u p => 0 ∉ u ∧ 0 ∉ p ∧ u.length ≤ 255 ∧ p.length ≤ 255
  | .apple u p _ enc pub => 0 ∉ u ∧ 0 ∉ p ∧ u.length ≤ 63 ∧ p.length ≤ 63 ∧ enc.length = 128 ∧ pub.length = 256
  | .rsa long u p _ bits n e _ c' h h' => 0 ∉ u ∧ 0 ∉ p ∧ u.length ≤ 255 ∧ p.length ≤ 255 ∧
    n.length = (bits + 7) / 8 ∧ e.length = (bits + 7) / 8 ∧ n.length ≤ 1022 ∧ c'.length ≤ 4094 ∧
    h.length = hashLen long ∧ h'.length = hashLen long

/-- the cryptography works: what the client encrypted for the server is decrypted to what it meant, the
hashes are those the other side expects, TLS can be started -/
def Method.Works : Method → Env → Prop
  | .none, _ => True
  | .vencrypt .., env => env.tlsOk = true
  | .apple u p key enc pub, env => env.appleKey = key ∧ ∃ fill fill', (u ++ 0 :: fill).length = 64 ∧
    env.appleDecrypt pub enc = u ++ 0 :: fill ++ (p ++ 0 :: fill')
  | .rsa long _ _ key _ n e c c' h h', env => env.rsaKey = key ∧ env.rsaKeySize n e ≤ 1022 ∧
    env.rsaChallenge n e = some c ∧ (∃ rnd, env.rsaDecrypt c' = some rnd ∧
      (env.serverHash rnd).take (hashLen long) = h) ∧ env.clientHash.take (hashLen long) = h'

/-- the credentials the client shows -/
def Method.creds : Method → Option (Bytes × Bytes)
  | .none => .none
  | .vencrypt u p => some (u, p)
  | .apple u p .. => some (u, p)
  | .rsa _ u p .. => some (u, p)

/-- the channel on which the session takes place -/
def Method.chan : Method → Chan
  | .none => .plain
  | .vencrypt .. => .tls
  | .apple .. => .plain
  | .rsa .. => .rsa

/-- what a client sees of the handshake up to its credentials -/
def Method.answers : Method → List Eff
  | .none => []
  | .vencrypt .. => [.send .plain .veVersion [0, 2], .send .plain .veAck [0],
    .send .plain .veSubtypes [1, 0, 0, 1, 6], .send .plain .veAck [1], .upgrade .tls]
  | .apple _ _ key .. => [.send .plain .appleKey key]
  | .rsa _ _ _ key _ _ _ c _ h _ => [.send .plain .rsaKey key, .send .plain .rsaChallenge (be16 c.length ++ c),
    .upgrade .rsa, .send .rsa .rsaHash h, .send .rsa .rsaSubtype [1]]

/-- what the application thinks of the credentials -/
def Method.judged (m : Method) (ok : Bool) (env : Env) : Prop :=
  ∀ u p, m.creds = some (u, p) → env.authFn u p = ok

/-- the callback by which the application learns about the credentials -/
def Method.asked (m : Method) (ok : Bool) : List Eff :=
  match m.creds with
  | .none => []
  | some (u, p) => [.auth u p ok]

end Verif.System
