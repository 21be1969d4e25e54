import Verif.Spec.Wire

/-!
# What a client hears from the first byte on

RFC 6143 section 7.1 and, for the security types that are not in it, the community's rfbproto document.  A
client knows which security type it chose.
-/

namespace Verif.Wire

open Verif.Server (Eff Kind)

/-- the server's version -/
def readVersion (b : Bytes) : Option Bytes :=
  match takeN 12 b with
  | some (v, r) => if v = [82, 70, 66, 32, 48, 48, 51, 46, 48, 48, 56, 10] then some r else none    -- "RFB 003.008\n"
  | none => none

/-- the security types; none of them would mean that the server refuses -/
def readTypes : Bytes → Option (Bytes × Bytes)
  | [] => none
  | n :: b => if n = 0 then none else takeN n.toNat b

/-- SecurityResult: OK -/
def readResult : Bytes → Option Bytes
  | 0 :: 0 :: 0 :: 0 :: r => some r
  | _ => none

/-- what remains after `n` bytes -/
def skip (n : Nat) (b : Bytes) : Option Bytes := (takeN n b).map (·.2)

/-- VeNCrypt: version 0.2, accepted, the subtypes, accepted -/
def readVencrypt : Bytes → Option Bytes
  | 0 :: 2 :: 0 :: n :: r =>
    match skip (4 * n.toNat) r with
    | some (1 :: r) => some r
    | _ => none
  | _ => none

/-- Apple's Diffie-Hellman: generator, length of a key, prime, public key -/
def readApple (b : Bytes) : Option Bytes :=
  match takeN 4 b with
  | some (hd, r) => skip (2 * beNat (hd.drop 2)) r
  | none => none

/-- the public key of RSA-AES: its length in bits, modulus, exponent -/
def readRsaKey (b : Bytes) : Option Bytes :=
  match takeN 4 b with
  | some (n, r) => skip (2 * ((beNat n + 7) / 8)) r
  | none => none

/-- the encrypted random number of RSA-AES with its length -/
def readRandom (b : Bytes) : Option Bytes :=
  match takeN 2 b with
  | some (n, r) => skip (beNat n) r
  | none => none

/-- RSA-AES: public key, random number, hash, subtype -/
def readRsa (hash : Nat) (b : Bytes) : Option Bytes :=
  match readRsaKey b with
  | none => none
  | some b => match readRandom b with
    | none => none
    | some b => match skip hash b with
      | none => none
      | some b => skip 1 b

/-- what belongs to the security type that was chosen -/
def readSecurity (t : UInt8) (b : Bytes) : Option Bytes :=
  if t = 1 then some b                    -- None
  else if t = 19 then readVencrypt b
  else if t = 30 then readApple b
  else if t = 5 then readRsa 20 b         -- RSA-AES: SHA-1
  else if t = 129 then readRsa 32 b       -- RSA-AES-256: SHA-256
  else none

/-- what a client has heard -/
inductive Heard where
  | version
  | types (ts : Bytes)
  | login
  | init (i : InitMsg)
  | msg (m : SMsg)
  deriving Repr, DecidableEq

/-- the messages that are there in full; the number bounds how many -/
def hearMsgs (z : Sizes) : Nat → Bytes → List Heard
  | 0, _ => []
  | n + 1, b =>
    match readMsg z b with
    | none => []
    | some (m, r) => .msg m :: hearMsgs z n r

/-- All that a client which chose security type `t` can make of these bytes.  What is not there in full is left
for later. -/
def hear (z : Sizes) (t : UInt8) (b : Bytes) : List Heard :=
  match readVersion b with
  | none => []
  | some b => .version :: match readTypes b with
    | none => []
    | some (ts, b) => .types ts :: match (readSecurity t b).bind readResult with
      | none => []
      | some b => .login :: match readInit b with
        | none => []
        | some (i, b) => .init i :: hearMsgs z b.length b

/-- what was sent before ServerInit -/
def pre : List Eff → List (Kind × Bytes)
  | [] => []
  | .send _ .serverInit _ :: _ => []
  | .send _ k b :: l => (k, b) :: pre l
  | _ :: l => pre l

/-- What the reader relies on besides `Readable`: keys and random numbers of the crypto libraries have
the lengths that they say (the random number is encrypted with a key of the client's, which may be unusable),
and the application gives the clipboard to nobody whose session has not begun. -/
structure Polite (l : List Eff) : Prop where
  apple : ∀ b, (.appleKey, b) ∈ pre l → readApple b = some []
  rsaKey : ∀ b, (.rsaKey, b) ∈ pre l → readRsaKey b = some []
  random : ∀ b, (.rsaChallenge, b) ∈ pre l → readRandom b = some []
  early : ∀ x ∈ pre l, x.1.handshake = true

end Verif.Wire
