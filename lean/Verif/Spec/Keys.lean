import Verif.Model.Keys

/-!
# The other end of the key exchange

What a client does, from the descriptions of security types 30 (Apple Diffie-Hellman) and 5/129
(RSA-AES) in the RFB protocol.
-/

namespace Verif.Keys

/-- a number in a field of `k` bytes, most significant byte first -/
def fixed (k n : Nat) : Bytes := (List.range k).map fun i => UInt8.ofNat (n / 256 ^ (k - 1 - i))

/-! ## Apple Diffie-Hellman -/

/-- the server's message: generator, key length, modulus and public key -/
def appleParse (m : Bytes) : Option (Nat × Nat × Nat × Nat) :=
  match m with
  | g0 :: g1 :: l0 :: l1 :: rest =>
    if rest.length = 2 * rd16 l0 l1 then
      some (rd16 g0 g1, rd16 l0 l1, beNat (rest.take (rd16 l0 l1)), beNat (rest.drop (rd16 l0 l1)))
    else none
  | _ => none

/-- the client's answer, given its secret number, the field of 64 bytes for the name and the one
for the password, and what the server sent -/
def appleReply (md5 : Bytes → Bytes) (aesEnc : Bytes → Bytes → Bytes) (secret : Nat)
    (user pass : Bytes) (g len p pub : Nat) : Bytes :=
  aesEnc (md5 (fixed len (pub ^ secret % p))) (user ++ pass) ++ fixed len (g ^ secret % p)

/-- a field of 64 bytes that holds a string: the string, NUL and filling -/
def Holds (field s : Bytes) : Prop :=
  field.length = 64 ∧ (0 : UInt8) ∉ s ∧ ∃ fill, field = s ++ 0 :: fill

/-- decryption is the inverse of the client's encryption -/
def AesOk (L : Lib) (aesEnc : Bytes → Bytes → Bytes) : Prop :=
  ∀ k x, x.length = 128 → (aesEnc k x).length = 128 ∧ L.aesEcb k (aesEnc k x) = x

/-! ## RSA-AES -/

/-- a public key message: length in bits, modulus and exponent -/
def keyMsg (bits n e : Nat) : Bytes :=
  be32 bits ++ fixed ((bits + 7) / 8) n ++ fixed ((bits + 7) / 8) e

/-- a key the protocol can carry: an odd modulus of exactly `w` bytes, at least the 12 that Nettle
wants, and an exponent below it -/
structure KeyOk (n e w : Nat) : Prop where
  odd : n % 2 = 1
  le : 256 ^ (w - 1) ≤ n
  lt : n < 256 ^ w
  exp : e < n
  wide : 12 ≤ w

/-- the number in a challenge message -/
def challengeNumber (m : Bytes) : Option Nat :=
  match m with
  | l0 :: l1 :: rest => if rest.length = rd16 l0 l1 then some (beNat rest) else none
  | _ => none

/-- the client's reading of the server's challenge with its private key -/
def readChallenge (dec : Nat → Option Bytes) (m : Bytes) : Option Bytes :=
  (challengeNumber m).bind dec

/-- RSA encryption with a key prepared by Nettle: the result is below the modulus, and there is one
exactly if the message fits with the padding -/
structure RsaOk (L : Lib) : Prop where
  lt : ∀ k m c, k.size = rsaSize k.n → L.rsaEnc k m = some c → c < k.n
  fits : ∀ k m, k.size = rsaSize k.n → (L.rsaEnc k m).isSome = decide (m.length + 11 ≤ k.size)

/-- the private key belonging to a public key -/
def Decrypts (L : Lib) (k : PubKey) (dec : Nat → Option Bytes) : Prop :=
  ∀ m c, L.rsaEnc k m = some c → dec c = some m

end Verif.Keys
