import Verif.Basic

/-!
# Key exchange: Apple Diffie-Hellman and RSA-AES

include/crypto/nettle/common.h, src/crypto/nettle/key.c, src/crypto/nettle/rsa.c,
src/crypto/nettle/hash.c (`crypto_hash_many`), src/auth/apple-dh.c and src/auth/rsa-aes.c.

A GMP integer is a `Nat`.  What GMP and Nettle compute is outside: modular powers are written as
such, RSA, AES and the hash functions are parameters (`Lib`).  Allocations succeed (the code
asserts most of them).  `Model.Server` takes the values computed here as given (`Env.appleKey`,
`Env.rsaChallenge`, ...) and models when the handlers run; here are the values themselves.
-/

namespace Verif.Keys

/-! ## Numbers -/

/-- `mpz_sizeinbase(n, 2)`: 1 for zero -/
def sizeInBase2 (n : Nat) : Nat := if n = 0 then 1 else n.log2 + 1

/-- `bytesize` in crypto_export, include/crypto/nettle/common.h 25-26 -/
def byteSize (n : Nat) : Nat := (sizeInBase2 n + 7) / 8

/-- the low `k` bytes of a number, most significant first -/
def digits : Nat → Nat → Bytes
  | 0, _ => []
  | k + 1, n => digits k (n / 256) ++ [UInt8.ofNat n]

/-- crypto_import, include/crypto/nettle/common.h 8-16 -/
def importN (src : Bytes) : Nat := beNat src

/-- crypto_export, include/crypto/nettle/common.h 18-35: the contents of `dst` and the result.
The number stands at the end of the buffer; `mpz_export` writes nothing and stores 0 in
`bytesize` for zero. -/
def exportN (size n : Nat) : Outcome (Bytes × Nat) :=
  if size < byteSize n then .abort "crypto_export: bytesize <= dst_size"
  else .ok (List.replicate (size - byteSize n) 0 ++ digits (byteSize n) n,
    if n = 0 then 0 else byteSize n)

/-- an `assert` -/
def need (b : Bool) (why : String) : Outcome Unit := if b then .ok () else .abort why

/-! ## Outside the model -/

/-- struct crypto_rsa_pub_key, src/crypto/nettle/rsa.c 27-29 (struct rsa_public_key of Nettle) -/
structure PubKey where
  n : Nat
  e : Nat
  size : Nat
  deriving Repr, DecidableEq

/-- Nettle -/
structure Lib where
  md5 : Bytes → Bytes
  aesEcb : Bytes → Bytes → Bytes              -- AES-128-ECB decryption: key, ciphertext
  rsaEnc : PubKey → Bytes → Option Nat        -- rsa_encrypt with the randomness drawn
  rsaDec : Nat → Option Bytes                 -- rsa_decrypt with the server's key
  sha : Bool → Bytes → Bytes                  -- SHA-256 (true) or SHA-1 (false)

/-! ## Diffie-Hellman -/

/-- struct crypto_key, src/crypto/nettle/key.c 27-31 -/
structure Key where
  g : Nat
  p : Nat
  q : Nat
  deriving Repr, DecidableEq

/-- initialise_p, src/crypto/nettle/key.c 77-102: the 2048-bit MODP group of RFC 3526 -/
def modp : Nat :=
  0xFFFFFFFFFFFFFFFFC90FDAA22168C234C4C6628B80DC1CD129024E088A67CC74020BBEA63B139B22514A08798E3404DDEF9519B3CD3A431B302B0A6DF25F14374FE1356D6D51C245E485B576625E7EC6F44C42E9A637ED6B0BFF5CB6F406B7EDEE386BFB5A899FA5AE9F24117C4B1FE649286651ECE45B3DC2007CB8A163BF0598DA48361C55D39A69163FA8FD24CF5F83655D23DCA3AD961C62F356208552BB9ED529077096966D670C354E4ABC9804F1746C08CA18217C32905E462E36CE3BE39E772C180E86039B2783A2EC07A28FB5C55DF06F4C52C9DE2BCBF6955817183995497CEA956AE515D2261898FA051015728E5A8AACAA68FFFFFFFFFFFFFFFF

/-- crypto_keygen, src/crypto/nettle/key.c 111-126; `rand` is what crypto_random delivers -/
def keygen (rand : Bytes) : Key := ⟨2, modp, importN rand⟩

/-- crypto_key_new, src/crypto/nettle/key.c 33-49 -/
def keyNew (g : Nat) (p q : Bytes) : Key := ⟨g, importN p, importN q⟩

/-- `mpz_powm_sec`, which requires a positive exponent (GMP manual, Integer Exponentiation) -/
def powm (b e m : Nat) : Outcome Nat :=
  if e = 0 then .ub "mpz_powm_sec: exponent 0" else .ok (b ^ e % m)

/-- crypto_derive_public_key, src/crypto/nettle/key.c 128-146.  `pub->p` is set without having been
initialised; it is zeroed memory, which GMP accepts in practice (not modelled). -/
def derivePublic (priv : Key) : Outcome Key := do
  let q ← powm priv.g priv.q priv.p
  .ok ⟨priv.g, priv.p, q⟩

/-- crypto_derive_shared_secret, src/crypto/nettle/key.c 148-176; `none` for NULL -/
def deriveShared (own remote : Key) : Outcome (Option Key) :=
  if own.g ≠ remote.g then .ok none
  else if own.p ≠ remote.p then .ok none
  else do
    let q ← powm remote.q own.q own.p
    .ok (some ⟨own.g, own.p, q⟩)

/-- apple_dh_send_public_key, src/auth/apple-dh.c 24-52: what is written -/
def appleSend (rand : Bytes) : Outcome Bytes := do
  let pub ← derivePublic (keygen rand)
  let m ← exportN 256 pub.p
  need (m.2 == 256) "mod_len == sizeof(mod)"
  let q ← exportN 256 pub.q
  need (q.2 == 256) "q_len == sizeof(q)"
  .ok (be16 (keygen rand).g ++ be16 q.2 ++ m.1 ++ q.1)

/-- the C string in a buffer that ends with NUL -/
def cstr (b : Bytes) : Bytes := b.takeWhile (· ≠ 0)

/-- apple_dh_handle_response, src/auth/apple-dh.c 74-99: the user name and password handed to
`auth_fn`, given the encrypted credentials and the client's public key -/
def appleCreds (L : Lib) (rand enc pub : Bytes) : Outcome (Bytes × Bytes) := do
  let p ← exportN 256 (keygen rand).p
  need (p.2 == 256) "key_len == sizeof(p)"
  let shared ← deriveShared (keygen rand) (keyNew (keygen rand).g p.1 pub)
  match shared with
  | none => .abort "shared_secret"
  | some k => do
    let buf ← exportN 256 k.q
    let creds := L.aesEcb (L.md5 buf.1) enc
    .ok (cstr (creds.take 63), cstr ((creds.drop 64).take 63))

/-- apple_dh_handle_response, src/auth/apple-dh.c 54-110: nothing (`none`) until the message is
complete -/
def appleResponse (L : Lib) (rand a : Bytes) : Outcome (Option (Bytes × Bytes)) :=
  match slice a 0 128, slice a 128 256 with
  | some enc, some pub => do
    let r ← appleCreds L rand enc pub
    .ok (some r)
  | _, _ => .ok none

/-! ## RSA-AES -/

/-- rsa_public_key_prepare (Nettle, rsa.c `_rsa_check_size`): the size in bytes, 0 for a modulus
that is even or shorter than 12 bytes -/
def rsaSize (n : Nat) : Nat := if n % 2 = 0 ∨ byteSize n < 12 then 0 else byteSize n

/-- crypto_rsa_pub_key_import, src/crypto/nettle/rsa.c 53-68 -/
def pubImport (modulus exponent : Bytes) : PubKey :=
  ⟨importN modulus, importN exponent, rsaSize (importN modulus)⟩

/-- the length, modulus and exponent of a key as the code writes or hashes them:
src/auth/rsa-aes.c 40-53, 163-182 and 218-236 -/
def keyParts (k : PubKey) : Outcome (Bytes × Bytes × Bytes) := do
  let m ← exportN k.size k.n
  let e ← exportN k.size k.e
  .ok (be32 (k.size * 8), m.1, e.1)

/-- rsa_aes_send_public_key, src/auth/rsa-aes.c 24-57: what is written -/
def sendKey (srv : PubKey) : Outcome Bytes := do
  let k ← keyParts srv
  .ok (k.1 ++ k.2.1 ++ k.2.2)

/-- rsa_aes_send_challenge, src/auth/rsa-aes.c 59-75, with crypto_rsa_encrypt,
src/crypto/nettle/rsa.c 196-210: what is written.  The ciphertext goes to the 1022 bytes of stack
after the length field; `crypto_export` clears as many bytes as the client's key has.  If the
challenge cannot be encrypted, `len` is -1 and `sizeof(*msg) + len` is 1. -/
def sendChallenge (L : Lib) (pub : PubKey) (challenge : Bytes) : Outcome Bytes :=
  match L.rsaEnc pub challenge with
  | none => .ok [255]
  | some c =>
    if 1022 < pub.size then .ub "rsa_aes_send_challenge: stack buffer overflow"
    else do
      let r ← exportN pub.size c
      .ok (be16 r.2 ++ r.1.take r.2)

/-- on_rsa_aes_public_key, src/auth/rsa-aes.c 88-104, for a key of `k` bytes; `rest` follows the
length field -/
def publicKeyBody (L : Lib) (challenge rest : Bytes) (k : Nat) :
    Outcome (Option (PubKey × Bytes × Nat)) :=
  match slice rest 0 k, slice rest k k with
  | some m, some e => do
    let w ← sendChallenge L (pubImport m e) challenge
    .ok (some (pubImport m e, w, 4 + k * 2))
  | _, _ => .ok none

/-- on_rsa_aes_public_key, src/auth/rsa-aes.c 77-105: the key, the bytes written and the bytes
consumed; `none` until the message is complete.  `UDIV_UP` is computed in 32 bits. -/
def onPublicKey (L : Lib) (challenge a : Bytes) : Outcome (Option (PubKey × Bytes × Nat)) :=
  match a with
  | b0 :: b1 :: b2 :: b3 :: rest =>
    publicKeyBody L challenge rest ((rd32 b0 b1 b2 b3 + 7) % 4294967296 / 8)
  | _ => .ok none

/-- crypto_hash_many, src/crypto/nettle/hash.c 92-100: it stops at the first entry of length 0 -/
def hashMany (h : Bytes → Bytes) (entries : List Bytes) : Bytes :=
  h (entries.takeWhile (· ≠ [])).flatten

/-- client_rsa_aes_hash_len, src/auth/rsa-aes.c 107-116 -/
def hashLen (wide : Bool) : Nat := if wide then 32 else 20

/-- `challenge_len`, src/server.c on_security_message: 16 for SHA-1/AES-128, 32 for SHA-256/AES-256 -/
def challengeLen (wide : Bool) : Nat := if wide then 32 else 16

/-- what on_rsa_aes_challenge does with a complete message -/
inductive ChallengeRes where
  /-- the client is closed -/
  | closed
  /-- the keys for sending and receiving, and the hash written -/
  | upgraded (serverKey clientKey hash : Bytes)
  deriving Repr, DecidableEq

/-- on_rsa_aes_challenge, src/auth/rsa-aes.c 130-204: `random` is the server's challenge and `data`
the client's, encrypted.  `client_random` is cleared first; `rsa_decrypt` fails if the message has
more than `challenge_len` bytes. -/
def onChallengeData (L : Lib) (wide : Bool) (srv cl : PubKey) (random data : Bytes) :
    Outcome ChallengeRes :=
  match L.rsaDec (importN data) with
  | none => .ok .closed
  | some r => if challengeLen wide < r.length then .ok .closed else do
    let cr := (r ++ List.replicate (32 - r.length) 0).take (challengeLen wide)
    let s ← keyParts srv
    let c ← keyParts cl
    .ok (.upgraded (hashMany (L.sha wide) [cr, random]) (hashMany (L.sha wide) [random, cr])
      (hashMany (L.sha wide) [s.1, s.2.1, s.2.2, c.1, c.2.1, c.2.2]))

/-- on_rsa_aes_challenge, src/auth/rsa-aes.c 118-207: the result and the bytes consumed; `none`
until the message is complete -/
def onChallenge (L : Lib) (wide : Bool) (srv cl : PubKey) (random a : Bytes) :
    Outcome (Option (ChallengeRes × Nat)) :=
  match a with
  | b0 :: b1 :: rest =>
    match slice rest 0 (rd16 b0 b1) with
    | some data => do
      let r ← onChallengeData L wide srv cl random data
      .ok (some (r, 2 + rd16 b0 b1))
    | none => .ok none
  | _ => .ok none

/-- on_rsa_aes_client_hash, src/auth/rsa-aes.c 209-257: whether the hash of the client is accepted -/
def clientHashOk (L : Lib) (wide : Bool) (srv cl : PubKey) (msg : Bytes) : Outcome Bool := do
  let s ← keyParts srv
  let c ← keyParts cl
  .ok (msg.take (hashLen wide) ==
    (hashMany (L.sha wide) [c.1, c.2.1, c.2.2, s.1, s.2.1, s.2.2]).take (hashLen wide))

end Verif.Keys
