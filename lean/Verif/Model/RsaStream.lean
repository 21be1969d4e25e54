import Verif.Model.Vec

/-!
# The RSA-AES stream

src/stream/rsa-aes.c and the EAX ciphers of src/crypto/nettle/cipher.c (the one with 128 and the one with 256 bit keys
are the same but for the key).  AES itself is a parameter.  The TCP stream below is a source of bytes of which some are
available at each read; sending is only modelled down to the bytes that are handed to the TCP stream (see Model/Tcp.lean).
-/

namespace Verif.RsaStream
open Verif.Vec

/-- EAX with some key: a stream cipher that is its own inverse, and a code for nonce, header and ciphertext -/
structure Eax where
  ctr : Bytes → Bytes → Bytes
  tag : Bytes → Bytes → Bytes → Bytes
  ctr_length : ∀ n b, (ctr n b).length = b.length
  ctr_ctr : ∀ n b, ctr n (ctr n b) = b
  tag_length : ∀ n h c, (tag n h c).length = 16

/-! ## cipher.c -/

/-- count of struct crypto_aes_eax, cipher.c 26-34: two numbers of 64 bits -/
structure Count where
  lo : Nat
  hi : Nat
  deriving Repr, DecidableEq

/-- a number of 64 bits in little-endian memory -/
def le64 (n : Nat) : Bytes := (List.range 8).map fun i => UInt8.ofNat (n / 256 ^ i)

/-- crypto_aes_eax_update_nonce, cipher.c 94-107 (and 154-167): the nonce that is set, and the next count -/
def updateNonce (c : Count) : Bytes × Count :=
  (le64 c.lo ++ le64 c.hi,
    if (c.lo + 1) % sizeT = 0 then ⟨0, (c.hi + 1) % sizeT⟩ else ⟨(c.lo + 1) % sizeT, c.hi⟩)

/-- crypto_cipher_aes_eax_encrypt, cipher.c 109-125 (and 169-185): the vector, the code and the next count.  Whether
vec_reserve fails is not looked at. -/
def encrypt (k : Eax) (m : Heap) (src ad : Bytes) (c : Count) (v : Vec) : Outcome (Vec × Bytes × Count) := do
  let d ← writeAt (reserve m (v.len + src.length) v).1.data v.len (k.ctr (updateNonce c).1 src)
  .ok ({ (reserve m (v.len + src.length) v).1 with data := d, len := v.len + src.length },
    k.tag (updateNonce c).1 ad (k.ctr (updateNonce c).1 src), (updateNonce c).2)

/-- crypto_cipher_aes_eax_decrypt, cipher.c 127-136 (and 187-196): the text, the code and the next count -/
def decrypt (k : Eax) (src ad : Bytes) (c : Count) : Bytes × Bytes × Count :=
  (k.ctr (updateNonce c).1 src, k.tag (updateNonce c).1 ad src, (updateNonce c).2)

/-! ## Sending -/

/-- RSA_AES_BUFFER_SIZE, rsa-aes.c 32 -/
def bufferSize : Nat := 8192

/-- message `i` of a payload, rsa-aes.c 160-170 -/
def chunk (payload : Bytes) (i : Nat) : Bytes := (payload.drop (i * bufferSize)).take bufferSize

/-- the loop of stream_rsa_aes_send, rsa-aes.c 159-173; `m i j` is the memory for the parts of message `i` -/
def sendLoop (k : Eax) (m : Nat → Nat → Heap) (payload : Bytes) : Nat → Nat → Vec → Count → Outcome (Vec × Count)
  | 0, _, v, c => .ok (v, c)
  | n + 1, i, v, c => do
    let (v, _) ← step (.append (m i 0) (be16 (chunk payload i).length)) v
    let (v, mac, c) ← encrypt k (m i 1) (chunk payload i) (be16 (chunk payload i).length) c v
    let (v, _) ← step (.append (m i 2) mac) v
    sendLoop k m payload n (i + 1) v c

/-- n_msg, rsa-aes.c 154 -/
def nMsg (payload : Bytes) : Nat := (payload.length + bufferSize - 1) / bufferSize

/-- stream_rsa_aes_send, rsa-aes.c 150-186: the bytes that are handed to the TCP stream -/
def send (k : Eax) (m0 : Heap) (m : Nat → Nat → Heap) (payload : Bytes) (c : Count) : Outcome (Bytes × Count) := do
  let (v, c) ← sendLoop k m payload (nMsg payload) 0 (init m0 (payload.length + nMsg payload * 18)).1 c
  .ok (v.bytes, c)

/-! ## Receiving -/

/-- struct stream_rsa_aes, rsa-aes.c 35-42; `net` is what the peer sends that was not read yet -/
structure State where
  buf : Bytes
  count : Count
  closed : Bool
  net : Bytes
  deriving Repr, DecidableEq

/-- stream_rsa_aes_read_into_buffer, rsa-aes.c 55-62, with stream_tcp_read, tcp.c 195-215; `n` bytes are available, and
none means EAGAIN or an error, which is ignored.  To read 0 bytes gives 0, which is taken for the end. -/
def readInto (n : Nat) (s : State) : State :=
  if s.closed then s
  else if s.buf.length = bufferSize then { s with closed := true }
  else { s with buf := s.buf ++ s.net.take (min n (bufferSize - s.buf.length)),
                net := s.net.drop (min n (bufferSize - s.buf.length)) }

/-- stream_rsa_aes_parse_header, rsa-aes.c 64-79 -/
def parse (buf : Bytes) : Option Nat :=
  match buf with
  | a :: b :: _ :: _ => if buf.length < 2 + 16 + rd16 a b then none else some (rd16 a b)
  | _ => none

inductive Msg where
  | wait
  | bad
  | got (b : Bytes)
  deriving Repr, DecidableEq

/-- stream_rsa_aes_read_message, rsa-aes.c 81-119 -/
def readMessage (k : Eax) (size : Nat) (s : State) : Outcome (State × Msg) :=
  match parse s.buf with
  | none => .ok (s, .wait)
  | some len =>
    if size < len then .ok (s, .wait)
    else do
      let c ← readAt s.buf 2 len
      let mac ← readAt s.buf (2 + len) 16
      if (decrypt k c (be16 len) s.count).2.1 ≠ mac then
        .ok ({ s with count := (decrypt k c (be16 len) s.count).2.2 }, .bad)
      else
        .ok ({ s with count := (decrypt k c (be16 len) s.count).2.2, buf := s.buf.drop (2 + 16 + len) },
          .got (decrypt k c (be16 len) s.count).1)

/-- the loop of stream_rsa_aes_read, rsa-aes.c 131-146; a message takes at least 18 bytes of the buffer, so that there
are no more rounds than bytes -/
def readLoop (k : Eax) : Nat → Nat → State → Bytes → Outcome (State × Option Bytes)
  | 0, _, s, acc => .ok (s, some acc)
  | n + 1, size, s, acc => do
    let (s, r) ← readMessage k size s
    match r with
    | .wait => .ok (s, some acc)
    | .bad => .ok (s, none)
    | .got [] => .ok (s, some acc)
    | .got b => readLoop k n (size - b.length) s (acc ++ b)

/-- stream_rsa_aes_read, rsa-aes.c 121-148; `none` for an error -/
def read (k : Eax) (n size : Nat) (s : State) : Outcome (State × Option Bytes) :=
  if (readInto n s).closed then .ok (readInto n s, some [])
  else readLoop k ((readInto n s).buf.length + 1) size (readInto n s) []

/-- stream_upgrade_to_rsa_eas, rsa-aes.c 195-211 -/
def fresh (net : Bytes) : State := ⟨[], ⟨0, 0⟩, false, net⟩

/-- reads, each with the bytes that are available and the space there is; after an error the connection
is closed (server.c 1964-1971).  What was delivered, and whether there was an error. -/
def run (k : Eax) : List (Nat × Nat) → State → Bytes → Outcome (State × Bytes × Bool)
  | [], s, acc => .ok (s, acc, false)
  | (n, size) :: rs, s, acc => do
    let (s, r) ← read k n size s
    match r with
    | none => .ok (s, acc, true)
    | some b => run k rs s (acc ++ b)

end Verif.RsaStream
