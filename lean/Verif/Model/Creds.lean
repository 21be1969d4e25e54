import Verif.Basic

/-!
# Model of the server's keys

nvnc_set_rsa_creds and nvnc_set_tls_creds in src/server.c, and the places in src/auth/rsa-aes.c that use the RSA key.  A
key pair is a number.  What the file holds is in `Model/Pem`, what is computed with the keys in `Model/Keys`, the
messages are in `Model/Server`; what is allocated and given back is in `Model/Make`.
-/

namespace Verif.Creds

/-- `server->rsa_priv` and `server->rsa_pub` when they are not NULL: a pair, or the structures of
crypto_rsa_priv_key_new and crypto_rsa_pub_key_new with no usable key in them.  A file that cannot be opened leaves both
empty, with a length of zero (src/crypto/nettle/rsa.c 35-43, 155-163). -/
inductive Key where
  | pair (n : Nat)
  | none
  deriving DecidableEq, Repr

/-- what can be seen of it -/
inductive Ev where
  | set (ok : Bool)                  -- nvnc_set_rsa_creds returns 0 or -1
  | tlsSet (ok : Bool)               -- nvnc_set_tls_creds returns 0 or -1
  | shown (id : Nat) (k : Key)       -- client `id` is sent this public key
  | decrypts (id : Nat) (k : Key)    -- its challenge is decrypted with this private key
  | hashes (id : Nat) (k : Key)      -- this public key goes into a hash for it
  deriving DecidableEq, Repr

/-- `stage` is how far a client is: 0 before it chose RSA-AES, 1 when the server's key was sent, 2 when its challenge
came, 3 when its hash came -/
structure St where
  rsa : Option Key := .none
  tls : Option Nat := .none
  stage : Nat → Nat := fun _ => 0
  log : List Ev := []

/-- what happens -/
inductive Op where
  | setRsa (file : Option Nat)       -- nvnc_set_rsa_creds with a file that holds a key, or does not
  | setTls (file : Option Nat)       -- nvnc_set_tls_creds, likewise (`none`: GnuTLS refuses anything about it)
  | choose (id : Nat) (new : Nat)    -- a client chooses RSA-AES; `new` is what crypto_rsa_keygen would make
  | challenge (id : Nat)             -- its challenge arrives
  | hash (id : Nat)                  -- its hash arrives
  deriving DecidableEq, Repr

/-- crypto_rsa_priv_key_load into new structures, src/server.c 2940-2946 -/
def loaded : Option Nat → Key
  | some n => .pair n
  | .none => .none

/-- rsa_aes_send_public_key, src/auth/rsa-aes.c 24-57: a key is made if there is none (28-37; that making one fails is
left out) -/
def keyFor (new : Nat) (s : St) : Key := s.rsa.getD (.pair new)

def setStage (id n : Nat) (s : St) : St := { s with stage := fun i => if i = id then n else s.stage i }

/-- nvnc_set_rsa_creds, src/server.c 2937-2950; nvnc_set_tls_creds, 2843-2884; rsa_aes_send_public_key; on_rsa_aes_challenge,
src/auth/rsa-aes.c 133-134 and 163-170; on_rsa_aes_client_hash, 218-224 -/
def step (o : Op) (s : St) : St :=
  match o with
  | .setRsa file => { s with rsa := some (loaded file), log := s.log ++ [.set file.isSome] }
  | .setTls file =>
    match s.tls with
    | some _ => { s with log := s.log ++ [.tlsSet false] }
    | .none => { s with tls := file, log := s.log ++ [.tlsSet file.isSome] }
  | .choose id new =>
    if s.stage id = 0 then
      { setStage id 1 s with rsa := some (keyFor new s), log := s.log ++ [.shown id (keyFor new s)] }
    else s
  | .challenge id =>
    match s.rsa with
    | some k => if s.stage id = 1 then { setStage id 2 s with log := s.log ++ [.decrypts id k, .hashes id k] } else s
    | .none => s
  | .hash id =>
    match s.rsa with
    | some k => if s.stage id = 2 then { setStage id 3 s with log := s.log ++ [.hashes id k] } else s
    | .none => s

def run (os : List Op) (s : St) : St := os.foldl (fun s o => step o s) s

end Verif.Creds
