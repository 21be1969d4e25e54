import Verif.Spec.Messages

/-!
# The extended clipboard, as its protocol document describes it
-/

namespace Verif.Server

/-- line endings: CR LF and a lone CR become LF -/
def toLf : Bytes → Bytes
  | 13 :: 10 :: r => 10 :: toLf r
  | 13 :: r => 10 :: toLf r
  | c :: r => c :: toLf r
  | [] => []

/-- an extended clipboard message of a client: the length is negative, a word of flags follows -/
def extClip (pad : UInt8) (flags : Nat) (data : Bytes) : Bytes :=
  [6, pad, pad, pad] ++ wire32 (-(4 + (data.length : Int))) ++ be32 flags ++ data

/-- the same in the other direction -/
def extClipOut (flags : Nat) (data : Bytes) : Bytes :=
  [3, 0, 0, 0] ++ wire32 (-(4 + (data.length : Int))) ++ be32 flags ++ data

/-- a zlib stream of `plain`, of which more than 4 bytes are to be had -/
def Inflates (env : Env) (z plain : Bytes) : Prop :=
  env.inflate1 z = some (plain.take 4) ∧ ∀ n, env.inflate2 z n = some ((plain.drop 4).take n)

/-- the flags of the protocol: bit 0 is the text format, the rest are actions -/
def fText := 1
def fCaps := 0x01000000
def fRequest := 0x02000000
def fPeek := 0x04000000
def fNotify := 0x08000000
def fProvide := 0x10000000

/-- the extended clipboard pseudo-encoding, 0xc0a1e5ce -/
def extClipboard : Int := -1063131698

/-- what a client has said about the clipboard so far -/
structure Consent where
  encs : List Int
  caps : Nat
  max : Nat
  deriving Repr, DecidableEq

/-- a caps message replaces the capabilities; the size is optional -/
def Consent.note (c : Consent) : Eff → Consent
  | .encodings es => { c with encs := es }
  | .clipMsg flags data =>
    if flags.testBit 24 then
      { c with caps := flags, max := if 4 ≤ data.length then beNat (data.take 4) else c.max }
    else c
  | _ => c

/-- before its first caps message a client can do everything but peek, with texts of up to 20 MiB -/
def consent (log : List Eff) : Consent :=
  log.foldl Consent.note ⟨[], 0x1a000001, 20971520⟩

/-- What may be sent about the clipboard, given what happened before. -/
inductive Allowed : List Eff → Kind → Bytes → Prop
  /-- a client without the extension gets the text itself -/
  | plain (pre text) : extClipboard ∉ (consent pre).encs →
      Allowed (pre ++ [.offered text]) .cutText ([3, 0, 0, 0] ++ be32 text.length ++ text)
  /-- the text goes out at once to those who want that -/
  | push (pre text data) : extClipboard ∈ (consent pre).encs → (consent pre).caps.testBit 28 = true →
      text.length ≤ (consent pre).max →
      Allowed (pre ++ [.offered text]) .clip (extClipOut (fProvide + fText) data)
  /-- otherwise there is a notification for those who want that -/
  | notify (pre text flags) : extClipboard ∈ (consent pre).encs →
      ¬ ((consent pre).caps.testBit 28 = true ∧ text.length ≤ (consent pre).max) →
      (consent pre).caps.testBit 27 = true → (flags = fNotify ∨ flags = fNotify + fText) →
      Allowed (pre ++ [.offered text]) .clip (extClipOut flags [])
  /-- the text is sent on request -/
  | reply (pre flags data m) : flags.testBit 25 = true → flags.testBit 0 = true →
      (consent pre).caps.testBit 28 = true →
      Allowed (pre ++ [.clipMsg flags data]) .clip (extClipOut (fProvide + fText) m)
  /-- a peek is answered with a notification -/
  | peek (pre flags data out) : flags.testBit 26 = true → (consent pre).caps.testBit 27 = true →
      (out = fNotify ∨ out = fNotify + fText) →
      Allowed (pre ++ [.clipMsg flags data]) .clip (extClipOut out [])
  /-- a notification of the client is answered with a request -/
  | ask (pre flags data) : flags.testBit 27 = true → flags.testBit 0 = true →
      (consent pre).caps.testBit 25 = true →
      Allowed (pre ++ [.clipMsg flags data]) .clip (extClipOut (fRequest + fText) [])
  /-- the server's own capabilities: everything, and no unsolicited text at all -/
  | caps (pre) : extClipboard ∈ (consent pre).encs →
      Allowed pre .clip (extClipOut (fCaps + fText + fRequest + fPeek + fNotify + fProvide)
        [0, 0, 0, 0])

/-- everything sent about the clipboard was allowed when it was sent -/
def Polite (log : List Eff) : Prop :=
  ∀ pre ch k b post, log = pre ++ .send ch k b :: post → k = .clip ∨ k = .cutText →
    Allowed pre k b

end Verif.Server
