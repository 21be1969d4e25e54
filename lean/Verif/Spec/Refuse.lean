import Verif.Spec.Talk

/-!
# How a client is told that it is refused

RFC 6143 sections 7.1.2 and 7.1.3, and the rfbproto document for VeNCrypt.
-/

namespace Verif.Wire

/-- a text with its length, and nothing after it -/
def readReason (b : Bytes) : Option Bytes :=
  match takeN 4 b with
  | none => none
  | some (n, r) => match takeN (beNat n) r with
    | some (x, []) => some x
    | _ => none

/-- SecurityResult: failed, with a reason -/
def readDenied : Bytes → Option Bytes
  | 0 :: 0 :: 0 :: 1 :: r => readReason r
  | _ => none

/-- VeNCrypt: the version may be refused (any byte but 0), then the subtype (0), then the password; only then
there is a reason -/
def readVeDenied : Bytes → Option Bytes
  | 0 :: 2 :: x :: r =>
    if x ≠ 0 then some []
    else match r with
      | [] => none
      | n :: r => match skip (4 * n.toNat) r with
        | some [0] => some []
        | some (1 :: r) => readDenied r
        | _ => none
  | _ => none

/-- The reason for which a client that chose security type `t` finds itself refused.  A type that was not offered
is refused at once. -/
def refused (t : UInt8) (b : Bytes) : Option Bytes :=
  match readVersion b with
  | none => none
  | some b => match b with
    | 0 :: r => readReason r              -- no security types
    | _ => match readTypes b with
      | none => none
      | some (ts, b) =>
        if t ∉ ts then readDenied b
        else if t = 19 then readVeDenied b
        else (readSecurity t b).bind readDenied

end Verif.Wire
