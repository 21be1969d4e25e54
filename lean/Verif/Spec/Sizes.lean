import Verif.Model.Server

/-!
# What a client knows about the size of the picture

RFC 6143: the ServerInit message (7.3.2) begins with width and height. A rectangle of the DesktopSize pseudo-encoding
(-223, 7.8.2), or of its extension (-308, the community's description of the protocol), tells a new size in place of
that of a rectangle. A client that knows the extension and asks for the whole picture is to be told the size again.
-/

namespace Verif.Sizes

open Verif.Server

/-- What a client has seen: the encodings that it named last, the size that it was told last, whether it has asked to be
told again since, and what its encoder made last. -/
structure View where
  encs : List Int := []
  w : Nat := 0
  h : Nat := 0
  again : Bool := false
  made : Option Frame := none

def View.see (v : View) : Eff → View
  | .encodings es => { v with encs := es }
  | .send _ .serverInit (w0 :: w1 :: h0 :: h1 :: _) => { v with w := rd16 w0 w1, h := rd16 h0 h1 }
  | .send _ .resizeRect (_ :: _ :: _ :: _ :: w0 :: w1 :: h0 :: h1 :: _) =>
    { v with w := rd16 w0 w1, h := rd16 h0 h1, again := false }
  | .fbReq inc _ _ _ _ => { v with again := v.again || (!inc && v.encs.contains (-308)) }
  | .encodeDone f => { v with made := some f }
  | _ => v

/-- what a client has seen of a connection -/
def view (l : List Eff) : View := l.foldl View.see {}

/-- The rectangle that tells a size: with -308, one screen of that size follows. -/
def sizeRect (e : Int) (w h : Nat) : Bytes :=
  [0, 0, 0, 0] ++ be16 w ++ be16 h ++
    if e = -308 then [0xff, 0xff, 0xfe, 0xcc, 1, 0, 0, 0, 0, 0, 0, 0, 0, 0, 0, 0] ++ be16 w ++ be16 h ++ [0, 0, 0, 0]
    else [0xff, 0xff, 0xff, 0x21]

/-- The size of the frame to come is told in the way that the client knows, and because the client does not know it or
has asked for it. -/
def Told (v : View) (b : Bytes) : Prop :=
  ∃ f e, v.made = some f ∧ e ∈ v.encs ∧ (e = -308 ∨ e = -223 ∧ -308 ∉ v.encs) ∧ b = sizeRect e f.w f.h ∧
    (v.again = true ∨ f.w ≠ v.w ∨ f.h ≠ v.h)

/-- A frame comes to a client that knows its size, and has been told it if it has asked. -/
def Fitting (v : View) (b : Bytes) : Prop :=
  ∃ f, v.made = some f ∧ b = f.payload ∧
    (¬ (f.w = 0 ∧ f.h = 0) → v.w = f.w % 65536 ∧ v.h = f.h % 65536 ∧ v.again = false)

end Verif.Sizes
