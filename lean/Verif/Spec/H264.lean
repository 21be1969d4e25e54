import Verif.Model.H264
import Verif.Spec.Raw

/-!
# What the H.264 encoder should do
-/

namespace Verif.H264
open Verif.Vec Verif.Enc

/-- an H.264 rectangle as a client reads it -/
structure Rect where
  x : Nat
  y : Nat
  width : Nat
  height : Nat
  encoding : Nat
  flags : Nat
  data : Bytes
  deriving Repr, DecidableEq

/-- a client reads a rectangle; what follows is left over -/
def readRect : Bytes → Option (Rect × Bytes)
  | x0 :: x1 :: y0 :: y1 :: w0 :: w1 :: h0 :: h1 :: e0 :: e1 :: e2 :: e3 :: l0 :: l1 :: l2 :: l3 :: f0 :: f1 :: f2 :: f3 :: l =>
    if rd32 l0 l1 l2 l3 ≤ l.length then
      some (⟨rd16 x0 x1, rd16 y0 y1, rd16 w0 w1, rd16 h0 h1, rd32 e0 e1 e2 e3, rd32 f0 f1 f2 f3,
        l.take (rd32 l0 l1 l2 l3)⟩, l.drop (rd32 l0 l1 l2 l3))
    else none
  | _ => none

/-- the frames that were handed on -/
def finished (es : List Eff) : List (Option Frame) :=
  es.filterMap fun | .finish r => some r | _ => none

/-- what the codec gave, and for which frames -/
def codedOf (es : List Eff) : List (Fb × Bytes) :=
  es.filterMap fun | .coded fb out => if out = [] then none else some (fb, out) | _ => none

def holds (es : List Eff) : List Nat := es.filterMap fun | .hold i => some i | _ => none
def starts (es : List Eff) : List Nat := es.filterMap fun | .start i _ => some i | _ => none
def keys (es : List Eff) : List Bool := es.filterMap fun | .start _ k => some k | _ => none
def releases (es : List Eff) : List Nat := es.filterMap fun | .release i => some i | _ => none

/-- a frame of a display: its size is in 16 bits -/
def Fb.Small (fb : Fb) : Prop := fb.width < 65536 ∧ fb.height < 65536

/-- there is memory, and the packets can be counted in 32 bits -/
def Ev.Roomy : Ev → Prop
  | .encode fb _ => fb.Small
  | .done out a => Plenty a.copy ∧ Plenty a.copy' ∧ Plenty a.append ∧ Plenty a.init ∧ Plenty a.rect ∧ Plenty a.header ∧
      a.frame = true ∧ out.length < 4294967296
  | _ => True

/-- the frame is one rectangle, with all that the codec gave for the picture -/
def Carries (x y : Nat) (p : Fb × Bytes) (r : Option Frame) : Prop :=
  ∃ fr, r = some fr ∧ fr.nRects = 1 ∧ fr.width = p.1.width ∧ fr.height = p.1.height ∧ fr.pts = some p.1.pts ∧
    ∀ rest, readRect (fr.payload ++ rest) = some (⟨x, y, p.1.width, p.1.height, 50, 0, p.2⟩, rest)

/-- the quality that was set last -/
def lastQuality : Int → List Ev → Int
  | q, [] => q
  | _, .quality v :: evs => lastQuality (if v = 10 then 6 else v) evs
  | q, _ :: evs => lastQuality q evs

/-- whether an update is being made -/
def busy : Bool → List Eff → Bool
  | b, [] => b
  | _, .hold _ :: es => busy true es
  | _, .finish _ :: es => busy false es
  | b, _ :: es => busy b es

def Ev.isEncode : Ev → Bool
  | .encode .. => true
  | _ => false

/-- the server does not ask for a frame while an update is being made -/
def polite : Bool → Sys → List Ev → Bool
  | _, _, [] => true
  | b, s, ev :: evs => !(ev.isEncode && b) &&
      match step s ev with
      | .ok (s', es) => polite (busy b es) s' evs
      | _ => true

/-- frames are such that they can be encoded; a codec can be created at first; and a key frame is not asked for before
there was a frame -/
def Orderly : Bool → List Ev → Prop
  | _, [] => True
  | b, .encode fb c :: evs =>
    fb.gbm = true ∧ fb.normal = true ∧ 0 < fb.width ∧ 0 < fb.height ∧ (b = false → c = true) ∧ Orderly true evs
  | b, .key :: evs => b = true ∧ Orderly b evs
  | b, _ :: evs => Orderly b evs

/-- the frames that are in use -/
def inUse (s : Sys) : List Nat :=
  ((s.oh.bind Oh.encoder).bind Ff.current).toList.map Fb.id ++ s.old.filterMap fun e => e.current.map Fb.id

/-- the codec gives something for every frame -/
def Ev.Gives : Ev → Prop
  | .done out _ => out ≠ []
  | _ => True

/-- the pictures coded as key frames are the first of a codec and those that were asked for -/
def KeysRight : Bool → List Eff → Prop
  | _, [] => True
  | _, .create .. :: es => KeysRight true es
  | _, .asked :: es => KeysRight true es
  | due, .start _ key :: es => key = due ∧ KeysRight false es
  | due, _ :: es => KeysRight due es

/-- the codec that was created last -/
def lastCreate : Option (Nat × Nat × Nat × Int) → List Eff → Option (Nat × Nat × Nat × Int)
  | c, [] => c
  | _, .create w h f q :: es => lastCreate (some (w, h, f, q)) es
  | c, _ :: es => lastCreate c es

end Verif.H264
