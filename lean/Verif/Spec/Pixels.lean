import Verif.Model.Pixels

/-!
# What pixel formats mean

A colour component is a range of bits.  Where the components of a DRM format are follows from its
name (drm_fourcc.h: the components are named from the most significant bits on), where those of a
client are follows from its SetPixelFormat message (RFC 6143, 7.4).
-/

namespace Verif.Pixels
open Verif.Server (PixFmt)

inductive Ch where
  | r | g | b
  deriving Repr, DecidableEq

structure Field where
  shift : Nat
  bits : Nat
  deriving Repr, DecidableEq

/-- the component of a pixel -/
def Field.get (f : Field) (v : Nat) : Nat := v / 2 ^ f.shift % 2 ^ f.bits

def Field.apart (f g : Field) : Prop := f.shift + f.bits ≤ g.shift ∨ g.shift + g.bits ≤ f.shift

abbrev Layout := Ch → Field

/-- a component, and the number of bits, for each letter in the name of a DRM format -/
def letters : Code → List (Option Ch × Nat)
  | .four w o _ =>
    let n := match w with | .w10 => 10 | .w8 => 8 | .w4 => 4
    let x := match w with | .w10 => 2 | .w8 => 8 | .w4 => 4
    match o with
    | .rgba => [(some .r, n), (some .g, n), (some .b, n), (none, x)]
    | .bgra => [(some .b, n), (some .g, n), (some .r, n), (none, x)]
    | .argb => [(none, x), (some .r, n), (some .g, n), (some .b, n)]
    | .abgr => [(none, x), (some .b, n), (some .g, n), (some .r, n)]
  | .rgb888 => [(some .r, 8), (some .g, 8), (some .b, 8)]
  | .bgr888 => [(some .b, 8), (some .g, 8), (some .r, 8)]
  | .other => []

/-- where a letter's bits are: above those of all letters after it -/
def place (x : Option Ch) : List (Option Ch × Nat) → Field
  | [] => ⟨0, 0⟩
  | (y, n) :: rest => if x = y then ⟨(rest.map (·.2)).sum, n⟩ else place x rest

def drm (c : Code) : Layout := fun x => place (some x) (letters c)

/-- the alpha (or unused) component -/
def drmAlpha (c : Code) : Field := place none (letters c)

/-- the bytes of a pixel of a DRM format: little endian, unless it is marked as big endian -/
def drmPixel (f : Fourcc) (px : Bytes) : Nat := if f.big then beNat px else leNat px

/-- the pixel format says that the components are there -/
structure Says (p : PixFmt) (l : Layout) : Prop where
  r : p.rmax = 2 ^ (l .r).bits - 1 ∧ p.rshift = (l .r).shift
  g : p.gmax = 2 ^ (l .g).bits - 1 ∧ p.gshift = (l .g).shift
  b : p.bmax = 2 ^ (l .b).bits - 1 ∧ p.bshift = (l .b).shift

/-- a true colour format that makes sense: RFC 6143, 7.4 -/
structure Sane (p : PixFmt) (l : Layout) : Prop where
  says : Says p l
  colour : p.trueColour ≠ 0
  bpp : p.bpp = 8 ∨ p.bpp = 16 ∨ p.bpp = 32
  depth : p.depth ≤ 32
  bits : ∀ c, (l c).bits ≤ 16
  inside : ∀ c, (l c).shift < p.bpp ∧ (l c).shift + (l c).bits ≤ p.bpp
  apart : ∀ c d, c ≠ d → (l c).apart (l d)

/-- what a client makes of the bytes of a pixel -/
def clientPixel (p : PixFmt) (b : Bytes) : Nat := if p.bigEndian ≠ 0 then beNat b else leNat b

/-- an intensity of so many bits as one of so many other bits: the least significant bits are
dropped, or zeros are added -/
def rescale (v sbits dbits : Nat) : Nat := v * 2 ^ dbits / 2 ^ sbits

/-- the value has exactly these components and nothing besides -/
def Holds (v : Nat) (l : Layout) (x : Ch → Nat) : Prop :=
  (∀ c, (l c).get v = x c) ∧
  ∀ i, v.testBit i = true → ∃ c, (l c).shift ≤ i ∧ i < (l c).shift + (l c).bits

/-- a DRM format that is converted as it should be -/
def Plain (f : Fourcc) : Prop :=
  f.big = false ∧ match f.code with
    | .four .w4 _ _ => False
    | .other => False
    | _ => True

instance (f : Fourcc) : Decidable (Plain f) := by
  unfold Plain
  rcases f with ⟨c, big⟩
  rcases c with ⟨w, o, a⟩ | _ | _ | _ <;> try cases w
  all_goals exact inferInstance

end Verif.Pixels
