import Verif.Model.Display
import Verif.Spec.Raw

/-!
# What displays should do
-/

namespace Verif.Display
open Verif.Enc (Fb)

/-- a position in a rectangle -/
def Rect.has (r : Rect) (x y : Int) : Prop := r.x1 ≤ x ∧ x < r.x2 ∧ r.y1 ≤ y ∧ y < r.y2

/-- a position in a region -/
def Region.has (r : Region) (x y : Int) : Prop := ∃ b ∈ r, b.has x y

/-- pixman keeps regions: the positions in them do not change, and no rectangle is empty -/
structure Faithful (norm : Region → Region) : Prop where
  same : ∀ r x y, Region.has (norm r) x y ↔ Region.has r x y
  proper : ∀ r, ∀ b ∈ norm r, b.x1 < b.x2 ∧ b.y1 < b.y2

/-- a region that is not outside of an image -/
def Region.In (r : Region) (w h : Nat) : Prop :=
  ∀ b ∈ r, 0 ≤ b.x1 ∧ b.x1 < b.x2 ∧ b.x2 ≤ w ∧ 0 ≤ b.y1 ∧ b.y1 < b.y2 ∧ b.y2 ≤ h

/-- some position of a region is in the tile of 32 by 32 pixels -/
def Region.touches (r : Region) (tx ty : Nat) : Prop := ∃ x y : Nat, Region.has r x y ∧ x / 32 = tx ∧ y / 32 = ty

/-- the bytes of a tile -/
def tileBytes (fb : Fb) (tx ty : Nat) : Bytes :=
  (List.range (min fb.height (32 * ty + 32) - 32 * ty)).flatMap fun j =>
    (List.range (min fb.width (32 * tx + 32) - 32 * tx)).flatMap fun i => fb.pixel (32 * tx + i) (32 * ty + j)

/-- the hash of a tile -/
def tileHash (xxh : Bytes → Nat) (fb : Fb) (tx ty : Nat) : Nat := xxh (tileBytes fb tx ty) % 4294967296

/-- frames of this size -/
structure Same (w h : Nat) (f : Region × Fb) : Prop where
  ok : f.2.Ok
  width : f.2.width = w
  height : f.2.height = h
  inside : Region.In f.1 w h

/-- the frame is the last one with damage in a tile -/
def Last (fs : List (Region × Fb)) (tx ty : Nat) (fb : Fb) : Prop :=
  ∃ pre r post, fs = pre ++ (r, fb) :: post ∧ r.touches tx ty ∧ ∀ g ∈ post, ¬ Region.touches g.1 tx ty

/-! ## Transforms: so many quarter turns clockwise, then perhaps a reflection -/

def Xf.turns : Xf → Nat
  | .normal => 0 | .r90 => 1 | .r180 => 2 | .r270 => 3
  | .flipped => 0 | .f90 => 1 | .f180 => 2 | .f270 => 3

def Xf.mirrored : Xf → Bool
  | .normal | .r90 | .r180 | .r270 => false
  | .flipped | .f90 | .f180 | .f270 => true

/-- a position in an image of a width and a height -/
structure Place where
  w : Nat
  h : Nat
  x : Nat
  y : Nat

/-- a quarter turn clockwise -/
def Place.turn (p : Place) : Place := ⟨p.h, p.w, p.h - 1 - p.y, p.x⟩

def Place.turnBy : Nat → Place → Place
  | 0, p => p
  | n + 1, p => (Place.turnBy n p).turn

/-- left and right exchanged -/
def Place.mirror (p : Place) : Place := { p with x := p.w - 1 - p.x }

/-- where the pixel at a position of the source goes, and how large the destination is -/
def Xf.place (t : Xf) (w h x y : Nat) : Place :=
  let p := Place.turnBy t.turns ⟨w, h, x, y⟩
  if t.mirrored then p.mirror else p

/-! ## Displays -/

/-- the image has the pixels of another one, each where the transform puts it -/
structure Shows (t : Xf) (src dst : Fb) : Prop where
  format : dst.f = src.f
  dims : ∀ x y, (dst.width, dst.height) = ((t.place src.width src.height x y).w, (t.place src.width src.height x y).h)
  pixels : ∀ x y, x < src.width → y < src.height →
    dst.pixel (t.place src.width src.height x y).x (t.place src.width src.height x y).y = src.pixel x y

/-- a region in the destination that has a position exactly if the pixel that goes there has a property -/
def Marks (t : Xf) (w h : Nat) (r : Region) (p : Nat → Nat → Prop) : Prop :=
  ∀ x y, x < w → y < h → (Region.has r (t.place w h x y).x (t.place w h x y).y ↔ p x y)

end Verif.Display
