import Verif.Spec.Sizes

/-!
# The times of frames

A client that names -1000 among its encodings gets with each frame the time at which the application wants it to be
shown, if there is one: an empty rectangle of that encoding, followed by eight bytes (an extension of this library).
-/

namespace Verif.Times

open Verif.Server Verif.Sizes

/-- the rectangle with a time -/
def stamp (p : Nat) : Bytes := [0, 0, 0, 0, 0, 0, 0, 0, 0xff, 0xff, 0xfc, 0x18] ++ be64 p

/-- the record ends with a time -/
def ends (a : List Eff) : Bool := match a.getLast? with | some (.send _ .ptsRect _) => true | _ => false

/-- A frame comes after the record `a`: its time is in front of it if it has one and the client wants it, and no time
otherwise. -/
def Dated (a : List Eff) (ch : Chan) (b : Bytes) : Prop :=
  ∃ f, (view a).made = some f ∧ b = f.payload ∧
    match f.pts with
    | some p => if -1000 ∈ (view a).encs then a.getLast? = some (.send ch .ptsRect (stamp p)) else ends a = false
    | none => ends a = false

/-- A time comes after the record `a`, and then `d`: the client wants it, and it is that of the frame that follows. -/
def Followed (a : List Eff) (ch : Chan) (b : Bytes) (d : List Eff) : Prop :=
  ∃ f p d', (view a).made = some f ∧ f.pts = some p ∧ -1000 ∈ (view a).encs ∧ b = stamp p ∧
    d = .send ch .frame f.payload :: d'

end Verif.Times
