import Verif.Model.V4l2

/-! # Specification vocabulary for the hardware encoder -/

namespace Verif.V4l2

/-- the buffer object has at most four planes, and the device takes what it is given -/
def Op.Sound : Op → Prop
  | .feed _ _ planes ok => planes ≤ 4 ∧ ok = true
  | _ => True

/-- neither feeds a frame nor ends the encoder -/
def Op.Idle : Op → Prop
  | .feed _ _ _ _ => False
  | .destroy => False
  | _ => True

/-- the framebuffers given to the device so far -/
def State.fed (s : State) : List Nat := s.coded.map Prod.fst

/-- the framebuffers the device is reading -/
def State.reading (s : State) : List Nat := s.queued.map Prod.snd

inductive Chan where
  | r | g | b | x
  deriving DecidableEq, Repr

/-- the bytes of a pixel in memory, for a DRM format (drm_fourcc.h 193-201): little endian, so from the right
of the name to its left -/
def drmBytes (f : Nat) : Option (List Chan) :=
  if f = fourcc 'X' 'R' '2' '4' ∨ f = fourcc 'A' 'R' '2' '4' then some [.b, .g, .r, .x]
  else if f = fourcc 'X' 'B' '2' '4' ∨ f = fourcc 'A' 'B' '2' '4' then some [.r, .g, .b, .x]
  else if f = fourcc 'R' 'X' '2' '4' ∨ f = fourcc 'R' 'A' '2' '4' then some [.x, .b, .g, .r]
  else if f = fourcc 'B' 'X' '2' '4' ∨ f = fourcc 'B' 'A' '2' '4' then some [.x, .r, .g, .b]
  else none

/-- the bytes of a pixel in memory, for a V4L2 format (the comments of videodev2.h 542-551) -/
def v4l2Bytes (f : Nat) : Option (List Chan) :=
  if f = fourcc 'A' 'R' '2' '4' ∨ f = fourcc 'X' 'R' '2' '4' ∨ f = fourcc 'B' 'G' 'R' '4' then some [.b, .g, .r, .x]
  else if f = fourcc 'R' 'A' '2' '4' ∨ f = fourcc 'R' 'X' '2' '4' then some [.x, .b, .g, .r]
  else if f = fourcc 'A' 'B' '2' '4' ∨ f = fourcc 'X' 'B' '2' '4' then some [.r, .g, .b, .x]
  else if f = fourcc 'B' 'A' '2' '4' ∨ f = fourcc 'B' 'X' '2' '4' ∨ f = fourcc 'R' 'G' 'B' '4' then some [.x, .r, .g, .b]
  else none

end Verif.V4l2
