import Verif.Model.Device

/-! # What a device can do -/

namespace Verif.Device

/-- the device has the size among its own (Video for Linux API, `VIDIOC_ENUM_FRAMESIZES`) -/
def Size.Has (w h : Nat) : Size → Prop
  | .discrete sw sh => w = sw ∧ h = sh
  | .steps minW maxW stepW minH maxH stepH =>
    (∃ k, w = minW + k * stepW) ∧ w ≤ maxW ∧ (∃ k, h = minH + k * stepH) ∧ h ≤ maxH

/-- what is looked for: the size itself, or a range around it in steps that divide 16 -/
def Size.Around (w h : Nat) : Size → Prop
  | .discrete sw sh => w = sw ∧ h = sh
  | .steps minW maxW stepW minH maxH stepH =>
    minW ≤ w ∧ w ≤ maxW ∧ minH ≤ h ∧ h ≤ maxH ∧ stepW ∣ 16 ∧ stepH ∣ 16

/-- steps of a size are not zero -/
def Size.Sound : Size → Prop
  | .discrete _ _ => True
  | .steps _ _ stepW _ _ stepH => 0 < stepW ∧ 0 < stepH

/-- a memory-to-memory device with several planes and streaming that codes H.264 of the size -/
structure Able (w h : Nat) (e : Entry) : Prop where
  video : ∃ rest, e.name.toList = 'v' :: 'i' :: 'd' :: 'e' :: 'o' :: rest
  opens : e.dev.opens = true
  caps : ∃ c, e.dev.caps = some c ∧ c.testBit 14 = true ∧ c.testBit 26 = true
  codes : V4l2.fourcc 'H' '2' '6' '4' ∈ e.dev.captures
  size : ∃ s ∈ e.dev.sizes, s.Around w h

/-- all steps of all devices are not zero -/
def Sound (es : List Entry) : Prop := ∀ e ∈ es, ∀ s ∈ e.dev.sizes, s.Sound

/-- the driver does what it is asked for or fails -/
def Dev.Obeys (d : Dev) : Prop :=
  (∀ f g, d.setOut f = some g → g = f) ∧ ∀ f g, d.setCapture f = some g → g = f

end Verif.Device
