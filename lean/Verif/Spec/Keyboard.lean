import Verif.Basic

/-! # Specification vocabulary for keyboards -/

namespace Verif.Keyboard

/-- A key of a PC keyboard: the scan code of set 1 that it sends, whether that follows a 0xe0, and the code that Linux has
for the key (input-event-codes.h) -/
structure Key where
  scan : Nat
  extended : Bool
  linux : Nat
  deriving DecidableEq, Repr

/-- the code of the QEMU extended key event: the scan code, with the highest bit set if a 0xe0 precedes it -/
def Key.qnum (k : Key) : Nat := if k.extended then k.scan + 128 else k.scan

/-- the keys that every keyboard had before there were extended ones: escape, the number row, the letters, punctuation,
modifiers, F1 to F10, the keypad.  Linux numbers them like the scan codes. -/
def original : List Key := (List.range 83).map fun i => ⟨i + 1, false, i + 1⟩

/-- the other keys of keyboards with 101 to 105 keys -/
def later : List Key := [
  ⟨0x56, false, 86⟩,   -- KEY_102ND
  ⟨0x57, false, 87⟩,   -- KEY_F11
  ⟨0x58, false, 88⟩,   -- KEY_F12
  ⟨0x1c, true, 96⟩,    -- KEY_KPENTER
  ⟨0x1d, true, 97⟩,    -- KEY_RIGHTCTRL
  ⟨0x35, true, 98⟩,    -- KEY_KPSLASH
  ⟨0x37, true, 99⟩,    -- KEY_SYSRQ
  ⟨0x38, true, 100⟩,   -- KEY_RIGHTALT
  ⟨0x46, true, 119⟩,   -- KEY_PAUSE, as with the control key
  ⟨0x47, true, 102⟩,   -- KEY_HOME
  ⟨0x48, true, 103⟩,   -- KEY_UP
  ⟨0x49, true, 104⟩,   -- KEY_PAGEUP
  ⟨0x4b, true, 105⟩,   -- KEY_LEFT
  ⟨0x4d, true, 106⟩,   -- KEY_RIGHT
  ⟨0x4f, true, 107⟩,   -- KEY_END
  ⟨0x50, true, 108⟩,   -- KEY_DOWN
  ⟨0x51, true, 109⟩,   -- KEY_PAGEDOWN
  ⟨0x52, true, 110⟩,   -- KEY_INSERT
  ⟨0x53, true, 111⟩,   -- KEY_DELETE
  ⟨0x5b, true, 125⟩,   -- KEY_LEFTMETA
  ⟨0x5c, true, 126⟩,   -- KEY_RIGHTMETA
  ⟨0x5d, true, 127⟩]   -- KEY_COMPOSE

/-- a keyboard with 105 keys -/
def pc105 : List Key := original ++ later

end Verif.Keyboard
