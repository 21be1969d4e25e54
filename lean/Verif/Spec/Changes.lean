import Verif.Spec.Formats
import Verif.Spec.Wire

/-!
# Sessions in which the pixel format changes

What a client was sent, cut where the server began to use another pixel format.  Sizes of pixels depend on the format.
-/

namespace Verif.Changes

open Verif.Server Verif.Formats Verif.Wire

/-- what was sent in one format -/
structure Part where
  fmt : Bytes
  bytes : Bytes
deriving DecidableEq, Repr

/-- ServerInit, the parts that are over, and the one that goes on -/
structure Talk where
  init : Bytes
  past : List Part
  now : Part
deriving DecidableEq, Repr

def Talk.parts (t : Talk) : List Part := t.past ++ [t.now]

/-- all bytes of it, in order -/
def Talk.all (t : Talk) : Bytes := t.init ++ t.parts.flatMap Part.bytes

/-- the first part begins after ServerInit, which announces its format; each change of the format begins another -/
def Talk.note : Option Talk → Eff → Option Talk
  | none, .send _ .serverInit b => some ⟨b, [], (b.drop 4).take 16, []⟩
  | none, _ => none
  | some t, .pixFmt f => some { t with past := t.past ++ [t.now], now := ⟨describe f, []⟩ }
  | some t, .send _ _ b => some { t with now := { t.now with bytes := t.now.bytes ++ b } }
  | some t, _ => some t

def talkOf (l : List Eff) : Option Talk := l.foldl Talk.note none

/-- the client reads all of it: ServerInit, and each part with the sizes of its format -/
def Talk.Legible (sizes : Bytes → Sizes) (t : Talk) : Prop :=
  (∃ i, readInit t.init = some (i, []) ∧ (t.parts.head?.map Part.fmt) = some i.fmt) ∧
  ∀ p ∈ t.parts, ∃ ms, readMsgs (sizes p.fmt) p.bytes.length p.bytes = some ms

/-- What is asked of everybody else.  Encoders write rectangles in a format that they were given for
one of their frames; cursors are
made in the format of their time; clients that are told of the LEDs are told in QEMU's way; messages are shorter
than 2 GB. -/
structure Fair (sizes : Bytes → Sizes) (l : List Eff) : Prop where
  frames : ∀ pre f post, l = pre ++ .encodeDone f :: post → f.nRects + 2 < 65536 ∧
    ∃ j ∈ (air pre).fly, ∃ qs, readRects (sizes (describe j.2)) f.nRects f.payload = some (qs, [])
  cursors : ∀ pre ch b post g, l = pre ++ .send ch .cursor ([0, 0, 0, 1] ++ b) :: post → (asked pre).fmt = some g →
    ∃ q, readRect (sizes g) b = some (q, []) ∧ q.enc = -239
  leds : ∀ es, .encodings es ∈ l → 1464686184 ∈ es → -261 ∈ es
  short : ∀ ch k b, .send ch k b ∈ l → b.length < 2147483648

/-- every frame that is sent is in the format of its time -/
def Timely (l : List Eff) : Prop := ∀ pre ch b post, l = pre ++ .send ch .frame b :: post →
  ∀ j ∈ (air pre).done, (asked pre).fmt = some (describe j.2)

end Verif.Changes
