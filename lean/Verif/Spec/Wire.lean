import Verif.Model.Server
import Verif.Spec.Tight

/-!
# What a client reads

A reader of everything a server may send after the handshake: RFC 6143 and, for what is not in it, the
community's rfbproto document and the extensions that the server offers.  A client that does not know
where a message ends cannot read the next one.
-/

namespace Verif.Wire

open Verif.Server (toInt32 Eff Kind)

/-- the first `n` bytes and the rest -/
def takeN (n : Nat) (b : Bytes) : Option (Bytes × Bytes) :=
  if n ≤ b.length then some (b.take n, b.drop n) else none

/-- the sizes of a pixel and of a TPIXEL in the client's format -/
structure Sizes where
  pixel : Nat
  tpixel : Nat
  deriving Repr, DecidableEq

/-- the number of bytes of a rectangle in Tight encoding after its header: fill, JPEG, or basic compression
without a filter (the server uses no filters) -/
def tightSize (tp w h : Nat) : Bytes → Option Nat
  | [] => none
  | c :: b =>
    if c.toNat / 16 = 8 then some (1 + tp)
    else if c.toNat / 16 = 9 ∨ (c.toNat / 16 < 4 ∧ 12 ≤ w * h * tp) then
      match Enc.readCompact b with
      | none => none
      | some (n, r) => some (1 + (b.length - r.length) + n)
    else if c.toNat / 16 < 4 then some (1 + w * h * tp)
    else none

/-- the number of bytes of a rectangle after its header -/
def bodySize (z : Sizes) (w h : Nat) (enc : Int) (b : Bytes) : Option Nat :=
  match enc with
  | 0 => some (w * h * z.pixel)                             -- Raw
  | 7 => tightSize z.tpixel w h b                           -- Tight
  | 16 => (takeN 4 b).map fun q => 4 + beNat q.1            -- ZRLE: length, data
  | 50 => (takeN 4 b).map fun q => 8 + beNat q.1            -- Open H.264: length, flags, data
  | -223 => some 0                                          -- DesktopSize
  | -239 => some (w * h * z.pixel + (w + 7) / 8 * h)        -- Cursor: pixels, mask
  | -258 => some 0                                          -- QEMU extended key event
  | -261 => some 1                                          -- QEMU LED state
  | -308 => (takeN 1 b).map fun q => 4 + 16 * beNat q.1     -- ExtendedDesktopSize: number of screens, screens
  | -1000 => some 8                                         -- PTS
  | -1001 => some 0                                         -- NTP
  | 1464686184 => some 4                                    -- VMware LED state
  | _ => none

/-- a rectangle of a framebuffer update -/
structure RectMsg where
  x : Nat
  y : Nat
  w : Nat
  h : Nat
  enc : Int
  body : Bytes
  deriving Repr, DecidableEq

def readRect (z : Sizes) (b : Bytes) : Option (RectMsg × Bytes) :=
  match takeN 12 b with
  | none => none
  | some (hd, r) =>
    match bodySize z (beNat (hd.drop 4 |>.take 2)) (beNat (hd.drop 6 |>.take 2)) (toInt32 (beNat (hd.drop 8))) r with
    | none => none
    | some n =>
      match takeN n r with
      | none => none
      | some (body, r) => some (⟨beNat (hd.take 2), beNat (hd.drop 2 |>.take 2), beNat (hd.drop 4 |>.take 2),
          beNat (hd.drop 6 |>.take 2), toInt32 (beNat (hd.drop 8)), body⟩, r)

def readRects (z : Sizes) : Nat → Bytes → Option (List RectMsg × Bytes)
  | 0, b => some ([], b)
  | n + 1, b =>
    match readRect z b with
    | none => none
    | some (q, b) =>
      match readRects z n b with
      | none => none
      | some (qs, b) => some (q :: qs, b)

/-- the messages of a server -/
inductive SMsg where
  | update (rects : List RectMsg)                           -- FramebufferUpdate
  | colourMap (first : Nat) (entries : Bytes)               -- SetColourMapEntries
  | cutText (text : Bytes)                                  -- ServerCutText
  | extClip (flags : Nat) (data : Bytes)                    -- extended clipboard
  | endOfCont                                               -- EndOfContinuousUpdates
  | fence (flags : Nat) (payload : Bytes)                   -- ServerFence
  | ntp (times : Bytes)                                     -- NTP
  deriving Repr, DecidableEq

/-- one message -/
def readMsg (z : Sizes) : Bytes → Option (SMsg × Bytes)
  | 0 :: _ :: n1 :: n0 :: r =>
    (readRects z (beNat [n1, n0]) r).map fun q => (.update q.1, q.2)
  | 1 :: _ :: f1 :: f0 :: n1 :: n0 :: r =>
    (takeN (6 * beNat [n1, n0]) r).map fun q => (.colourMap (beNat [f1, f0]) q.1, q.2)
  | 3 :: _ :: _ :: _ :: l3 :: l2 :: l1 :: l0 :: r =>
    if 0 ≤ toInt32 (beNat [l3, l2, l1, l0]) then
      (takeN (beNat [l3, l2, l1, l0]) r).map fun q => (.cutText q.1, q.2)
    else match takeN (-toInt32 (beNat [l3, l2, l1, l0])).toNat r with
      | some (f3 :: f2 :: f1 :: f0 :: d, r) => some (.extClip (beNat [f3, f2, f1, f0]) d, r)
      | _ => none
  | 150 :: r => some (.endOfCont, r)
  | 160 :: _ :: _ :: _ :: r => (takeN 16 r).map fun q => (.ntp q.1, q.2)
  | 248 :: _ :: _ :: _ :: f3 :: f2 :: f1 :: f0 :: n :: r =>
    if 64 < n.toNat then none
    else (takeN n.toNat r).map fun q => (.fence (beNat [f3, f2, f1, f0]) q.1, q.2)
  | _ => none

/-- one message after the other; the number bounds how many -/
def readMsgs (z : Sizes) : Nat → Bytes → Option (List SMsg)
  | _, [] => some []
  | 0, _ :: _ => none
  | n + 1, b =>
    match readMsg z b with
    | none => none
    | some (m, r) =>
      match readMsgs z n r with
      | none => none
      | some ms => some (m :: ms)

/-- ServerInit: size, format (16 bytes), name -/
structure InitMsg where
  w : Nat
  h : Nat
  fmt : Bytes
  name : Bytes
  deriving Repr, DecidableEq

def readInit (b : Bytes) : Option (InitMsg × Bytes) :=
  match takeN 24 b with
  | none => none
  | some (hd, r) =>
    match takeN (beNat (hd.drop 20)) r with
    | none => none
    | some (name, r) => some (⟨beNat (hd.take 2), beNat (hd.drop 2 |>.take 2), hd.drop 4 |>.take 16, name⟩, r)

/-- a whole session: nothing is left over -/
def readSession (z : Sizes) (b : Bytes) : Option (InitMsg × List SMsg) :=
  match readInit b with
  | none => none
  | some (i, r) => (readMsgs z r.length r).map fun ms => (i, ms)

/-- the bytes that were sent -/
def sent : List Eff → Bytes
  | [] => []
  | .send _ _ b :: l => b ++ sent l
  | _ :: l => sent l

/-- what was sent from ServerInit on, if it was sent -/
def session : List Eff → Option Bytes
  | [] => none
  | .send _ .serverInit b :: l => some (b ++ sent l)
  | _ :: l => session l

/-! ## What the client makes of it -/

/-- the encodings of frames: raw, Tight, ZRLE and H.264; every other rectangle is a message -/
def isPixels (enc : Int) : Bool := enc == 0 || enc == 7 || enc == 16 || enc == 50

/-- the pixel is in the rectangle -/
def RectMsg.Has (q : RectMsg) (px py : Nat) : Prop := q.x ≤ px ∧ px < q.x + q.w ∧ q.y ≤ py ∧ py < q.y + q.h

instance (q : RectMsg) (px py : Nat) : Decidable (q.Has px py) := by unfold RectMsg.Has; infer_instance

/-- How a client decodes a rectangle of pixels: the colour of each pixel.  It depends on the rectangles that it
had before in the same encoding, the first one first: ZRLE and Tight rectangles go on with compressed streams,
H.264 ones with a film. -/
abbrev Decoder (α : Type) := List RectMsg → RectMsg → Nat → Nat → α

/-- the client: what it had to decode, and its screen -/
structure Canvas (α : Type) where
  past : List RectMsg := []
  pix : Nat → Nat → Option α := fun _ _ => none

/-- what came before in an encoding -/
def Canvas.of {α : Type} (sc : Canvas α) (enc : Int) : List RectMsg := sc.past.filter (·.enc == enc)

/-- a rectangle: pixels are painted; a new size begins with an empty screen (an
ExtendedDesktopSize rectangle whose first coordinate is 1 answers a request of this client, and one whose
second coordinate is not 0 then says that nothing changed) -/
def draw1 {α : Type} (dec : Decoder α) (sc : Canvas α) (q : RectMsg) : Canvas α :=
  if isPixels q.enc = true then
    { past := sc.past ++ [q]
      pix := fun px py => if q.Has px py then some (dec (sc.of q.enc) q px py) else sc.pix px py }
  else if q.enc = -223 ∨ (q.enc = -308 ∧ ¬ (q.x = 1 ∧ q.y ≠ 0)) then { sc with pix := fun _ _ => none }
  else sc

def draw {α : Type} (dec : Decoder α) (sc : Canvas α) : SMsg → Canvas α
  | .update rects => rects.foldl (draw1 dec) sc
  | _ => sc

/-- the client after these messages -/
def canvas {α : Type} (dec : Decoder α) (ms : List SMsg) : Canvas α := ms.foldl (draw dec) {}

/-! ## What is asked of everybody else -/

/-- What the reader relies on: the encoders write as many rectangles as they say, and a message has room for
them; cursor updates carry one rectangle; clients that ask for the LED state ask for it in QEMU's way;
messages are shorter than 2 GB. -/
structure Readable (z : Sizes) (l : List Eff) : Prop where
  frames : ∀ f, .encodeDone f ∈ l → f.nRects + 2 < 65536 ∧ ∃ qs, readRects z f.nRects f.payload = some (qs, [])
  cursors : ∀ ch b, .send ch .cursor ([0, 0, 0, 1] ++ b) ∈ l → ∃ q, readRect z b = some (q, []) ∧ q.enc = -239
  leds : ∀ es, .encodings es ∈ l → 1464686184 ∈ es → -261 ∈ es
  short : ∀ ch k b, .send ch k b ∈ l → b.length < 2147483648

end Verif.Wire
