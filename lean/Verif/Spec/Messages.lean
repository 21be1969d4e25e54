import Verif.Model.Server

/-!
# The messages of a client, as the RFB protocol lays them out

`Msg.wire` follows the protocol documents (RFC 6143 section 7.5 and the community extensions), not
the parser.
-/

namespace Verif.Server

/-- a two's complement 32-bit number on the wire -/
def wire32 (i : Int) : Bytes := be32 (i % 4294967296).toNat

/-- a screen of a SetDesktopSize message -/
def Screen.wire (s : Screen) (flags : Nat) : Bytes :=
  be32 s.id ++ be16 s.x ++ be16 s.y ++ be16 s.w ++ be16 s.h ++ be32 flags

/-- the values of the fields fit the message -/
def Screen.Fits (s : Screen) : Prop :=
  s.id < 4294967296 ∧ s.x < 65536 ∧ s.y < 65536 ∧ s.w < 65536 ∧ s.h < 65536

def Rect.Fits (r : Rect) : Prop := r.x < 65536 ∧ r.y < 65536 ∧ r.w < 65536 ∧ r.h < 65536

def PixFmt.Fits (f : PixFmt) : Prop :=
  f.bpp < 256 ∧ f.depth < 256 ∧ f.bigEndian < 256 ∧ f.trueColour < 256 ∧ f.rmax < 65536 ∧
  f.gmax < 65536 ∧ f.bmax < 65536 ∧ f.rshift < 256 ∧ f.gshift < 256 ∧ f.bshift < 256

/-- Client-to-server messages of an established session.  `pad` stands for padding bytes, which the
server has to ignore; flags are bytes of which any nonzero value counts as set. -/
inductive Msg where
  | setPixelFormat (pad : UInt8) (f : PixFmt)
  | setEncodings (pad : UInt8) (es : List Int)
  | fbRequest (inc : UInt8) (r : Rect)
  | key (down : UInt8) (pad : UInt8) (sym : Nat)
  | pointer (mask : UInt8) (x y : Nat)
  | cutText (pad : UInt8) (text : Bytes)
  | contUpdates (on : UInt8) (r : Rect)
  | qemuKey (down : Nat) (sym code : Nat)
  | setDesktopSize (pad : UInt8) (w h : Nat) (flags : Nat) (screens : List Screen)
  | ntp (t0 t1 t2 t3 : Nat) (pad : UInt8)
  | fence (pad : UInt8) (flags : Nat) (payload : Bytes)
  deriving Repr

def Msg.wire : Msg → Bytes
  | .setPixelFormat p f =>
    [0, p, p, p] ++ [UInt8.ofNat f.bpp, UInt8.ofNat f.depth, UInt8.ofNat f.bigEndian,
      UInt8.ofNat f.trueColour] ++ be16 f.rmax ++ be16 f.gmax ++ be16 f.bmax ++
      [UInt8.ofNat f.rshift, UInt8.ofNat f.gshift, UInt8.ofNat f.bshift, p, p, p]
  | .setEncodings p es => [2, p] ++ be16 es.length ++ es.flatMap wire32
  | .fbRequest inc r => [3, inc] ++ be16 r.x ++ be16 r.y ++ be16 r.w ++ be16 r.h
  | .key down p sym => [4, down, p, p] ++ be32 sym
  | .pointer mask x y => [5, mask] ++ be16 x ++ be16 y
  | .cutText p text => [6, p, p, p] ++ be32 text.length ++ text
  | .contUpdates on r => [150, on] ++ be16 r.x ++ be16 r.y ++ be16 r.w ++ be16 r.h
  | .qemuKey down sym code => [255, 0] ++ be16 down ++ be32 sym ++ be32 code
  | .setDesktopSize p w h flags scr =>
    [251, p] ++ be16 w ++ be16 h ++ [UInt8.ofNat scr.length, p] ++ scr.flatMap (·.wire flags)
  | .ntp t0 t1 t2 t3 p => [160, p, p, p] ++ be32 t0 ++ be32 t1 ++ be32 t2 ++ be32 t3
  | .fence p flags payload =>
    [248, p, p, p] ++ be32 flags ++ [UInt8.ofNat payload.length] ++ payload

/-- the values of the fields fit the message -/
def Msg.Fits : Msg → Prop
  | .setPixelFormat _ f => f.Fits
  | .setEncodings _ es => es.length < 65536 ∧ ∀ e ∈ es, -2147483648 ≤ e ∧ e < 2147483648
  | .fbRequest _ r => r.Fits
  | .key _ _ sym => sym < 4294967296
  | .pointer _ x y => x < 65536 ∧ y < 65536
  | .cutText _ text => text.length < 2147483648
  | .contUpdates _ r => r.Fits
  | .qemuKey down sym code => down < 65536 ∧ sym < 4294967296 ∧ code < 4294967296
  | .setDesktopSize _ w h _ scr =>
    w < 65536 ∧ h < 65536 ∧ scr.length < 256 ∧ ∀ s ∈ scr, s.Fits
  | .ntp t0 t1 t2 t3 _ => t0 < 4294967296 ∧ t1 < 4294967296 ∧ t2 < 4294967296 ∧ t3 < 4294967296
  | .fence _ flags payload => flags < 4294967296 ∧ payload.length ≤ 64

end Verif.Server
