import Verif.Model.Server

/-!
# What framebuffer updates and keyboard LED updates look like
-/

namespace Verif.Server

/-! ## A reader of framebuffer updates

Only the pseudo-rectangles that the server writes itself are understood; the rectangles of an encoder
are the encoder's business (C41-C46). -/

/-- skip what follows the header of a rectangle -/
def skipBody : Int → Bytes → Option Bytes
  | -223, b => some b                       -- DesktopSize: nothing
  | -258, b => some b                       -- QEMU extended key event: nothing
  | -1001, b => some b                      -- NTP: nothing
  | -261, b => match b with                 -- QEMU LED state: one byte
    | _ :: r => some r
    | _ => none
  | 1464686184, b => match b with           -- VMware LED state: four bytes
    | _ :: _ :: _ :: _ :: r => some r
    | _ => none
  | -1000, b => match b with                -- PTS: eight bytes
    | _ :: _ :: _ :: _ :: _ :: _ :: _ :: _ :: r => some r
    | _ => none
  | -308, b => match b with                 -- ExtendedDesktopSize: a count of screens and the screens
    | n :: _ :: _ :: _ :: r => if 16 * n.toNat ≤ r.length then some (r.drop (16 * n.toNat)) else none
    | _ => none
  | _, _ => none

/-- skip one rectangle -/
def skipRect : Bytes → Option Bytes
  | _ :: _ :: _ :: _ :: _ :: _ :: _ :: _ :: e0 :: e1 :: e2 :: e3 :: r =>
    skipBody (toInt32 (beNat [e0, e1, e2, e3])) r
  | _ => none

def skipRects : Nat → Bytes → Option Bytes
  | 0, b => some b
  | n + 1, b => (skipRect b).bind (skipRects n)

/-- skip a whole framebuffer update: as many rectangles as it announces -/
def skipUpdate : Bytes → Option Bytes
  | 0 :: _ :: n1 :: n0 :: r => skipRects (beNat [n1, n0]) r
  | _ => none

/-- the kinds of message that begin with the header of a framebuffer update, or belong to one -/
def Kind.framing : Kind → Bool
  | .extSupport | .cursor | .led | .desktopSize | .updateHead | .resizeRect | .ptsRect | .frame => true
  | _ => false

def Eff.framing : Eff → Bool
  | .send _ k _ => k.framing
  | _ => false

/-- Everything that looks like a framebuffer update is one: what it announces follows it, with
nothing else in between. -/
inductive Framed : List Eff → Prop
  | nil : Framed []
  | other {l e} : Framed l → e.framing = false → Framed (l ++ [e])
  /-- complete updates -/
  | whole {l ch k b} : Framed l → k = .extSupport ∨ k = .desktopSize → skipUpdate b = some [] →
      Framed (l ++ [.send ch k b])
  /-- updates with one rectangle, which is not looked into here -/
  | one {l ch k body} : Framed l → k = .cursor ∨ k = .led →
      Framed (l ++ [.send ch k ([0, 0, 0, 1] ++ body)])
  /-- an encoded frame, with pseudo-rectangles before those of the encoder -/
  | frame {l ch f mid} : Framed l → .encodeDone f ∈ l →
      (∀ e ∈ mid, ∃ k b, (k = .resizeRect ∨ k = .ptsRect) ∧ e = .send ch k b ∧ skipRect b = some []) →
      Framed (l ++ (.send ch .updateHead ([0, 0] ++ be16 (f.nRects + mid.length)) :: mid ++
        [.send ch .frame f.payload]))

/-! ## LED state -/

/-- what is known about the LEDs of a client: the encodings it selected, the state the application
set last, and the state that the client was told last -/
structure Leds where
  encs : List Int
  set : Int
  told : Option Int
  deriving Repr, DecidableEq

def Leds.note (v : Leds) : Eff → Leds
  | .encodings es => { v with encs := es }
  | .ledSet x => { v with set := x }
  | .send _ .led _ => { v with told := some v.set }
  | _ => v

def leds (log : List Eff) : Leds := log.foldl Leds.note ⟨[], 0, none⟩

/-- an LED update is wanted, and has the form that the QEMU extension asks for -/
def LedOk (v : Leds) (b : Bytes) : Prop :=
  (-261 ∈ v.encs ∨ 1464686184 ∈ v.encs) ∧ v.told ≠ some v.set ∧
    (-261 ∈ v.encs → b = [0, 0, 0, 1, 0, 0, 0, 0, 0, 0, 0, 0, 255, 255, 254, 251,
      UInt8.ofNat (v.set % 256).toNat])

def LedsOk (log : List Eff) : Prop :=
  ∀ pre ch b post, log = pre ++ .send ch .led b :: post → LedOk (leds pre) b

end Verif.Server
