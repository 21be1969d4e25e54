import Verif.Spec.Messages
import Verif.Spec.Server

/-!
# What a sequence of messages means, and byte streams cut into reads
-/

namespace Verif.Server

/-- the encodings and pseudo-encodings the server knows about; numbers from the protocol registry.
The last two are experimental. -/
def supported (experimental : Bool) : List Int :=
  [0, 1, 2, 5, 7, 15, 16, 50, -239, -223, -308, -258, -261, 0x574d5668, -1063131698, -313, -312] ++
    if experimental then [-1000, -1001] else []

/-- the callbacks a message has to cause -/
def Msg.calls (table : List Nat) : Msg → List Eff
  | .key down _ sym => [.key sym (down != 0)]
  | .pointer mask x y => [.pointer x y mask.toNat]
  | .cutText _ text => [.cutText text]
  | .qemuKey down _ code =>
    match table[code]? with
    | some v => [.keyCode (if v = 0 then code else v) (decide (down ≠ 0))]
    | none => []
  | .fbRequest inc r => [.fbReq (inc != 0) r.x r.y r.w r.h]
  | .setDesktopSize _ w h _ scr =>
    if ∀ d ∈ scr, d.x + d.w ≤ w ∧ d.y + d.h ≤ h then [.layout ⟨w, h, scr⟩] else []
  | _ => []

/-- what a client can set -/
structure Settings where
  pix : PixFmt
  encodings : List Int
  cont : Bool
  contRect : Rect
  deriving DecidableEq, Repr

def Client.settings (c : Client) : Settings := ⟨c.pix, c.encodings, c.cont, c.contRect⟩

/-- how a message changes them; a client asking for a colour map gets 3-3-2 bit colours -/
def Msg.apply (experimental : Bool) : Settings → Msg → Settings
  | g, .setPixelFormat _ f => { g with
      pix := if f.trueColour = 0 then
        { bpp := 8, depth := 8, bigEndian := 0, trueColour := 1, rmax := 7, gmax := 7, bmax := 3,
          rshift := 5, gshift := 2, bshift := 0 } else f }
  | g, .setEncodings _ es =>
    { g with encodings := (es.filter fun e => decide (e ∈ supported experimental)).take 32 }
  | g, .contUpdates on r =>
    { g with cont := on != 0, contRect := if on = 0 then ⟨0, 0, 0, 0⟩ else r }
  | g, _ => g

/-- the callbacks made so far -/
def Eff.isCallback : Eff → Bool
  | .key .. | .keyCode .. | .pointer .. | .fbReq .. | .cutText .. | .layout .. => true
  | _ => false

def callbacks (log : List Eff) : List Eff := log.filter Eff.isCallback

/-- what happens while the bytes `unread` wait in the kernel: the server reads up to `n + 1` of them,
or something else happens -/
inductive Ev where
  | read (n : Nat)
  | other (o : Op)

/-- the bytes that one read can deliver (server.c 1457-1462 and 1957-1960) -/
def room (c : Client) : Nat :=
  match c.cut with
  | none => 4096 - c.buf.length
  | some t => min (t.len - t.data.length) 4096

/-- a byte stream fed to the server in pieces -/
def feed (table : List Nat) : List (Ev × Env) → St → Bytes → Outcome (St × Bytes)
  | [], s, unread => .ok (s, unread)
  | (.read n, env) :: evs, s, unread => do
    let t ← step table (.readable (.data (unread.take (n + 1)))) env [] s
    feed table evs t (unread.drop (min (n + 1) (room s.cl)))
  | (.other o, env) :: evs, s, unread => do
    let t ← step table o env [] s
    feed table evs t unread

/-- events that neither deliver bytes nor end the session -/
def Ev.benign : Ev → Prop
  | .read _ => True
  | .other (.readable _) => False
  | .other .appClose => False
  | .other _ => True

/-- a client in session that has nothing half done -/
structure Calm (s : St) : Prop where
  ready : s.cl.st = .ready
  open_ : s.cl.closed = false
  pending : s.cl.closePending = false
  defer : s.cl.nDefer = 0
  alive : s.cl.freed = false
  blocked : s.cl.blocked = false
  mustBlock : s.cl.mustBlock = false
  cut : s.cl.cut = none
  buf : s.cl.buf = []
  idx : s.cl.idx = 0

/-- messages to which the segmentation theorem applies: not a fence request, and if not a cut text
then not longer than the receive buffer -/
def Msg.Plain (m : Msg) : Prop :=
  m.Fits ∧
  (∀ p flags payload, m = .fence p flags payload → flags < 2147483648) ∧
  ((∀ p text, m ≠ .cutText p text) → m.wire.length ≤ 4096)

/-- no incremental update request while continuous updates are on -/
def NoStall : Bool → List Msg → Prop
  | _, [] => True
  | c, .fbRequest inc _ :: ms => ¬ (inc ≠ 0 ∧ c = true) ∧ NoStall c ms
  | _, .contUpdates on _ :: ms => NoStall (on != 0) ms
  | c, _ :: ms => NoStall c ms

/-- Messages the server always has an answer to at once: none that asks for an update or answers a
fence; no key code outside of the table, no cut text beyond the limit. -/
def Msg.Simple (table : List Nat) : Msg → Prop
  | .qemuKey _ _ code => code < table.length
  | .cutText _ text => text.length ≤ 10000000
  | .setEncodings _ es => es.length ≤ 1023
  | .setDesktopSize .. => True
  | .key .. | .pointer .. | .setPixelFormat .. | .ntp .. => True
  | .fbRequest .. | .contUpdates .. | .fence .. => False

end Verif.Server
