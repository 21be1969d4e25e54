import Verif.Spec.Segmentation

/-!
# The life of a client object, and what a client and an application must not do
-/

namespace Verif.Server

/-- the life of a client object: in use; its end is scheduled; destroyed -/
inductive Phase where
  | live | closing | dead
  deriving DecidableEq, Repr

/-- what an event does to it: a hang-up of the peer schedules the end, which comes when the event loop
is idle; a failing read and the application's call end it at once -/
def Phase.next : Phase → Ev → Phase
  | .live, .other (.readable .closed) => .closing
  | .live, .other (.readable .err) => .dead
  | .live, .other .appClose => .dead
  | .closing, .other .idle => .dead
  | p, _ => p

/-- the phase after a sequence of events -/
def Phase.after (p : Phase) : List (Ev × Env) → Phase
  | [] => p
  | e :: evs => (p.next e.1).after evs

/-- what the client and the application agree on: no buffer that is displayed is smaller than
`w` × `h`, and either the client can be told about new sizes or all frames have the same size -/
structure House where
  w : Nat
  h : Nat
  size : Option (Nat × Nat)

/-- a rectangle that is empty or reaches into every buffer -/
def House.Meets (k : House) (r : Rect) : Prop := r.w = 0 ∨ r.h = 0 ∨ (r.x < k.w ∧ r.y < k.h)

/-- a message of a client that keeps to the protocol and sends no fences: key codes from the table,
cut texts within the limit, not more encodings than fit the buffer, and update requests that reach
into the framebuffer.  If the frames can change their size then the client accepts that. -/
def House.Msg (k : House) (table : List Nat) : Msg → Prop
  | .qemuKey _ _ code => code < table.length
  | .cutText _ text => text.length ≤ 10000000
  | .setEncodings _ es => es.length ≤ 1023 ∧
      match k.size with
      | none => -223 ∈ es.take 32 ∨ -308 ∈ es.take 32   -- DesktopSize, ExtendedDesktopSize
      | some _ => -308 ∉ es
  | .fbRequest inc r => inc = 0 → k.Meets r
  | .fence .. => False
  | .setDesktopSize .. | .contUpdates .. | .key .. | .pointer .. | .setPixelFormat .. | .ntp .. => True

/-- an event other than a read of the client's messages -/
def House.Op (k : House) : Op → Prop
  | .damage r => ∀ q ∈ r, k.Meets q
  | .display (some fb) => k.w ≤ fb.w ∧ k.h ≤ fb.h
  | .encoded f => ∀ w h, k.size = some (w, h) → f.w = w ∧ f.h = h
  | .readable (.data _) => False                        -- see `Ev.read`
  | _ => True

/-- there is memory for the encoders that are kept -/
class Roomy (env : Env) : Prop where
  room : ∀ e, isKept e = true → env.encNew e = true

/-- the application closes a client only while it is in use -/
def House.Evs (k : House) : Phase → List (Ev × Env) → Prop
  | _, [] => True
  | p, (.read n, _) :: evs => k.Evs (p.next (.read n)) evs
  | p, (.other o, _) :: evs =>
    k.Op o ∧ (o = .appClose → p = .live) ∧ k.Evs (p.next (.other o)) evs

/-- a client that is in session in such a house, and owes nothing -/
structure House.Guest (k : House) (s : St) : Prop where
  calm : Calm s
  nonempty : 0 < k.w ∧ 0 < k.h
  net : s.net = []
  fences : s.cl.pfN = 0
  damage : ∀ q ∈ s.cl.damage, k.Meets q
  fb : ∀ fb, s.srv.fb = some fb → k.w ≤ fb.w ∧ k.h ≤ fb.h
  size : match k.size with
    | none => -223 ∈ s.cl.encodings ∨ -308 ∈ s.cl.encodings
    | some (w, h) => s.cl.knownW = w ∧ s.cl.knownH = h ∧ -308 ∉ s.cl.encodings

/-- nothing is read, and nobody closes the client, while its last message is in the send queue -/
def Patient (s : St) (o : Op) : Prop :=
  o ≠ .appClose ∧ ∀ rd, o = .readable rd →
    rd = .again ∨ ∃ d, rd = .data d ∧ s.cl.buf.length < msgBufferSize

/-- a run in which every last message finds its peer there, the application does not close a client
whose stream is closed already, and none is closed while its last message is in the send queue -/
def Careful (table : List Nat) : List (Op × Env × List Read) → St → Prop
  | [], _ => True
  | (o, env, net) :: evs, s =>
    env.lastWrite ≠ .broken ∧
    (o = .appClose → s.cl.freed = false → s.cl.closed = false) ∧
    (s.cl.closePending = true → Patient s o) ∧
    ∀ t, step table o env net s = .ok t → Careful table evs t

end Verif.Server
