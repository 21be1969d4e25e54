import Verif.Model.Server

/-!
# What is on the client's screen

The application's picture is a function from pixels to colours.  The viewer is an observer of what the
server does for its client: when a frame is handed to the encoder, it is a copy of the picture in the
region the frame covers; when the frame comes back it may have more of that copy, as Tight encodes whole tiles
(`wide`); when it is sent, it is painted.  (That the rectangles of an encoded frame
are those of its region and carry the colours of the buffer is the business of the encoders, C41 to C46.)
-/

namespace Verif.Server

instance (r : Region) (px py : Nat) : Decidable (r.Has px py) := by
  unfold Region.Has; exact inferInstance

/-- a picture -/
abbrev Pic (α : Type) := Nat → Nat → α

/-- What a client has on its screen (`none`: not painted yet), the frame that has been handed to the
encoder and is not painted yet, whether the encoder has finished it, and whether a frame was lost:
finished but not sent, or given to the encoder while another one was there.  `wide` is what encoders put into
a frame besides the region they were given. -/
structure Viewer (α : Type) where
  screen : Nat → Nat → Option α := fun _ _ => none
  frame : Option (Region × Pic α) := none
  done : Bool := false
  lost : Bool := false
  wide : Frame → Region := fun _ => []

/-- paint a frame -/
def paint {α} (f : Option (Region × Pic α)) (screen : Nat → Nat → Option α) : Nat → Nat → Option α :=
  fun px py => match f with
    | none => screen px py
    | some (r, c) => if r.Has px py then some (c px py) else screen px py

/-- what the viewer makes of one effect while the application's picture is `c`; a viewer that is told of
a new size starts with an empty screen -/
def Viewer.see {α} (c : Pic α) (v : Viewer α) : Eff → Viewer α
  | .encode _ j _ _ => { v with frame := some (j.dmg, c), lost := v.lost || v.frame.isSome }
  | .encodeDone f => { v with done := true, frame := v.frame.map fun q => (q.1 ++ v.wide f, q.2) }
  | .send _ .resizeRect _ => { v with screen := fun _ _ => none }
  | .send _ .frame _ => { v with screen := paint v.frame v.screen, frame := none, done := false }
  | _ => v

/-- after an event: a finished frame that has not been sent by now never will be -/
def Viewer.settle {α} (v : Viewer α) : Viewer α := { v with lost := v.lost || v.done }

/-- a run of the server under the eyes of a viewer; each event comes with the application's picture at
the end of the event -/
def watch {α} (table : List Nat) : List ((Op × Env × List Read) × Pic α) → St → Viewer α →
    Outcome (St × Viewer α)
  | [], s, v => .ok (s, v)
  | ((o, env, net), c) :: ops, s, v => do
    let s' ← step table o env net s
    watch table ops s' ((s'.log.drop s.log.length).foldl (Viewer.see c) v).settle

/-- the application reports every change of its picture -/
def Honest {α} : Pic α → List ((Op × Env × List Read) × Pic α) → Prop
  | _, [] => True
  | c, ((o, _, _), c') :: ops =>
    (∀ px py, c' px py ≠ c px py → ∃ r, o = .damage r ∧ r.Has px py) ∧ Honest c' ops

/-- the application's picture at the end -/
def final {α} : Pic α → List ((Op × Env × List Read) × Pic α) → Pic α
  | c, [] => c
  | _, (_, c') :: ops => final c' ops

/-- the client has asked for the pixel: it is in a request that is not incremental -/
def Asked (log : List Eff) (px py : Nat) : Prop :=
  ∃ x y w h, .fbReq false x y w h ∈ log ∧ Region.Has [⟨x, y, w, h⟩] px py

/-- the pixel was in every buffer that was encoded and in every frame that came back from an encoder -/
def Fits (log : List Eff) (px py : Nat) : Prop :=
  (∀ e j f q, .encode e j f q ∈ log → px < j.fb.w ∧ py < j.fb.h) ∧
  (∀ f, .encodeDone f ∈ log → px < f.w % 65536 ∧ py < f.h % 65536)

end Verif.Server
