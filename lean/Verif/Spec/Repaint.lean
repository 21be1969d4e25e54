import Verif.Spec.Canvas
import Verif.Spec.Changes

/-!
# A client that changes its pixel format, and what it makes of the bytes

`Spec/Canvas` with the parts of `Spec/Changes`: how rectangles are read and decoded depends on the format.
-/

namespace Verif.Repaint

open Verif.Server Verif.Formats Verif.Wire Verif.Changes

variable {α : Type}

/-- the messages of each part, read with the sizes of its format -/
def readParts (sizes : Bytes → Sizes) : List Part → Option (List (Bytes × List SMsg))
  | [] => some []
  | p :: ps =>
    match readMsgs (sizes p.fmt) p.bytes.length p.bytes, readParts sizes ps with
    | some ms, some qs => some ((p.fmt, ms) :: qs)
    | _, _ => none

/-- the client after the messages of these parts; its screen stays when the format changes -/
def repaint (dec : Bytes → Decoder α) (ps : List (Bytes × List SMsg)) : Canvas α :=
  ps.foldl (fun sc p => p.2.foldl (draw (dec p.1)) sc) {}

/-- the encoders: which one is at work, with its encoding and the format it was given, and the rectangles each of them
has made -/
structure Crew where
  cur : Option (Int × Nat × Bytes) := none
  made : Nat → List RectMsg := fun _ => []

def Crew.see (sizes : Bytes → Sizes) (m : Crew) : Eff → Crew
  | .encode e j p _ => { m with cur := some (e, j.id, describe p) }
  | .encodeDone f => match m.cur with
    | some (_, i, g) => { m with made := fun i' => if i' = i then m.made i ++ rectsOf (sizes g) f else m.made i' }
    | none => m
  | _ => m

def crew (sizes : Bytes → Sizes) (l : List Eff) : Crew := l.foldl (Crew.see sizes) {}

/-- Every frame that comes back from an encoder draws what was handed to it, for a client that decodes it in the format
that the encoder was given, if it has decoded what that encoder made before (see `Wire.Faith`). -/
def Faith (sizes : Bytes → Sizes) (dec : Bytes → Decoder α) (c : Pic α) : Viewer α → Crew → List Eff → Prop
  | _, _, [] => True
  | v, m, x :: es =>
    (∀ f r k e i g before, x = .encodeDone f → v.frame = some (r, k) → m.cur = some (e, i, g) →
      (e = 16 ∨ e = 7 → before = []) → Draws (sizes g) (dec g) e (before ++ m.made i) f (r ++ v.wide f) k) ∧
    Faith sizes dec c (v.see c x) (m.see sizes x) es

/-- in all of a run -/
def Faithful (sizes : Bytes → Sizes) (dec : Bytes → Decoder α) (table : List Nat) :
    List ((Op × Env × List Read) × Pic α) → St → Viewer α → Prop
  | [], _, _ => True
  | ((o, env, net), c) :: ops, s, v => ∀ s', step table o env net s = .ok s' →
      Faith sizes dec c v (crew sizes s.log) (s'.log.drop s.log.length) ∧
      Faithful sizes dec table ops s' ((s'.log.drop s.log.length).foldl (Viewer.see c) v).settle

end Verif.Repaint
