import Verif.Spec.Wire
import Verif.Spec.Screen

/-!
# What a client that only has the bytes makes of them

`Spec/Screen` has an observer in the server, `Spec/Wire` a client that decodes what it is sent.  `dec` is how
the client decodes rectangles of pixels.
-/

namespace Verif.Wire

open Verif.Server

variable {α : Type}

/-- the rectangles of an encoded frame -/
def rectsOf (z : Sizes) (f : Frame) : List RectMsg :=
  match readRects z f.nRects f.payload with
  | some (qs, _) => qs
  | none => []

/-- An encoded frame, when it is decoded and drawn by a client that had the rectangles `past` before in its
encoding `e`, changes a screen like painting the picture `k` in the region `r`. -/
def Draws (z : Sizes) (dec : Decoder α) (e : Int) (past : List RectMsg) (f : Frame) (r : Region) (k : Pic α) : Prop :=
  isPixels e = true ∧ ∃ qs, readRects z f.nRects f.payload = some (qs, []) ∧ (∀ q ∈ qs, q.enc = e) ∧
    ∀ sc : Canvas α, sc.of e = past →
      ∀ px py, (qs.foldl (draw1 dec) sc).pix px py = paint (some (r, k)) sc.pix px py

/-- the encoders: which one is at work, with its encoding, and the rectangles each of them has made -/
structure Makers where
  cur : Option (Int × Nat) := none
  made : Nat → List RectMsg := fun _ => []

def Makers.see (z : Sizes) (m : Makers) : Eff → Makers
  | .encode e j _ _ => { m with cur := some (e, j.id) }
  | .encodeDone f => match m.cur with
    | some (_, i) => { m with made := fun i' => if i' = i then m.made i ++ rectsOf z f else m.made i' }
    | none => m
  | _ => m

def makers (z : Sizes) (l : List Eff) : Makers := l.foldl (Makers.see z) {}

/-- Every frame that comes back from an encoder draws what was handed to it, if the client has decoded what that
encoder made before.  Of the frames of an earlier encoder with the same encoding the client may know what it
likes, but a ZRLE or Tight encoder has to be the first one: its streams go on for the whole connection. -/
def Faith (z : Sizes) (dec : Decoder α) (c : Pic α) : Viewer α → Makers → List Eff → Prop
  | _, _, [] => True
  | v, m, x :: es =>
    (∀ f r k e i before, x = .encodeDone f → v.frame = some (r, k) → m.cur = some (e, i) →
      (e = 16 ∨ e = 7 → before = []) → Draws z dec e (before ++ m.made i) f (r ++ v.wide f) k) ∧
    Faith z dec c (v.see c x) (m.see z x) es

/-- in all of a run -/
def Faithful (z : Sizes) (dec : Decoder α) (table : List Nat) : List ((Op × Env × List Read) × Pic α) → St →
    Viewer α → Prop
  | [], _, _ => True
  | ((o, env, net), c) :: ops, s, v => ∀ s', step table o env net s = .ok s' →
      Faith z dec c v (makers z s.log) (s'.log.drop s.log.length) ∧
      Faithful z dec table ops s' ((s'.log.drop s.log.length).foldl (Viewer.see c) v).settle

end Verif.Wire
