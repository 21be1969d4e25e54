import Verif.Model.System
import Verif.Spec.Sizes

/-!
# Cursors that clients draw

A client that names -239 among its encodings draws the cursor itself (RFC 6143, 7.8.1). The application sets its shape.
-/

namespace Verif.Pointers

open Verif.Server Verif.System Verif.Sizes

/-- a cursor is sent -/
def drawn : Eff → Bool
  | .send _ .cursor _ => true
  | _ => false

/-- the application sets the cursor -/
def sets : SysOp → Bool
  | .cursor _ => true
  | _ => false

/-- A cursor comes after the record `a`, to a client that wants it, as an update of one rectangle. -/
def Wanted (a : List Eff) (b : Bytes) : Prop := -239 ∈ (view a).encs ∧ ∃ r, b = [0, 0, 0, 1] ++ r

end Verif.Pointers
