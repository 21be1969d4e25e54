import Verif.Model.Fb

/-! # Specification vocabulary for framebuffers -/

namespace Verif.Fb

/-- maps in one piece, and is not the hardware encoder giving a buffer back -/
def Op.Plain : Op → Prop
  | .check _ => False
  | .commit _ _ => False
  | .dropDevice _ => False
  | _ => True

/-- the byte at which the pixel starts -/
def pixelAt (stride bpp x y : Nat) : Nat := (y * stride + x) * bpp

end Verif.Fb
