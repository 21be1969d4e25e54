import Verif.Model.Listen

/-! # Specification vocabulary for sockets -/

namespace Verif.Listen

/-- does not take the display or its buffer away -/
def Op.KeepsDisplay : Op → Prop
  | .display d => d = some true
  | _ => True

/-- is not a Unix socket for the plain protocol that can be bound but not be listened on -/
def Op.Tidy : Op → Prop
  | .listenUnix ws _ _ _ _ ok => ws = true ∨ ok = true
  | _ => True

end Verif.Listen
