import Verif.Model.Vec

/-!
# What byte vectors should do
-/

namespace Verif.Vec

/-- the list that a vector stands for, after a call with this result -/
def specStep : Op → Bool → Bytes → Bytes
  | .reserve .., _, l => l
  | .assign _ b, true, _ => b
  | .assign _ _, false, _ => []
  | .append _ b, true, l => l ++ b
  | .append _ _, false, l => l
  | .appendZero _ n, true, l => l ++ List.replicate n 0
  | .appendZero _ _, false, l => l
  | .clear, _, _ => []
  | .bzero, _, l => List.replicate l.length 0
  | .fast8 x, _, l => l ++ [x]
  | .fast32 a b c d, _, l => l ++ [a, b, c, d]

def specRun : List Op → List Bool → Bytes → Bytes
  | o :: os, r :: rs, l => specRun os rs (specStep o r l)
  | _, _, l => l

/-- the number of bytes an operation adds, or asks room for -/
def Op.size : Op → Nat
  | .reserve _ n => n
  | .assign _ b => b.length
  | .append _ b => b.length
  | .appendZero _ n => n
  | .clear => 0
  | .bzero => 0
  | .fast8 _ => 1
  | .fast32 .. => 4

/-- the operations that need room made before them -/
def Op.fast : Op → Bool
  | .fast8 _ => true
  | .fast32 .. => true
  | _ => false

/-- how far an operation can at most move the end -/
def total (os : List Op) : Nat := (os.map Op.size).sum

/-- allocation never fails in this operation -/
def Op.roomy : Op → Prop
  | .reserve m _ => ∀ n, (m n).isSome
  | .assign m _ => ∀ n, (m n).isSome
  | .append m _ => ∀ n, (m n).isSome
  | .appendZero m _ => ∀ n, (m n).isSome
  | _ => True

end Verif.Vec
