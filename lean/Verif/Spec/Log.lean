import Verif.Model.Log

/-! # Specification vocabulary for logging -/

namespace Verif.Log

/-- white space of the C locale -/
def White (b : UInt8) : Prop := b.toNat ∈ [32, 9, 10, 11, 12, 13]

/-- the bytes for which `isspace` is defined when they are passed as signed char -/
def Plain (b : UInt8) : Prop := b.toNat < 128 ∨ b.toNat = 255

/-- `m` is `t` without the white space around it -/
def Stripped (t m : Bytes) : Prop :=
  ∃ pre post, t = pre ++ m ++ post ∧ (∀ b ∈ pre, White b) ∧ (∀ b ∈ post, White b) ∧
    (∀ b, m.head? = some b → ¬ White b) ∧ (∀ b, m.getLast? = some b → ¬ White b)

/-- the argument of the last operation of a kind -/
def last {α : Type} (f : Op → Option α) : List Op → Option α
  | [] => none
  | o :: os => (last f os).or (f o)

def Op.level? : Op → Option Level
  | .setLevel l => some l
  | _ => none

def Op.fn? : Op → Option (Option Nat)
  | .setFn f => some f
  | _ => none

def Op.threadFn? (t : Nat) : Op → Option (Option Nat)
  | .setThreadFn u f => if t = u then some f else none
  | _ => none

end Verif.Log
