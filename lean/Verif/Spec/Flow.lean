import Verif.Model.Flow

/-!
# What flow control should do
-/

namespace Verif.Flow

/-- operations on an estimator -/
inductive Op where
  | feed (s : Sample)
  | rtt (r : Int)
  deriving Repr, DecidableEq

/-- an estimator's life from its creation -/
def life (b : Bwe) : List Op → Outcome Bwe
  | [] => .ok b
  | .feed s :: os => do
    let b ← feed s b
    life b os
  | .rtt r :: os => life (updateRtt r b) os

/-- the samples fed -/
def samplesOf : List Op → List Sample
  | [] => []
  | .feed s :: os => s :: samplesOf os
  | .rtt _ :: os => samplesOf os

/-- the last 16 of a list -/
def last16 {α} (l : List α) : List α := l.drop (l.length - 16)

/-- what samples say about the bandwidth: bytes by the time they took beyond the round-trip time, when each is
taken alone, and when they are taken together; the larger is the estimate.  The unit is bytes per second. -/
def estimate (rtt : Int) (l : List Sample) : Fl :=
  match l.head?, l.getLast? with
  | some s0, some s1 =>
    let bytes := (l.map Sample.bytes).sum
    (quot bytes (l.map fun s => s.arrival - s.departure - rtt).sum).max (quot bytes (s1.arrival - s0.departure - rtt))
  | _, _ => .val 0 1

/-- times and sizes are such that sums of sixteen of them are `int`s -/
def Tame (rtt : Int) (s : Sample) : Prop :=
  0 ≤ s.bytes ∧ s.bytes < 134217728 ∧ 0 ≤ s.departure ∧ s.departure ≤ s.arrival ∧ s.arrival < 2147483648 ∧
    s.arrival - s.departure - rtt < 134217728 ∧ 0 ≤ s.arrival - s.departure - rtt

/-- the round-trip times measured: `last` is when the server wrote last during the handshake -/
def measured (last : Int) : List Ev → List Int
  | [] => []
  | .handshake t :: es => (cut32 t - last) :: measured (cut32 t) es
  | .ping _ :: es => measured last es
  | .response t dep size _ :: es =>
    if size ≠ 0 ∧ cut32 dep ≤ cut32 t then (cut32 t - cut32 dep) :: measured last es else measured last es

/-- bytes that were sent -/
def sent : List Ev → Nat
  | [] => 0
  | .ping n :: es => n + sent es
  | _ :: es => sent es

/-- bytes that the client has confirmed in time -/
def confirmed : List Ev → Nat
  | [] => 0
  | .response t dep size _ :: es => (if cut32 dep ≤ cut32 t then size else 0) + confirmed es
  | _ :: es => confirmed es

end Verif.Flow
