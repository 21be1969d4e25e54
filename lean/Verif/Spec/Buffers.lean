import Verif.Model.Buffers

/-!
# Balanced use of frame buffers

What the application and the library own is counted here from the history of calls, not from the
counts in the objects.
-/

namespace Verif.Buffers

/-- what is owned -/
structure Gh where
  own : Nat → Nat          -- references to a buffer
  outs : List Nat          -- buffers acquired and not yet released
  poolOwn : Nat            -- references to the pool
  lost : Nat               -- acquired buffers that were given back by nvnc_fb_pool_release

def gh0 : Gh := ⟨fun _ => 0, [], 1, 0⟩

/-- how often a buffer is in use by the library -/
def uses (s : St) (i : Nat) : Nat :=
  (if s.display = some i then 1 else 0) + (if s.cursor = some i then 1 else 0) + s.jobs.count i

def add (f : Nat → Nat) (i : Nat) : Nat → Nat := fun j => if j = i then f j + 1 else f j
def sub (f : Nat → Nat) (i : Nat) : Nat → Nat := fun j => if j = i then f j - 1 else f j

/-- the buffer is not the application's any more once its only use ends -/
def endUse (s : St) (o : Option Nat) (outs : List Nat) : List Nat :=
  match o with
  | none => outs
  | some i => if uses s i = 1 then outs.erase i else outs

/-- what is owned afterwards -/
def ghStep (s : St) (g : Gh) : Op → Gh
  | .newFb _ => { g with own := add g.own s.next }
  | .ref i => { g with own := add g.own i }
  | .unref i => { g with own := sub g.own i }
  | .acquire mem =>
    match s.pool.queue with
    | i :: _ => { g with own := add g.own i, outs := i :: g.outs }
    | [] => if mem then { g with own := add g.own s.next, outs := s.next :: g.outs } else g
  | .poolRef => { g with poolOwn := g.poolOwn + 1 }
  | .poolUnref => { g with poolOwn := g.poolOwn - 1 }
  | .resize _ => g
  | .giveBack i => { g with outs := g.outs.erase i, lost := g.lost + 1 }
  | .feed _ | .closeDisplay => { g with outs := endUse s s.display g.outs }
  | .setCursor _ => { g with outs := endUse s s.cursor g.outs }
  | .startJob _ => g
  | .endJob i => { g with outs := endUse s (some i) g.outs }

/-- a buffer may be put to use instead of `old`: if it is the pool's, it was acquired and will not have
been released -/
def usable (s : St) (g : Gh) (old : Option Nat) (i : Nat) : Bool :=
  0 < g.own i && (!(s.fb i).pooled || (g.outs.contains i && !(old == some i && uses s i == 1)))

/-- balanced use: only what is owned is given back or passed on -/
def legal (s : St) (g : Gh) : Op → Bool
  | .newFb _ => true
  | .ref i | .unref i => 0 < g.own i
  | .acquire _ | .poolRef | .poolUnref | .resize _ => 0 < g.poolOwn
  | .giveBack i => 0 < g.poolOwn && 0 < g.own i && g.outs.contains i && uses s i == 0
  | .feed i => usable s g s.display i
  | .closeDisplay => true
  | .setCursor none => true
  | .setCursor (some i) => usable s g s.cursor i
  | .startJob i => 0 < uses s i || usable s g none i
  | .endJob i => s.jobs.contains i

/-- all the calls are balanced and come to an end -/
def Legal : List Op → St → Gh → Prop
  | [], _, _ => True
  | o :: os, s, g => legal s g o = true ∧ ∀ t, step s o = .ok t → Legal os t (ghStep s g o)

/-- what is owned in the end -/
def ghRun : List Op → St → Gh → Gh
  | [], _, g => g
  | o :: os, s, g =>
    match step s o with
    | .ok t => ghRun os t (ghStep s g o)
    | _ => g

/-- holds minus releases -/
def held (l : List Ev) (i : Nat) : Int := (l.count (.hold i) : Int) - l.count (.release i)

/-- the callback is called right after the release that ends the last hold, and at no other time
(`next` is the event that followed) -/
def callbacks (next : Option Ev) : List Ev → Prop
  | [] => True
  | .release i :: l => (held (.release i :: l) i = 0 ↔ next = some (.released i)) ∧
      callbacks (some (.release i)) l
  | .released i :: l => l.head? = some (.release i) ∧ callbacks (some (.released i)) l
  | e :: l => callbacks (some e) l

/-- owners of a counted buffer: one at first; a call to give back what nobody has is not balanced -/
def rcOwners : List Bool → Nat → Option Nat
  | [], n => some n
  | true :: l, n => if n = 0 then none else rcOwners l (n + 1)
  | false :: l, n => if n = 0 then none else rcOwners l (n - 1)

end Verif.Buffers
