import Verif.Model.Make

/-!
# What it means that a thing is made cleanly
-/

namespace Verif.Make

/-- A ledger that programs can reach: nothing exists under a name that was not given yet. -/
def World.Sound (w : World) : Prop := ∀ x, w.next ≤ x → w.live x = 0

/-- The calls of these names never fail. -/
def World.Sure (names : List String) (w : World) : Prop :=
  ∀ name ∈ names, ∀ n, w.fine name n = true

/-- `del` can be called for an object that owns `mine` in every later state in which those things are
there, and gives back these and no others. -/
def GivesBack (mine : Nat → Nat) (del : M Unit) : Prop :=
  ∀ v : World, v.Sound → (∀ x, mine x ≤ v.live x) →
    ∃ v', del v = .ok ((), v') ∧ v'.Sound ∧ ∀ x, v'.live x + mine x = v.live x

/-- What `new` makes can be given back with `del`. In every state that has the things `given` that the
object takes over, and whatever calls fail except for those in `sure`: `new` returns; if it returns
nothing then exactly the things are there that were there before; and if it returns an object then that
object owns what there is more (and what it took over), and `del` gives back exactly that, in every
later state. -/
def Clean {α : Type} (sure : List String) (given : Nat → Nat) (new : M (Option α))
    (del : α → M Unit) : Prop :=
  ∀ w : World, w.Sound → w.Sure sure → (∀ x, given x ≤ w.live x) →
    ∃ r w', new w = .ok (r, w') ∧ w'.Sound ∧
      match r with
      | none => ∀ x, w'.live x = w.live x
      | some o => ∃ mine : Nat → Nat, (∀ x, w'.live x + given x = mine x + w.live x) ∧
          GivesBack mine (del o)

/-- `m` leaves the things as they are, whatever it does in between. -/
def Neutral {α : Type} (sure : List String) (m : M α) : Prop :=
  ∀ w : World, w.Sound → w.Sure sure →
    ∃ r w', m w = .ok (r, w') ∧ w'.Sound ∧ ∀ x, w'.live x = w.live x

/-- What can be told of a run: what it returned, and how many of the first `n` things are there. -/
def Tells {α β : Type} (n : Nat) (f : α → β) (r : Outcome (α × World)) : Outcome (β × List Nat) :=
  match r with
  | .ok (a, w) => .ok (f a, (List.range n).map w.live)
  | .ub why => .ub why
  | .abort why => .abort why

/-- An empty ledger in which the calls of these names fail and all others work. -/
def failing (names : List String) : World :=
  { live := nothing, next := 0, fine := fun name _ => !names.contains name, calls := 0 }

/-- `tight_encoder_destroy` as it would be if it looked whether there is a work item. -/
def tightDelChecked (e : Tight) : M Unit := do
  endAll e.workers
  endAll e.zs
  free e.grid
  free e.self

end Verif.Make
