import Verif.Model.Displays

/-!
# What the application may do with framebuffers, displays and the server

The application keeps count of the references that it has.  It may use what it has a reference to.  That is all that
the interface asks of it (include/neatvnc.h); `Careful` is what it has to do on top of that.
-/

namespace Verif.Displays

/-- the library and the books of the application; `lent` counts what encoders have, `set` is what the application
has attached to a framebuffer last, `turned` are the framebuffers that were fed with a transform, and to which display -/
structure Sess where
  st : St := {}
  own : Nat → Nat := fun _ => 0
  downs : Nat → Nat := fun _ => 0
  lent : Nat → Nat := fun _ => 0
  set : Nat → Option Nat := fun _ => Option.none
  turned : List (Nat × Nat) := []

def bump (f : Nat → Nat) (i : Nat) : Nat → Nat := fun j => if j = i then f j + 1 else f j

def sink (f : Nat → Nat) (i : Nat) : Nat → Nat := fun j => if j = i then f j - 1 else f j

/-- the books after a call -/
def book (o : Op) (x : Sess) : Sess :=
  match o with
  | .newFb => { x with own := bump x.own x.st.fbs }
  | .ref i => { x with own := bump x.own i }
  | .unref i => { x with own := sink x.own i }
  | .setUser i n => { x with set := fun j => if j = i then n else x.set j }
  | .newDisp => { x with downs := bump x.downs x.st.disps }
  | .dref d => { x with downs := bump x.downs d }
  | .dunref d => { x with downs := sink x.downs d }
  | .feed d i true _ => { x with turned := (d, i) :: x.turned }
  | .lend d => match (x.st.disp d).shown with
    | Option.none => x
    | some i => { x with lent := bump x.lent i }
  | .back i => { x with lent := sink x.lent i }
  | _ => x

def act (o : Op) (x : Sess) : Outcome Sess := do
  let t ← step o x.st
  .ok { book o x with st := t }

/-- the application uses what it has; one display at a time belongs to the server, and only a display that was added
to a server is fed.  An encoder takes what the server's display shows, and gives back what it took. -/
def Legal (o : Op) (x : Sess) : Prop :=
  match o with
  | .newFb | .newDisp | .finish _ => True
  | .ref i | .unref i | .setUser i _ => 0 < x.own i
  | .dref d | .dunref d => 0 < x.downs d
  | .add d => 0 < x.downs d ∧ x.st.server = true ∧ x.st.current = Option.none
  | .remove _ | .del => x.st.server = true
  | .feed d i _ _ => 0 < x.downs d ∧ 0 < x.own i ∧ (x.st.disp d).server = true
  | .lend d => x.st.current = some d
  | .back i => 0 < x.lent i

instance (o : Op) (x : Sess) : Decidable (Legal o x) := by unfold Legal; split <;> infer_instance

/-- what the library relies on without saying so: nothing is fed after the server is gone; when a display goes, no
job is under way for it and the framebuffers that were fed to it with a transform are gone already; when the server
goes, no job is under way. -/
structure Careful (o : Op) (x y : Sess) : Prop where
  feeds : ∀ d i t r, o = .feed d i t r → x.st.server = true
  jobs : ∀ d, (x.st.disp d).live = true → (y.st.disp d).live = false → ∀ j ∈ y.st.jobs, j.disp ≠ d
  fbs : ∀ d, (x.st.disp d).live = true → (y.st.disp d).live = false → ∀ i, (d, i) ∈ y.turned →
    (y.st.fb i).live = false
  server : x.st.server = true → y.st.server = false → y.st.jobs = []

/-- a history of an application that keeps to the interface -/
inductive Plays : Sess → Prop
  | start : Plays {}
  | next {x y : Sess} (o : Op) : Plays x → Legal o x → act o x = .ok y → Plays y

/-- and is careful -/
inductive Reach : Sess → Prop
  | start : Reach {}
  | next {x y : Sess} (o : Op) : Reach x → Legal o x → act o x = .ok y → Careful o x y → Reach y

/-- and attaches nothing to a framebuffer that was fed with a transform -/
inductive Neat : Sess → Prop
  | start : Neat {}
  | next {x y : Sess} (o : Op) : Neat x → Legal o x → act o x = .ok y → Careful o x y →
      (∀ i n, o = .setUser i n → ∀ d, (d, i) ∉ x.turned) → Neat y

/-- nobody has anything any more, and no job is under way -/
structure Over (x : Sess) : Prop where
  own : ∀ i, x.own i = 0
  downs : ∀ d, x.downs d = 0
  lent : ∀ i, x.lent i = 0
  current : x.st.current = Option.none
  jobs : x.st.jobs = []

end Verif.Displays
