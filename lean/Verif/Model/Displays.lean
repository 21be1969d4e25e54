import Verif.Basic

/-!
# Who outlives whom: displays, their resamplers, framebuffers, the server

src/display.c, the lists and jobs of src/resampler.c, nvnc_add_display, nvnc_remove_display, nvnc_del,
nvnc_set_userdata and nvnc_get_userdata in src/server.c, and nvnc_fb_ref and nvnc_fb_unref in src/fb.c.  The
application creates any number of framebuffers and displays; there is one server.  A resampler and a display are one
object here: the resampler is made in nvnc_display_new and freed in nvnc__display_free.

Left out: what is in a framebuffer (Model/Display.lean), holds and pools (Model/Buffers.lean; the buffers that the
resampler draws into come from its own pool and never get user data, so that freeing them runs no clean-up), and
clients, which are only seen by the references that they take to the framebuffer that is shown.  Reference counts do
not overflow.  An object is named by the order of its creation and names are not used again.
-/

namespace Verif.Displays

/-- `common.userdata` of a framebuffer, with its `cleanup_fn` -/
inductive User where
  | none
  | app (n : Nat)        -- what the application has set
  | side (k : Nat)       -- a struct fb_side_data of a resampler, resampler.c 30-33
  deriving Repr, DecidableEq

/-- struct nvnc_fb, include/fb.h 29-50 -/
structure Fb where
  live : Bool := false
  ref : Nat := 0
  user : User := .none
  deriving Repr, DecidableEq

/-- struct nvnc_display, include/display.h 29-36, and its struct resampler, resampler.c 37-40.  `shown` is
`buffer` if that is a framebuffer of the application.  `chain` is `fb_side_data_list`; the records stay linked to each
other when the head has been freed. -/
structure Disp where
  live : Bool := false
  ref : Nat := 0
  server : Bool := false
  shown : Option Nat := Option.none
  chain : List Nat := []
  deriving Repr, DecidableEq

/-- struct resampler_work, resampler.c 42-48: the display is its `userdata` -/
structure Job where
  disp : Nat
  src : Nat
  deriving Repr, DecidableEq

/-- what the application notices -/
inductive Ev where
  | freed (i : Nat)              -- a framebuffer is freed
  | cleanup (n : Nat)            -- the application's clean-up function is called
  | gone (d : Nat)               -- a display is freed
  deriving Repr, DecidableEq

structure St where
  fb : Nat → Fb := fun _ => {}
  fbs : Nat := 0                 -- number of framebuffers created
  disp : Nat → Disp := fun _ => {}
  disps : Nat := 0               -- number of displays created
  home : Nat → Nat := fun _ => 0 -- the display in whose list a record was put
  held : Nat → Bool := fun _ => false  -- the memory of the record has not been freed
  sides : Nat := 0
  server : Bool := true
  current : Option Nat := Option.none  -- server->display
  jobs : List Job := []          -- jobs of resamplers under way
  log : List Ev := []            -- newest first

def St.setFb (s : St) (i : Nat) (f : Fb) : St := { s with fb := fun j => if j = i then f else s.fb j }

def St.setDisp (s : St) (d : Nat) (p : Disp) : St := { s with disp := fun e => if e = d then p else s.disp e }

def St.say (s : St) (e : Ev) : St := { s with log := e :: s.log }

/-- fb_side_data_destroy, resampler.c 50-56.  LIST_REMOVE writes to the predecessor, which is the head of the list, a
member of struct resampler, for the first record. -/
def dropSide (k : Nat) (s : St) : Outcome St :=
  let d := s.home k
  if s.held k = false then .ub "record used after it was freed"
  else if (s.disp d).chain.head? = some k ∧ (s.disp d).live = false then .ub "list head of a freed resampler"
  else .ok { s.setDisp d { s.disp d with chain := (s.disp d).chain.erase k } with
    held := fun j => if j = k then false else s.held j }

/-- nvnc__fb_free, fb.c 172-197: the clean-up function first -/
def freeFb (i : Nat) (s : St) : Outcome St := do
  let t ← match (s.fb i).user with
    | .none => .ok s
    | .app n => .ok (s.say (.cleanup n))
    | .side k => dropSide k s
  .ok ((t.setFb i { t.fb i with live := false, ref := 0 }).say (.freed i))

/-- nvnc_fb_ref, fb.c 199-203 -/
def refFb (i : Nat) (s : St) : Outcome St :=
  if (s.fb i).live then .ok (s.setFb i { s.fb i with ref := (s.fb i).ref + 1 })
  else .ub "framebuffer used after it was freed"

/-- nvnc_fb_unref, fb.c 205-210 -/
def unrefFb (i : Nat) (s : St) : Outcome St :=
  if (s.fb i).live = false then .ub "framebuffer used after it was freed"
  else if (s.fb i).ref = 1 then freeFb i s
  else .ok (s.setFb i { s.fb i with ref := (s.fb i).ref - 1 })

/-- giving back `self->buffer`, display.c 38-41 and 83-86 -/
def dropShown (d : Nat) (s : St) : Outcome St :=
  match (s.disp d).shown with
  | Option.none => .ok s
  | some i => do
    let t ← unrefFb i s
    .ok (t.setDisp d { t.disp d with shown := Option.none })

/-- nvnc__display_free, display.c 81-90, with resampler_destroy, resampler.c 98-102 -/
def freeDisp (d : Nat) (s : St) : Outcome St := do
  let t ← dropShown d s
  .ok ((t.setDisp d { t.disp d with live := false, ref := 0 }).say (.gone d))

/-- nvnc_display_ref, display.c 92-96 -/
def refDisp (d : Nat) (s : St) : Outcome St :=
  if (s.disp d).live then .ok (s.setDisp d { s.disp d with ref := (s.disp d).ref + 1 })
  else .ub "display used after it was freed"

/-- nvnc_display_unref, display.c 98-103 -/
def unrefDisp (d : Nat) (s : St) : Outcome St :=
  if (s.disp d).live = false then .ub "display used after it was freed"
  else if (s.disp d).ref = 1 then freeDisp d s
  else .ok (s.setDisp d { s.disp d with ref := (s.disp d).ref - 1 })

/-- nvnc_display__on_resampler_done, display.c 31-51; `i` is `none` for a buffer of the resampler.
nvnc__damage_region, server.c 2625-2636, reads the server. -/
def onDone (d : Nat) (i : Option Nat) (s : St) : Outcome St :=
  if (s.disp d).live = false then .ub "display used after it was freed"
  else do
    let s ← dropShown d s
    let s := s.setDisp d { s.disp d with shown := i }
    let s ← match i with
      | Option.none => .ok s
      | some i => refFb i s
    if (s.disp d).server = false then .abort "assert(self->server)"
    else if s.server = false then .ub "server used after it was freed"
    else .ok s

/-- how far resampler_feed gets: not to line 202, not past line 206, not past line 234, or to the end -/
inductive Room where
  | noJob | noRecord | noStart | enough
  deriving Repr, DecidableEq

/-- resampler.c 202-214: a record is attached to the framebuffer that is fed unless something is attached -/
def attach (d i : Nat) (s : St) : St :=
  match (s.fb i).user with
  | .none =>
    { (s.setFb i { s.fb i with user := .side s.sides }).setDisp d
        { s.disp d with chain := s.sides :: (s.disp d).chain } with
      home := fun j => if j = s.sides then d else s.home j
      held := fun j => if j = s.sides then true else s.held j
      sides := s.sides + 1 }
  | _ => s

/-- nvnc_display_feed_buffer, display.c 112-146, with resampler_feed, resampler.c 170-243; `turned` is whether the
framebuffer has a transform.  nvnc_fb_ref and nvnc_fb_unref of a job that cannot be started cancel out: the caller
has a reference. -/
def feed (d i : Nat) (turned : Bool) (room : Room) (s : St) : Outcome St :=
  if (s.disp d).live = false then .ub "display used after it was freed"
  else if (s.fb i).live = false then .ub "framebuffer used after it was freed"
  else if (s.disp d).server = false then .abort "assert(server)"
  else if s.server = false then .ub "server used after it was freed"
  else if turned = false then onDone d (some i) s
  else
    match room with
    | .noJob => .ok s
    | .noRecord => match (s.fb i).user with
      | .none => .ok s
      | _ => do
        let s ← refFb i s
        .ok { s with jobs := s.jobs ++ [⟨d, i⟩] }
    | .noStart => .ok (attach d i s)
    | .enough => do
      let s ← refFb i (attach d i s)
      .ok { s with jobs := s.jobs ++ [⟨d, i⟩] }

/-- a job is finished: on_work_done, resampler.c 162-168, and resampler_work_free, resampler.c 67-79 -/
def finish (n : Nat) (s : St) : Outcome St :=
  match s.jobs[n]? with
  | Option.none => .ok s
  | some j => do
    let s ← onDone j.disp Option.none { s with jobs := s.jobs.eraseIdx n }
    unrefFb j.src s

/-- what the application calls and what happens inside -/
inductive Op where
  | newFb                               -- nvnc_fb_new, nvnc_fb_from_buffer
  | ref (i : Nat)                       -- nvnc_fb_ref
  | unref (i : Nat)                     -- nvnc_fb_unref
  | setUser (i : Nat) (n : Option Nat)  -- nvnc_set_userdata on a framebuffer, server.c 2638-2644
  | newDisp                             -- nvnc_display_new
  | dref (d : Nat)                      -- nvnc_display_ref
  | dunref (d : Nat)                    -- nvnc_display_unref
  | add (d : Nat)                       -- nvnc_add_display
  | remove (d : Nat)                    -- nvnc_remove_display
  | del                                 -- nvnc_del
  | feed (d i : Nat) (turned : Bool) (room : Room)
  | finish (n : Nat)                    -- a job of a resampler is finished
  | lend (d : Nat)                      -- an encoder begins with what display d shows
  | back (i : Nat)                      -- and gives it back
  deriving Repr, DecidableEq

def step (o : Op) (s : St) : Outcome St :=
  match o with
  | .newFb => .ok { s.setFb s.fbs { live := true, ref := 1 } with fbs := s.fbs + 1 }
  | .ref i => refFb i s
  | .unref i => unrefFb i s
  | .setUser i n =>
    if (s.fb i).live = false then .ub "framebuffer used after it was freed"
    else .ok (s.setFb i { s.fb i with user := match n with | Option.none => .none | some n => .app n })
  | .newDisp => .ok { s.setDisp s.disps { live := true, ref := 1 } with disps := s.disps + 1 }
  | .dref d => refDisp d s
  | .dunref d => unrefDisp d s
  | .add d =>
    -- server.c 2701-2711
    if s.server = false then .ub "server used after it was freed"
    else if s.current ≠ Option.none then .abort "Multiple displays are not implemented"
    else if (s.disp d).live = false then .ub "display used after it was freed"
    else refDisp d { s.setDisp d { s.disp d with server := true } with current := some d }
  | .remove d =>
    -- server.c 2713-2721
    if s.server = false then .ub "server used after it was freed"
    else if s.current ≠ some d then .ok s
    else do
      let s ← unrefDisp d s
      .ok { s with current := Option.none }
  | .del =>
    -- server.c 2366-2367 and 2415
    if s.server = false then .ub "server used after it was freed"
    else do
      let s ← match s.current with
        | Option.none => .ok s
        | some d => unrefDisp d s
      .ok { s with current := Option.none, server := false }
  | .feed d i turned room => feed d i turned room s
  | .finish n => finish n s
  | .lend d =>
    match (s.disp d).shown with
    | Option.none => .ok s
    | some i => refFb i s
  | .back i => unrefFb i s

def run : List Op → St → Outcome St
  | [], s => .ok s
  | o :: os, s => do run os (← step o s)

end Verif.Displays
