import Verif.Basic

/-!
# Reference counts, holds and the pool of frame buffers

src/rcbuf.c, src/fb.c (nvnc_fb_ref, nvnc_fb_unref, nvnc_fb_hold, nvnc_fb_release), src/fb_pool.c and
the places that keep frame buffers: the display (src/display.c 31-45, 81-90), the cursor
(src/server.c 2899-2912) and the jobs of encoders and of the resampler, which all take a reference
and a hold together and give them back together (src/enc/raw.c 210-211 and 243-244, src/enc/zrle.c
383-384 and 459-460, src/enc/tight.c 449-450 and 612-613, src/resampler.c 71-72 and 219-220).

There is one pool: pools do not share buffers.  Buffers are numbered in the order of their
creation and numbers are not used again.  Using a buffer or a pool that was freed is undefined
behaviour.  The counts do not overflow.  Buffers are in main memory, so that `nvnc_fb_unmap` does
nothing.  `calloc` of a queue item succeeds (fb_pool.c 170 asserts it); the allocation of a buffer may
fail.
-/

namespace Verif.Buffers

/-- what nvnc_fb_pool_release compares, fb_pool.c 161-163 -/
structure Dims where
  width : Nat
  height : Nat
  format : Nat
  stride : Nat
  deriving Repr, DecidableEq

/-- struct nvnc_fb, include/fb.h 29-50; `pooled`: `on_release` is the pool's -/
structure Fb where
  live : Bool
  ref : Int
  hold : Int
  dims : Dims
  pooled : Bool
  deriving Repr, DecidableEq

/-- struct nvnc_fb_pool, fb_pool.c 34-45 -/
structure Pool where
  live : Bool
  ref : Int
  queue : List Nat
  dims : Dims
  deriving Repr, DecidableEq

/-- what happens -/
inductive Ev where
  | hold (i : Nat)
  | release (i : Nat)
  | released (i : Nat)      -- the buffer's on_release is called
  | freed (i : Nat)
  | poolFreed
  deriving Repr, DecidableEq

structure St where
  fb : Nat → Fb
  next : Nat                 -- number of the next buffer
  pool : Pool
  display : Option Nat       -- display->buffer
  cursor : Option Nat        -- server->cursor.buffer
  jobs : List Nat            -- the buffers of running jobs
  log : List Ev              -- newest first

def noFb : Fb := ⟨false, 0, 0, ⟨0, 0, 0, 0⟩, false⟩

/-- nvnc_fb_pool_new, fb_pool.c 48-65, and no buffers -/
def start (d : Dims) : St :=
  ⟨fun _ => noFb, 0, ⟨true, 1, [], d⟩, none, none, [], []⟩

def St.setFb (s : St) (i : Nat) (f : Fb) : St :=
  { s with fb := fun j => if j = i then f else s.fb j }

def St.say (s : St) (e : Ev) : St := { s with log := e :: s.log }

/-- nvnc_fb_new, fb.c 36-65, and nvnc_fb_from_buffer, fb.c 67-86 -/
def fbNew (d : Dims) (pooled : Bool) (s : St) : St :=
  { s.setFb s.next ⟨true, 1, 0, d, pooled⟩ with next := s.next + 1 }

/-- nvnc_fb_ref, fb.c 199-203 -/
def fbRef (i : Nat) (s : St) : Outcome St :=
  if (s.fb i).live then .ok (s.setFb i { s.fb i with ref := (s.fb i).ref + 1 })
  else .ub "buffer used after it was freed"

/-- nvnc_fb_unref, fb.c 205-210, with nvnc__fb_free, fb.c 172-197 -/
def fbUnref (i : Nat) (s : St) : Outcome St :=
  if (s.fb i).live then
    if (s.fb i).ref - 1 = 0 then
      .ok ((s.setFb i { s.fb i with ref := (s.fb i).ref - 1, live := false }).say (.freed i))
    else .ok (s.setFb i { s.fb i with ref := (s.fb i).ref - 1 })
  else .ub "buffer used after it was freed"

/-- nvnc_fb_hold, fb.c 231-234 -/
def fbHold (i : Nat) (s : St) : Outcome St :=
  if (s.fb i).live then
    .ok ((s.setFb i { s.fb i with hold := (s.fb i).hold + 1 }).say (.hold i))
  else .ub "buffer used after it was freed"

/-- nvnc_fb_pool__destroy_fbs, fb_pool.c 67-75 -/
def unrefAll : List Nat → St → Outcome St
  | [], s => .ok s
  | i :: q, s => do unrefAll q (← fbUnref i s)

def destroyFbs (s : St) : Outcome St :=
  unrefAll s.pool.queue { s with pool := { s.pool with queue := [] } }

/-- nvnc_fb_pool_ref, fb_pool.c 102-106 -/
def poolRef (s : St) : Outcome St :=
  if s.pool.live then .ok { s with pool := { s.pool with ref := s.pool.ref + 1 } }
  else .ub "pool used after it was freed"

/-- nvnc_fb_pool_unref, fb_pool.c 108-113, with nvnc_fb_pool__destroy, fb_pool.c 77-81 -/
def poolUnref (s : St) : Outcome St :=
  if s.pool.live then
    if s.pool.ref - 1 = 0 then do
      let s ← destroyFbs { s with pool := { s.pool with ref := s.pool.ref - 1 } }
      .ok ({ s with pool := { s.pool with live := false } }.say .poolFreed)
    else .ok { s with pool := { s.pool with ref := s.pool.ref - 1 } }
  else .ub "pool used after it was freed"

/-- nvnc_fb_pool_resize, fb_pool.c 83-100 -/
def poolResize (d : Dims) (s : St) : Outcome St :=
  if s.pool.live then
    if d = s.pool.dims then .ok s
    else do
      let s ← destroyFbs s
      .ok { s with pool := { s.pool with dims := d } }
  else .ub "pool used after it was freed"

/-- nvnc_fb_pool_release, fb_pool.c 158-173 -/
def poolRelease (i : Nat) (s : St) : Outcome St :=
  if s.pool.live = false then .ub "pool used after it was freed"
  else if (s.fb i).live = false then .ub "buffer used after it was freed"
  else if (s.fb i).dims ≠ s.pool.dims then .ok s
  else do
    let s ← fbRef i s
    .ok { s with pool := { s.pool with queue := s.pool.queue ++ [i] } }

/-- nvnc_fb_pool_acquire, fb_pool.c 123-156; `mem`: a buffer can be allocated.  The result is NULL
(`none`) if not. -/
def acquire (mem : Bool) (s : St) : Outcome (St × Option Nat) :=
  match s.pool.queue with
  | [] =>
    if s.pool.live = false then .ub "pool used after it was freed"
    else if mem then do
      let t ← poolRef (fbNew s.pool.dims true s)
      .ok (t, some s.next)
    else .ok (s, none)
  | i :: q => do
    let t ← poolRef { s with pool := { s.pool with queue := q } }
    .ok (t, some i)

/-- nvnc_fb_release, fb.c 236-249, with nvnc_fb_pool__on_fb_release, fb_pool.c 115-121 -/
def fbRelease (i : Nat) (s : St) : Outcome St :=
  if (s.fb i).live then
    if (s.fb i).hold - 1 ≠ 0 then
      .ok ((s.setFb i { s.fb i with hold := (s.fb i).hold - 1 }).say (.release i))
    else if (s.fb i).pooled then do
      let s ← poolRelease i
        (((s.setFb i { s.fb i with hold := (s.fb i).hold - 1 }).say (.release i)).say (.released i))
      poolUnref s
    else
      .ok (((s.setFb i { s.fb i with hold := (s.fb i).hold - 1 }).say (.release i)).say (.released i))
  else .ub "buffer used after it was freed"

/-- a reference and a hold -/
def take (i : Nat) (s : St) : Outcome St := do fbHold i (← fbRef i s)

/-- and back -/
def give (i : Nat) (s : St) : Outcome St := do fbUnref i (← fbRelease i s)

/-- giving back what may be NULL (both functions ignore NULL) -/
def giveOpt : Option Nat → St → Outcome St
  | none, s => .ok s
  | some i, s => give i s

/-- calls of the application and events inside the library -/
inductive Op where
  | newFb (d : Dims)
  | ref (i : Nat)
  | unref (i : Nat)
  | acquire (mem : Bool)
  | poolRef
  | poolUnref
  | resize (d : Dims)
  | giveBack (i : Nat)             -- nvnc_fb_pool_release by the application
  | feed (i : Nat)                 -- nvnc_display__on_resampler_done
  | closeDisplay                   -- nvnc__display_free
  | setCursor (i : Option Nat)
  | startJob (i : Nat)
  | endJob (i : Nat)
  deriving Repr, DecidableEq

def step (s : St) : Op → Outcome St
  | .newFb d => .ok (fbNew d false s)
  | .ref i => fbRef i s
  | .unref i => fbUnref i s
  | .acquire mem => do
    let r ← acquire mem s
    .ok r.1
  | .poolRef => poolRef s
  | .poolUnref => poolUnref s
  | .resize d => poolResize d s
  | .giveBack i => poolRelease i s
  | .feed i => do
    -- display.c 38-45
    let s ← giveOpt s.display s
    take i { s with display := some i }
  | .closeDisplay => do
    let s ← giveOpt s.display s
    .ok { s with display := none }
  | .setCursor c => do
    -- server.c 2904-2912
    let s ← giveOpt s.cursor s
    match c with
    | none => .ok { s with cursor := none }
    | some i => take i { s with cursor := some i }
  | .startJob i => do
    let s ← take i s
    .ok { s with jobs := i :: s.jobs }
  | .endJob i => do
    let s ← give i s
    .ok { s with jobs := s.jobs.erase i }

def run : List Op → St → Outcome St
  | [], s => .ok s
  | o :: os, s => do run os (← step s o)

/-! ## Other reference counted objects -/

/-- struct rcbuf, include/rcbuf.h; struct encoder, include/enc/encoder.h; struct nvnc_display,
include/display.h -/
inductive Kind where
  | rcbuf
  | encoder
  | display
  deriving Repr, DecidableEq

/-- `freed` counts how often the object was freed -/
structure Rc where
  ref : Int
  freed : Nat
  deriving Repr, DecidableEq

/-- rcbuf_new, rcbuf.c 23-34; encoder_init, enc/interface.c 51-56; nvnc_display_new, display.c 54-79 -/
def rcNew : Rc := ⟨1, 0⟩

/-- rcbuf_ref, rcbuf.c 57-60; encoder_ref, enc/interface.c 75-79; nvnc_display_ref, display.c 93-96 -/
def rcRef (k : Kind) (r : Rc) : Outcome Rc :=
  if r.freed ≠ 0 then .ub "used after it was freed"
  else if k = .encoder ∧ ¬ 0 < r.ref then .abort "self->ref > 0"
  else .ok { r with ref := r.ref + 1 }

/-- rcbuf_unref, rcbuf.c 62-71; encoder_unref, enc/interface.c 81-91; nvnc_display_unref, display.c
99-103.  Calls with NULL are left out. -/
def rcUnref (k : Kind) (r : Rc) : Outcome Rc :=
  if r.freed ≠ 0 then .ub "used after it was freed"
  else if k = .rcbuf then
    if ¬ 0 < r.ref then .abort "self->ref > 0"
    else if 0 < r.ref - 1 then .ok { r with ref := r.ref - 1 }
    else .ok ⟨r.ref - 1, r.freed + 1⟩
  else if r.ref - 1 ≠ 0 then .ok { r with ref := r.ref - 1 }
  else .ok ⟨r.ref - 1, r.freed + 1⟩

/-- calls: `true` takes a reference, `false` gives one back -/
def rcRun (k : Kind) : List Bool → Rc → Outcome Rc
  | [], r => .ok r
  | true :: l, r => do rcRun k l (← rcRef k r)
  | false :: l, r => do rcRun k l (← rcUnref k r)

end Verif.Buffers
