import Verif.Basic

/-! # Model of framebuffers: src/fb.c -/

namespace Verif.Fb

/-! ## Allocation -/

/-- the size computed in `nvnc_fb_new`, fb.c 54: `height * stride` is a product of ints, which is then multiplied with
a `uint32_t`.  The arguments are below 2^16. -/
def sizeOf (height stride bpp : Nat) : Outcome Nat :=
  if 2 ^ 31 ≤ height * stride then .ub "signed overflow of height * stride"
  else .ok (height * stride * bpp % 2 ^ 32)

/-- `ALIGN_UP`, fb.c 32-33 -/
def alignUp (n a : Nat) : Nat := (n + a - 1) / a * a

/-- the bytes allocated by `nvnc_fb_new`, fb.c 54-58, on a 64 bit machine -/
def capacity (height stride bpp : Nat) : Outcome Nat :=
  match sizeOf height stride bpp with
  | .ok n => .ok (alignUp n 8)
  | .ub w => .ub w
  | .abort w => .abort w

/-! ## Holding and mapping -/

inductive Phase where
  /-- holds the buffer -/
  | holding
  /-- is in `nvnc_fb_map`, past the test -/
  | mapping
  /-- `nvnc_fb_map` returned 0 -/
  | mapped
  deriving DecidableEq, Repr

/-- `struct nvnc_fb`, fb.h, for one framebuffer, with its users: the display, encoders and the resampler, each
of which takes a reference and a hold at once -/
structure State where
  gbm : Bool
  ref : Nat := 1
  hold : Nat := 0
  addr : Option Nat
  /-- `bo_map_handle` -/
  handle : Option Nat := none
  freed : Bool := false
  users : List (Nat × Phase) := []
  /-- references of the application -/
  app : Nat := 1
  /-- mappings that GBM keeps -/
  maps : List Nat := []
  nextMap : Nat := 1
  /-- ghost: calls of `on_release` -/
  releases : Nat := 0
  deriving DecidableEq, Repr

/-- `nvnc_fb_new`, `nvnc_fb_from_buffer` (fb.c 36-86): memory 0 -/
def simple : State := { gbm := false, addr := some 0 }

/-- `nvnc_fb_from_gbm_bo`, fb.c 88-110 -/
def ofBo : State := { gbm := true, addr := none }

/-- `nvnc_fb_unmap`, fb.c 271-284 -/
def unmap (s : State) : State :=
  if s.gbm then
    { s with handle := none, addr := none,
             maps := match s.handle with | some m => s.maps.erase m | none => s.maps }
  else s

/-- `nvnc_fb_release`, fb.c 236-249 -/
def release (s : State) : State :=
  if s.hold - 1 ≠ 0 then { s with hold := s.hold - 1 }
  else { unmap { s with hold := s.hold - 1 } with releases := s.releases + 1 }

/-- `nvnc_fb_unref`, fb.c 205-210, and `nvnc__fb_free`, 172-197 -/
def unref (s : State) : State :=
  if s.ref - 1 = 0 then { unmap { s with ref := s.ref - 1 } with freed := true }
  else { s with ref := s.ref - 1 }

def setPhase (u : Nat) (p : Phase) (s : State) : State :=
  { s with users := s.users.map fun e => if e.1 = u then (u, p) else e }

/-- the test of `nvnc_fb_map`, fb.c 254 -/
def check (u : Nat) (s : State) : State :=
  if !s.gbm || s.handle.isSome then setPhase u .mapped s else setPhase u .mapping s

/-- the rest of `nvnc_fb_map`, fb.c 257-265; `ok` is whether GBM can map the buffer -/
def commit (u : Nat) (ok : Bool) (s : State) : State :=
  if ok then
    setPhase u .mapped { s with addr := some s.nextMap, handle := some s.nextMap, maps := s.maps ++ [s.nextMap],
                                nextMap := s.nextMap + 1 }
  else setPhase u .holding { s with addr := none, handle := none }

/-- the phase of a user -/
def phase (u : Nat) (s : State) : Option Phase := (s.users.find? fun e => e.1 = u).map Prod.snd

/-- whether the pixels can be read -/
def readable (s : State) : Bool :=
  !s.freed && (match s.addr with
    | none => false
    | some m => !s.gbm || decide (m ∈ s.maps))

inductive Op where
  /-- `nvnc_fb_ref` and `nvnc_fb_hold`, as in raw.c 243-244 -/
  | acquire (u : Nat)
  /-- the two halves of `nvnc_fb_map` in a worker thread -/
  | check (u : Nat)
  | commit (u : Nat) (ok : Bool)
  /-- `nvnc_fb_map` without another thread in between -/
  | map (u : Nat) (ok : Bool)
  /-- the pixels are read, after `nvnc_fb_map` has returned 0 -/
  | read (u : Nat)
  /-- `nvnc_fb_release` and `nvnc_fb_unref`, as in raw.c 210-211 -/
  | drop (u : Nat)
  /-- the same after `nvnc_fb_unmap`, v4l2m2m-impl.c 390-392 -/
  | dropDevice (u : Nat)
  /-- the application takes or drops a reference -/
  | appRef
  | appUnref

def step (o : Op) (s : State) : Outcome State :=
  if s.freed then .ok s
  else match o with
  | .acquire u =>
    if (phase u s).isSome then .ok s
    else .ok { s with ref := s.ref + 1, hold := s.hold + 1, users := s.users ++ [(u, .holding)] }
  | .check u => if phase u s = some .holding then .ok (check u s) else .ok s
  | .commit u ok => if phase u s = some .mapping then .ok (commit u ok s) else .ok s
  | .map u ok =>
    if phase u s = some .holding then
      if !s.gbm || s.handle.isSome then .ok (setPhase u .mapped s) else .ok (commit u ok s)
    else .ok s
  | .read u =>
    if phase u s = some .mapped then
      if readable s then .ok s else .ub "pixels are not mapped"
    else .ok s
  | .drop u =>
    if (phase u s).isSome then .ok (unref (release { s with users := s.users.filter fun e => e.1 ≠ u })) else .ok s
  | .dropDevice u =>
    if (phase u s).isSome then
      .ok (unref (release (unmap { s with users := s.users.filter fun e => e.1 ≠ u })))
    else .ok s
  | .appRef => if s.app = 0 then .ok s else .ok { s with ref := s.ref + 1, app := s.app + 1 }
  | .appUnref => if s.app = 0 then .ok s else .ok (unref { s with app := s.app - 1 })

def run : List Op → State → Outcome State
  | [], s => .ok s
  | o :: os, s =>
    match step o s with
    | .ok s => run os s
    | .ub w => .ub w
    | .abort w => .abort w

end Verif.Fb
