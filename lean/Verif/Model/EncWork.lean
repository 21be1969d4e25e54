import Verif.Basic

/-! # Model of the jobs of encoders: src/enc/raw.c, zrle.c, tight.c, interface.c

One encoder, its reference count, the works that it gives to the main loop's threads (aml) and the
framebuffers that it holds, beside the client that owns it.  What is encoded is Model/Raw, Zrle and Tight; here a
worker only notes what it read.  A thread may run a work at any time after it was started; the main loop calls the
work's callback at any time after that.  Callbacks of the client do what src/server.c does. -/

namespace Verif.EncWork

inductive Kind where
  | raw
  | zrle
  | tight
  deriving DecidableEq, Repr

/-- a framebuffer and its damage, as given to `encoder_encode` -/
structure Frame where
  fb : Nat
  damage : Nat
  width : Nat
  height : Nat
  pts : Option Nat
  deriving DecidableEq, Repr

/-- what a worker looked at -/
structure Coded where
  fb : Nat
  damage : Nat
  fmt : Nat
  /-- only Tight has one -/
  quality : Nat
  deriving DecidableEq, Repr

/-- `struct encoded_frame`; Tight makes it of four parts -/
structure Result where
  parts : List Coded
  width : Nat
  height : Nat
  pts : Option Nat
  deriving DecidableEq, Repr

/-- `struct aml_work`: of Raw with its context (`struct raw_encoder_work`), of ZRLE and of `tight_finish` without -/
structure Work where
  id : Nat
  refs : Nat := 1
  started : Bool := false
  /-- a thread has run it -/
  ran : Bool := false
  job : Option (Frame × Nat) := none
  result : Option Result := none
  deriving DecidableEq, Repr

/-- one of Tight's four workers, `zs_worker[i]`.  Its memory lives as long as the encoder or its run. -/
structure Quarter where
  started : Bool := false
  ran : Bool := false
  part : Option Coded := none
  deriving DecidableEq, Repr

/-- the things that fail: allocations, starting a work, mapping a framebuffer -/
structure Faults where
  noCtx : Bool := false
  noWork : Bool := false
  noStart : Bool := false
  noMap : Bool := false
  noGrid : Bool := false
  noVec : Bool := false
  /-- starting Tight's `i`-th worker -/
  noJob : Nat → Bool := fun _ => false

/-- what was given to the encoder and accepted (ghost) -/
structure Job where
  frame : Frame
  fmt : Nat
  quality : Nat
  /-- while the frame before it was being handed over -/
  inside : Bool
  deriving DecidableEq, Repr

structure State where
  kind : Kind
  /-- `struct encoder` -/
  ref : Nat := 1
  freed : Bool := false
  /-- `on_done` is set -/
  handler : Bool := false
  fmt : Nat := 0
  quality : Nat := 0
  /-- Raw, ZRLE: `work` -/
  work : Option Nat := none
  /-- ZRLE: `current_fb` and `current_damage`; Tight: `fb`, which stays, and the damage in the grid -/
  cur : Option Frame := none
  /-- ZRLE: `current_result` -/
  result : Option Result := none
  /-- Tight: `width`, `height`, `grid` (is not NULL), `pts`, `n_jobs`, `zs_worker` -/
  width : Nat := 0
  height : Nat := 0
  grid : Bool := true
  pts : Option Nat := none
  nJobs : Nat := 0
  zs : List Quarter := [{}, {}, {}, {}]
  works : List Work := []
  next : Nat := 0
  /-- how often the encoder holds each framebuffer -/
  held : Nat → Nat := fun _ => 0
  /-- the client: it has its reference, and waits for a frame (`is_updating`) -/
  mine : Bool := true
  busy : Bool := false
  /-- ghost: what was accepted, and what the client got -/
  accepted : List Job := []
  done : List Result := []

/-- `nvnc_fb_ref` and `nvnc_fb_hold` -/
def hold (fb : Nat) (s : State) : State := { s with held := fun i => if i = fb then s.held i + 1 else s.held i }

/-- `nvnc_fb_release` and `nvnc_fb_unref` -/
def release (fb : Nat) (s : State) : Outcome State :=
  if s.held fb = 0 then .ub "nvnc_fb_release: not held"
  else .ok { s with held := fun i => if i = fb then s.held i - 1 else s.held i }

/-- `raw_encoder_destroy` (src/enc/raw.c:190-198), `zrle_encoder_destroy` (src/enc/zrle.c:427-437),
`tight_encoder_destroy` (src/enc/tight.c:213-226).  Raw would stop and give back its work, whose context unrefs the
encoder again; this is taken for undefined. -/
def destroy (s : State) : Outcome State :=
  match s.kind, s.work with
  | .raw, some _ => .ub "raw_encoder_destroy: work is under way"
  | .zrle, some w =>
    .ok { s with freed := true, works := (s.works.map fun k => if k.id = w then { k with refs := k.refs - 1 } else k).filter (·.refs ≠ 0) }
  | _, _ => .ok { s with freed := true }

/-- `encoder_unref`, src/enc/interface.c:81-91 -/
def encoderUnref (s : State) : Outcome State :=
  if s.freed then .ub "encoder_unref: encoder was freed"
  else if s.ref = 1 then destroy { s with ref := 0 }
  else .ok { s with ref := s.ref - 1 }

/-- `encoder_ref`, src/enc/interface.c:75-79 -/
def encoderRef (s : State) : Outcome State :=
  if s.freed then .ub "encoder_ref: encoder was freed"
  else if s.ref = 0 then .abort "self->ref > 0"
  else .ok { s with ref := s.ref + 1 }

/-- `raw_encoder_work_destroy`, src/enc/raw.c:207-217 -/
def workDestroy (k : Work) (s : State) : Outcome State :=
  match k.job with
  | none => .ok s
  | some (f, _) => do encoderUnref (← release f.fb s)

/-- `aml_unref` of a work; the last reference frees its context, if it has one -/
def workUnref (w : Nat) (s : State) : Outcome State :=
  match s.works.find? (·.id = w) with
  | none => .ub "aml_unref: work was freed"
  | some k =>
    if k.refs = 1 then workDestroy k { s with works := s.works.filter (·.id ≠ w) }
    else .ok { s with works := s.works.map fun k => if k.id = w then { k with refs := k.refs - 1 } else k }

/-- `aml_start` of a work that is known; aml takes a reference -/
def workStart (w : Nat) (s : State) : State :=
  { s with works := s.works.map fun k => if k.id = w then { k with refs := k.refs + 1, started := true } else k }

/-- `raw_encoder_encode`, src/enc/raw.c:219-254; the number is what it returns -/
def rawEncode (f : Frame) (e : Faults) (s : State) : Outcome (State × Int) :=
  if e.noCtx then .ok (s, -1)
  else if e.noWork then .ok ({ s with work := none }, -1)
  else do
    let w := s.next
    let s := { s with work := some w, next := s.next + 1 }
    let s ← encoderRef s
    let s := hold f.fb { s with works := s.works ++ [({ id := w, job := some (f, s.fmt) } : Work)] }
    if e.noStart then
      let s ← workUnref w s
      .ok ({ s with work := none }, -1)
    else .ok (workStart w s, 0)

/-- `zrle_encoder_encode`, src/enc/zrle.c:446-477 -/
def zrleEncode (f : Frame) (e : Faults) (s : State) : Outcome (State × Int) :=
  if s.cur.isSome then .abort "!self->current_fb"
  else if e.noWork then .ok ({ s with work := none }, -1)
  else do
    let w := s.next
    let s := { s with work := some w, next := s.next + 1, works := s.works ++ [({ id := w } : Work)] }
    let s ← encoderRef (hold f.fb { s with cur := some f })
    if e.noStart then
      let s ← encoderUnref s
      let s ← workUnref w s
      let s ← release f.fb { s with work := none }
      .ok ({ s with cur := none }, -1)
    else .ok (workStart w s, 0)

/-- `tight_schedule_encoding_jobs`, src/enc/tight.c:457-477, from the `i`-th of `n` workers on -/
def tightSchedule (e : Faults) : Nat → Nat → State → Outcome (State × Int)
  | _, 0, s => .ok (s, 0)
  | i, n + 1, s => do
    let s ← encoderRef s
    if e.noJob i then
      let s ← encoderUnref s
      .ok (s, -1)
    else tightSchedule e (i + 1) n { s with nJobs := s.nJobs + 1, zs := s.zs.set i { started := true } }

/-- `tight_encoder_encode`, src/enc/tight.c:584-623, with `tight_encoder_resize` (169-187).  A grid that could not be
allocated is used when the next frame has the same size.  That there is damage is C21. -/
def tightEncode (f : Frame) (e : Faults) (s : State) : Outcome (State × Int) :=
  let same := s.width = f.width ∧ s.height = f.height
  let s : State := if same then s else { s with width := f.width, height := f.height, grid := !e.noGrid }
  if ¬ same ∧ e.noGrid then .ok (s, -1)
  else
    let s := { s with cur := some f, pts := f.pts }
    if e.noMap || e.noVec then .ok (s, -1)
    else if !s.grid then .ub "tight_apply_damage: no grid"
    else do
      let (s, rc) ← tightSchedule e 0 4 (hold f.fb s)
      if rc < 0 then
        let s ← release f.fb s
        .ok (s, -1)
      else .ok (s, 0)

/-- `encoder_encode`, src/enc/interface.c:106-111 -/
def encode (f : Frame) (e : Faults) (s : State) : Outcome (State × Int) :=
  match s.kind with
  | .raw => rawEncode f e s
  | .zrle => zrleEncode f e s
  | .tight => tightEncode f e s

/-- what the client does -/
inductive Act where
  | encode (f : Frame) (fmt quality : Nat) (e : Faults)
  | close

/-- The client's part of `process_fb_update_requests` (src/server.c:874-875, 918-948): nothing happens while it waits
for a frame; and of `client_close` (src/server.c:190-199).  The client's two references to one encoder count as one. -/
def act (inside : Bool) (a : Act) (s : State) : Outcome State :=
  if !s.mine then .ok s
  else match a with
  | .encode f fmt q e =>
    if s.busy then .ok s
    else if s.freed then .ub "encoder_set_quality: encoder was freed"
    else do
      let s := { s with fmt := fmt, quality := if s.kind = .tight then q else 0, busy := true, handler := true }
      let (s, rc) ← encode f e s
      if rc ≥ 0 then .ok { s with accepted := s.accepted ++ [{ frame := f, fmt := fmt, quality := s.quality, inside := inside }] }
      else .ok { s with busy := false }
  | .close =>
    if s.freed then .ub "client_close: encoder was freed"
    else encoderUnref { s with handler := false, mine := false }

def acts (inside : Bool) : List Act → State → Outcome State
  | [], s => .ok s
  | a :: as, s => do acts inside as (← act inside a s)

/-- `encoder_finish_frame` (src/enc/interface.c:119-123) and `on_encode_frame_done` (src/server.c:2552-2559); then the
client may go on at once (`complete_fb_update`, 2438-2445) or be closed -/
def finishFrame (r : Result) (as : List Act) (s : State) : Outcome State :=
  if s.freed then .ub "encoder_finish_frame: encoder was freed"
  else if s.handler then acts true as { s with handler := false, busy := false, done := s.done ++ [r] }
  else .ok s

/-- what is encoded of a framebuffer that somebody reads -/
def look (f : Frame) (fmt quality : Nat) (s : State) : Outcome Coded :=
  if s.held f.fb = 0 then .ub "framebuffer was given back" else .ok { fb := f.fb, damage := f.damage, fmt := fmt, quality := quality }

/-- A thread runs a work: `raw_encoder_do_work` (src/enc/raw.c:129-164), `zrle_encoder_do_work`
(src/enc/zrle.c:343-375), `do_tight_finish` (src/enc/tight.c:511-515).  If the framebuffer cannot be mapped, an
assertion fails. -/
def runWork (w : Nat) (mapped : Bool) (s : State) : Outcome State :=
  match s.works.find? fun k => k.id = w ∧ k.started ∧ ¬ k.ran with
  | none => .ok s
  | some k =>
    let put (r : Option Result) : State :=
      { s with works := s.works.map fun k => if k.id = w then { k with ran := true, result := r } else k }
    match s.kind with
    | .raw =>
      match k.job with
      | none => .abort "fb"
      | some (f, fmt) =>
        if !mapped then .abort "rc == 0"
        else do
          let c ← look f fmt 0 s
          .ok (put (some { parts := [c], width := f.width, height := f.height, pts := f.pts }))
    | .zrle =>
      if s.freed then .ub "zrle_encoder_do_work: encoder was freed"
      else match s.cur with
      | none => .abort "fb"
      | some f =>
        if !mapped then .abort "rc == 0"
        else do
          let c ← look f s.fmt 0 s
          .ok { put none with result := some { parts := [c], width := f.width, height := f.height, pts := f.pts } }
    | .tight =>
      if s.freed then .ub "tight_finish: encoder was freed"
      else .ok (put none)

/-- a thread runs the `i`-th of Tight's workers, `do_tight_zs_work`, src/enc/tight.c:430-441 -/
def runQuarter (i : Nat) (s : State) : Outcome State :=
  match s.zs[i]? with
  | none => .ok s
  | some q =>
    if !q.started || q.ran then .ok s
    else if s.freed then .ub "do_tight_zs_work: encoder was freed"
    else match s.cur with
    | none => .ub "do_tight_zs_work: no framebuffer"
    | some f => do
      let c ← look f s.fmt s.quality s
      .ok { s with zs := s.zs.set i { q with ran := true, part := some c } }

/-- `schedule_tight_finish`, src/enc/tight.c:533-547; nobody looks at what it returns -/
def tightScheduleFinish (e : Faults) (s : State) : Outcome State := do
  let s ← encoderRef s
  if e.noWork then encoderUnref s
  else
    let w := s.next
    let s := { s with next := s.next + 1, works := s.works ++ [({ id := w } : Work)] }
    workUnref w (if e.noStart then s else workStart w s)

/-- `on_tight_zs_work_done`, src/enc/tight.c:443-455, after which aml takes the work for stopped -/
def quarterDone (i : Nat) (e : Faults) (s : State) : Outcome State :=
  match s.zs[i]? with
  | none => .ok s
  | some q =>
    if !q.started || !q.ran then .ok s
    else if s.freed then .ub "on_tight_zs_work_done: encoder was freed"
    else do
      let s : State := { s with nJobs := s.nJobs - 1 }
      let s ← if s.nJobs = 0 then
          match s.cur with
          | none => .ub "on_tight_zs_work_done: no framebuffer"
          | some f => do tightScheduleFinish e (← release f.fb s)
        else .ok s
      let s ← encoderUnref s
      .ok { s with zs := s.zs.set i { q with started := false, ran := false } }

/-- The main loop calls a work's callback: `raw_encoder_on_done` (src/enc/raw.c:166-177), `zrle_encoder_on_done`
(src/enc/zrle.c:377-399), `on_tight_finished` (src/enc/tight.c:517-531).  Then it gives back its own reference. -/
def workDone (w : Nat) (as : List Act) (s : State) : Outcome State :=
  match s.works.find? fun k => k.id = w ∧ k.started ∧ k.ran with
  | none => .ok s
  | some k =>
    match s.kind with
    | .raw =>
      match k.result with
      | none => .abort "ctx->result"
      | some r =>
        if s.freed then .ub "raw_encoder_on_done: encoder was freed"
        else match s.work with
        | none => .ub "aml_unref: NULL"
        | some w' => do
          let s ← workUnref w' s
          let s ← finishFrame r as { s with work := none }
          workUnref w s
    | .zrle =>
      if s.freed then .ub "zrle_encoder_on_done: encoder was freed"
      else match s.result, s.cur, s.work with
      | none, _, _ => .abort "self->current_result"
      | _, none, _ => .ub "nvnc_fb_release: NULL"
      | _, _, none => .ub "aml_unref: NULL"
      | some r, some f, some w' => do
        let s ← release f.fb s
        let s ← workUnref w' { s with cur := none, result := none }
        let s ← finishFrame r as { s with work := none }
        let s ← encoderUnref s
        workUnref w s
    | .tight =>
      if s.freed then .ub "on_tight_finished: encoder was freed"
      else do
        let s ← finishFrame { parts := s.zs.filterMap (·.part), width := s.width, height := s.height, pts := s.pts } as s
        let s ← encoderUnref { s with pts := none }
        workUnref w s

inductive Op where
  /-- the client, from the main loop -/
  | client (a : Act)
  | runWork (w : Nat) (mapped : Bool)
  | runQuarter (i : Nat)
  /-- the client does `as` when it gets the frame -/
  | workDone (w : Nat) (as : List Act)
  | quarterDone (i : Nat) (e : Faults)

def step (s : State) : Op → Outcome State
  | .client a => act false a s
  | .runWork w m => runWork w m s
  | .runQuarter i => runQuarter i s
  | .workDone w as => workDone w as s
  | .quarterDone i e => quarterDone i e s

def run : State → List Op → Outcome State
  | s, [] => .ok s
  | s, o :: os => do run (← step s o) os

/-- a new encoder: `raw_encoder_new`, src/enc/raw.c:179-188; `zrle_encoder_new`, src/enc/zrle.c:401-425;
`tight_encoder_new`, src/enc/tight.c:549-563 -/
def fresh (k : Kind) (width height : Nat) : State := { kind := k, width := width, height := height }

end Verif.EncWork
