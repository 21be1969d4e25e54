import Verif.Basic

/-! # Model of the TCP send queue: src/stream/tcp.c, src/stream/common.c

The kernel (`sendmsg`) is a parameter of every operation: it may accept any number of bytes of the
vector, report `EAGAIN`, `EPIPE` or another error.  Completion callbacks are data: a `Reaction`
says which stream operations the callback performs, because re-entrancy into the stream is what
matters to the queue. -/

namespace Verif.Tcp

/-- `enum stream_req_status`, include/stream/stream.h:44-47 -/
inductive Status where
  | done
  | failed
  deriving DecidableEq, Repr

/-- What a `stream_req_fn` completion callback does to its own stream (src/server.c:223-234
`close_after_write` closes it; `on_write_frame_done` may lead to further sends). -/
inductive Reaction where
  | stop
  | close (next : Reaction)
  | send (data : Bytes) (onDone next : Reaction)
  deriving DecidableEq, Repr

/-- What was handed to the stream: a buffer or a function to be executed at send time
(include/stream/stream.h `stream_exec_fn`); its argument stands for everything the function may
read, e.g. the clock. -/
inductive Src where
  | data (b : Bytes)
  | exec (f : Nat → Bytes)

/-- `payload`/`exec` of `struct stream_req`, include/stream/stream.h:61-67.
`exec f none` is a request with `payload == NULL`. -/
inductive Body where
  | data (b : Bytes)
  | exec (f : Nat → Bytes) (cached : Option Bytes)

/-- `struct stream_req`; `id` is a ghost identity -/
structure Req where
  id : Nat
  body : Body
  onDone : Reaction

/-- `struct stream` as far as sending is concerned, plus ghost history:
`wire` = bytes the kernel accepted, `log` = completions in order,
`accepted` = requests in the order in which the stream accepted them. -/
structure State where
  closed : Bool := false
  cork : Bool := false
  /-- `AML_EVENT_WRITE` is in the handler's event mask -/
  pollW : Bool := false
  queue : List Req := []
  /-- number of STREAM_EVENT_REMOTE_CLOSED events delivered -/
  remoteClosed : Nat := 0
  wire : Bytes := []
  log : List (Nat × Status) := []
  accepted : List (Nat × Src) := []

/-- Result of `sendmsg` -/
inductive Kernel where
  | sent (n : Nat)
  | again
  | epipe
  | error
  deriving DecidableEq, Repr

/-- the current payload of a request; `none` when it is the null pointer -/
def Req.payload? (r : Req) : Option Bytes :=
  match r.body with
  | .data b => some b
  | .exec _ c => c

/-- the current payload of a request that has one (every request in the vector built by
`stream_tcp__flush` has: `evalReqs`) -/
def Req.payload (r : Req) : Bytes := r.payload?.getD []

/-- `stream_req__finish` with `STREAM_REQ_FAILED` for everything queued
(src/stream/tcp.c:48-52).  `rcbuf_unref(req->payload)` dereferences the payload, which is null for
an exec request that was never flushed.  The callbacks run on a stream that is already closed, where
send and close do nothing (src/stream/tcp.c:42-43, 220-221). -/
def failAll (log : List (Nat × Status)) : List Req → Outcome (List (Nat × Status))
  | [] => .ok log
  | r :: q =>
    match r.payload? with
    | none => .ub "rcbuf_unref(NULL)"
    | some _ => failAll (log ++ [(r.id, .failed)]) q

/-- `stream_tcp_close`, src/stream/tcp.c:40-59 -/
def close (s : State) : Outcome State :=
  if s.closed then .ok s
  else
    match failAll s.log s.queue with
    | .ok log => .ok { s with closed := true, cork := true, queue := [], log := log }
    | .ub w => .ub w
    | .abort w => .abort w

/-- Append to the queue, src/stream/tcp.c:223-231 / 257-264 -/
def enqueue (s : State) (src : Src) (cb : Reaction) : State :=
  let id := s.accepted.length
  let body := match src with
    | .data b => Body.data b
    | .exec f => Body.exec f none
  { s with queue := s.queue ++ [⟨id, body, cb⟩], accepted := s.accepted ++ [(id, src)] }

/-- Effect of a completion callback while the stream is corked by `stream_tcp__flush`: a send is
queued but not flushed (src/stream/tcp.c:71-72); on a closed stream it is refused (220-221). -/
def react : Reaction → State → Outcome State
  | .stop, s => .ok s
  | .close k, s =>
    match close s with
    | .ok s' => react k s'
    | .ub w => .ub w
    | .abort w => .abort w
  | .send d cb k, s => react k (if s.closed then s else enqueue s (.data d) cb)

/-- First loop of `stream_tcp__flush`, src/stream/tcp.c:79-93: exec functions of the first `n`
requests are (re-)executed. -/
def evalReqs (now : Nat) : Nat → List Req → List Req
  | 0, q => q
  | _, [] => []
  | n + 1, r :: q =>
    (match r.body with
      | .data _ => r
      | .exec f _ => { r with body := .exec f (some (f now)) }) :: evalReqs now n q

/-- Second loop of `stream_tcp__flush`, src/stream/tcp.c:124-145.  `left` is `bytes_left`.
The result carries the final `bytes_left`.  `TAILQ_FOREACH_SAFE` remembers the next request before
the current one is finished; if the callback closes the stream the remembered one has been freed.
The first argument bounds the number of iterations by the queue length at the start; with a kernel
that accepts no more than it was given, the loop ends before exceeding it. -/
def drain : Nat → Int → State → Outcome (State × Int)
  | 0, left, s => .ok (s, left)
  | n + 1, left, s =>
    match s.queue with
    | [] => .ok (s, left)
    | r :: rest =>
      match r.payload? with
      | none => .ub "req->payload == NULL"
      | some payload =>
      let left := left - payload.length
      if left ≥ 0 then
        match react r.onDone { s with queue := rest, log := s.log ++ [(r.id, .done)] } with
        | .ok s' =>
          if left = 0 then .ok (s', left)
          else if s'.closed && !rest.isEmpty then .ub "next request freed by callback"
          else drain n left s'
        | .ub w => .ub w
        | .abort w => .abort w
      else
        -- keep the unsent tail; memmove(p, p + s + bytes_left, -bytes_left)
        let r' := { r with body := .data (payload.drop (payload.length + left).toNat) }
        .ok ({ s with queue := r' :: rest, pollW := true }, left)

/-- `IOV_MAX` on Linux -/
def iovMax : Nat := 1024

/-- `stream__remote_closed`, src/stream/common.c:35-41 -/
def remoteClosed (s : State) : Outcome State :=
  match close s with
  | .ok s' => .ok { s' with remoteClosed := s'.remoteClosed + 1 }
  | .ub w => .ub w
  | .abort w => .abort w

/-- `stream_tcp__flush`, src/stream/tcp.c:69-155.  `k` is what `sendmsg` returns (a count beyond
the vector's total size is clamped: the kernel never reports that), `now` is passed to exec
functions. -/
def flush (k : Kernel) (now : Nat) (s : State) : Outcome State :=
  if s.cork then .ok s
  else
    let q := evalReqs now iovMax s.queue
    if q.isEmpty then .ok s
    else
      let s := { s with queue := q }
      match k with
      | .again => .ok { s with pollW := true }
      | .epipe => remoteClosed s
      | .error => .ok s
      | .sent n =>
        let vec := (q.take iovMax).flatMap Req.payload
        let n := min n vec.length
        match drain q.length n { s with wire := s.wire ++ vec.take n, cork := true } with
        | .ok (s', left) =>
          let s' := { s' with cork := false }
          let s' := if left = 0 ∧ ¬ s'.closed then { s' with pollW := false } else s'
          if left ≤ 0 then .ok s' else .abort "assert(bytes_left <= 0)"
        | .ub w => .ub w
        | .abort w => .abort w

/-- Operations of the stream's users and of the event loop -/
inductive Op where
  /-- `stream_tcp_send`, src/stream/tcp.c:217-234 -/
  | send (d : Bytes) (cb : Reaction)
  /-- `stream_tcp_exec_and_send`, src/stream/tcp.c:251-267 -/
  | exec (f : Nat → Bytes)
  /-- `stream_tcp__on_writable`, src/stream/tcp.c:171-182; only called when polled for -/
  | writable
  /-- End of the WebSocket handshake, src/stream/ws/ws.c:204-205: the stream was created corked
  (ws.c:311); it is uncorked and the HTTP reply is inserted at the head of the queue by
  `stream_tcp_send_first` (src/stream/tcp.c:236-249).  Only called while corked. -/
  | uncork (reply : Bytes)
  /-- `stream_tcp_close` -/
  | close

/-- One operation, during which the kernel answers `k` -/
def step (s : State) (op : Op) (k : Kernel) (now : Nat) : Outcome State :=
  match op with
  | .send d cb => if s.closed then .ok s else flush k now (enqueue s (.data d) cb)
  | .exec f => if s.closed then .ok s else flush k now (enqueue s (.exec f) .stop)
  | .writable => if s.closed ∨ ¬ s.pollW then .ok s else flush k now s
  | .uncork reply =>
    if s.closed ∨ ¬ s.cork then .ok s
    else
      let id := s.accepted.length
      flush k now { s with
        cork := false
        queue := ⟨id, .data reply, .stop⟩ :: s.queue
        accepted := (id, .data reply) :: s.accepted }
  | .close => close s

/-- A history of operations.  The `n`-th operation sees time `n + t`. -/
def run : State → Nat → List (Op × Kernel) → Outcome State
  | s, _, [] => .ok s
  | s, t, (op, k) :: h =>
    match step s op k t with
    | .ok s' => run s' (t + 1) h
    | .ub w => .ub w
    | .abort w => .abort w

end Verif.Tcp
