import Verif.Model.Tcp

/-! # Model of the TLS stream: src/stream/gnutls.c, with src/stream/common.c

GnuTLS is a parameter: every call of `gnutls_record_send` is answered by the next element of a list,
`gnutls_handshake` by an argument of the operation, and `gnutls_record_recv` returns what arrived.
Completion callbacks are data, as in Model/Tcp.  Bytes are those above TLS: the model is about which of
them go where, not about encryption. -/

namespace Verif.Tls

open Verif.Tcp (Status Reaction)

/-- the result of `gnutls_record_send`: a number of bytes, a result that is not fatal, a fatal one -/
inductive SendAns where
  | sent (n : Nat)
  | again
  | fatal
  deriving DecidableEq, Repr

/-- the result of `gnutls_handshake`; one that is not fatal comes with the direction
(`gnutls_record_get_direction`) -/
inductive HsAns where
  | success
  | wantRead
  | wantWrite
  | fatal
  deriving DecidableEq, Repr

/-- what arrives on the socket: a record of application data, the end of the stream, anything for which
`gnutls_record_recv` reports an error other than `GNUTLS_E_AGAIN` -/
inductive In where
  | record (b : Bytes)
  | eof
  | bad
  deriving DecidableEq, Repr

/-- `struct stream_req`, include/stream/stream.h 59-65; `id` is a ghost identity -/
structure Req where
  id : Nat
  data : Bytes
  onDone : Reaction
  deriving DecidableEq, Repr

/-- `enum stream_state`, include/stream/stream.h 33-40 -/
inductive Phase where
  | normal
  | handshake
  | ready
  | closed
  deriving DecidableEq, Repr

/-- what the owner of the stream is told: `STREAM_EVENT_REMOTE_CLOSED`, or a failed read, upon which
on_client_event destroys the client (server.c 1944-1971) -/
inductive Note where
  | remoteClosed
  | readError
  deriving DecidableEq, Repr

/-- `struct stream_gnutls`, gnutls.c 37-41, with ghost history: `wire` = bytes accepted by
`gnutls_record_send`, `log` = completions in order, `accepted` = requests in order of acceptance, with
the phase of the stream at that time, `arrived` = application data that arrived, `got` = what reads
returned. -/
structure State where
  phase : Phase := .normal
  freed : Bool := false
  /-- the handler is started -/
  handler : Bool := true
  maskR : Bool := true
  maskW : Bool := false
  queue : List Req := []
  /-- data of a `gnutls_record_send` that has to be repeated -/
  pending : Option Bytes := none
  /-- `gnutls_record_get_direction` is 1: the last use of the socket was a write -/
  writing : Bool := false
  /-- arrived on the socket, not yet seen by GnuTLS -/
  net : List In := []
  /-- decrypted by GnuTLS, not yet read -/
  buf : Bytes := []
  wire : Bytes := []
  log : List (Nat × Status) := []
  accepted : List (Nat × Bytes × Phase) := []
  arrived : Bytes := []
  got : Bytes := []
  notes : List Note := []
  deriving DecidableEq, Repr

/-- `stream_gnutls_close`, gnutls.c 48-72.  The callbacks run on a stream that is already closed, where
send and close do nothing (52-53, 174-175). -/
def close (s : State) : State :=
  if s.phase = .closed then s
  else { s with
    phase := .closed, handler := false, queue := [],
    log := s.log ++ s.queue.map fun r => (r.id, .failed) }

/-- `stream_gnutls_destroy`, gnutls.c 74-79 -/
def destroy (s : State) : State := { close s with freed := true }

/-- `TAILQ_INSERT_TAIL`, gnutls.c 177-185 -/
def enqueue (s : State) (d : Bytes) (cb : Reaction) : State :=
  { s with queue := s.queue ++ [⟨s.accepted.length, d, cb⟩],
           accepted := s.accepted ++ [(s.accepted.length, d, s.phase)] }

/-- `gnutls_record_send`.  After a result that is not fatal, such as `GNUTLS_E_AGAIN`, it has to be
called again with the same data.  During the handshake it refuses the data
(`GNUTLS_E_UNAVAILABLE_DURING_HANDSHAKE`); whether that counts as fatal is left to the answer.
A count beyond the size is clamped: GnuTLS never reports that. -/
def recordSend (a : SendAns) (d : Bytes) (s : State) : Outcome (State × SendAns) :=
  if s.phase ≠ .ready then .ok (s, if a = .again then .again else .fatal)
  else if s.pending.any (fun p => decide (p ≠ d)) then
    .ub "gnutls_record_send repeated with other data"
  else match a with
    | .sent n => .ok ({ s with pending := none, writing := true, wire := s.wire ++ d.take n }, .sent (min n d.length))
    | .again => .ok ({ s with pending := some d, writing := true }, .again)
    | .fatal => .ok (s, .fatal)

/-- what a completion callback does; `send` is `stream_gnutls_send`, which flushes at once
(gnutls.c 171-188): the answers left for further calls are passed along. -/
def react (flush : List SendAns → State → Outcome (State × List SendAns)) :
    Reaction → List SendAns → State → Outcome (State × List SendAns)
  | .stop, as, s => .ok (s, as)
  | .close k, as, s => react flush k as (close s)
  | .send d cb k, as, s =>
    if s.phase = .closed then react flush k as s
    else
      match flush as (enqueue s d cb) with
      | .ok (s, as) => react flush k as s
      | .ub w => .ub w
      | .abort w => .abort w

/-- `stream_gnutls__flush`, gnutls.c 81-124.  The first argument bounds the number of calls of
`gnutls_record_send`, see `flush`. -/
def flushN : Nat → List SendAns → State → Outcome (State × List SendAns)
  | 0, as, s => .ok (s, as)
  | n + 1, as, s =>
    match s.queue with
    | [] => .ok (if s.phase = .closed then s else { s with maskR := true, maskW := false }, as)
    | r :: rest =>
      if s.phase = .closed then .abort "state != STREAM_STATE_CLOSED"
      else
        match recordSend (as.headD .again) r.data s with
        | .ok (s, .fatal) => .ok (close s, as.tail)
        | .ok (s, .again) => .ok ({ s with maskR := true, maskW := true }, as.tail)
        | .ok (s, .sent k) =>
          if k < r.data.length then
            .ok ({ s with
              queue := { r with data := r.data.drop k } :: rest, maskR := true, maskW := true }, as.tail)
          else
            match react (flushN n) r.onDone as.tail
                { s with queue := rest, log := s.log ++ [(r.id, .done)] } with
            | .ok (s, as) => flushN n as s
            | .ub w => .ub w
            | .abort w => .abort w
        | .ub w => .ub w
        | .abort w => .abort w

/-- `stream_gnutls__flush`.  Calls beyond the given answers are answered by `again`, which ends the
loop, so the bound is never reached (`flushN_enough`). -/
def flush (as : List SendAns) (s : State) : Outcome State :=
  match flushN (as.length + 1) as s with
  | .ok (s, _) => .ok s
  | .ub w => .ub w
  | .abort w => .abort w

/-- `stream__try_tls_accept`, gnutls.c 221-246; the flag is its result.  A session whose handshake has
failed for good keeps failing: that is the case when the handler is stopped. -/
def tryAccept (h : HsAns) (s : State) : State × Bool :=
  if s.handler = false then (s, false)
  else match h with
  | .success => ({ s with phase := .ready, maskR := true, maskW := false }, true)
  | .fatal => ({ s with handler := false }, false)
  | .wantWrite => ({ s with phase := .handshake, maskR := false, maskW := true }, true)
  | .wantRead => ({ s with phase := .handshake, maskR := true, maskW := false }, true)

/-- `stream_upgrade_to_tls`, gnutls.c 255-292; what the TCP stream has not sent yet stays in the queue.
When it fails, the client is closed (vencrypt.c 92-96). -/
def upgrade (old : List (Bytes × Reaction)) (h : HsAns) : State :=
  let s := old.foldl (fun s r => enqueue s r.1 r.2) {}
  match tryAccept h s with
  | (s, true) => s
  | (s, false) => destroy s

/-- `stream_gnutls_read`, gnutls.c 190-219, called by on_client_event (server.c 1956-1971) with room for
`space` bytes.  After the stream has been closed the session is NULL (63-65).  When there is no room, GnuTLS
says `GNUTLS_E_INVALID_REQUEST` without looking at the socket, so that the direction stays what it was;
in the other cases that end in an error it has read from the socket.  An empty record yields
`GNUTLS_E_AGAIN`: nothing is read. -/
def read (space : Nat) (s : State) : Outcome State :=
  if s.phase = .closed then .ub "gnutls_record_recv(NULL)"
  else if space = 0 then
    if s.writing then .abort "gnutls_record_get_direction(self->session) == 0"
    else .ok { destroy s with notes := s.notes ++ [.readError] }
  else if s.buf ≠ [] then
    .ok { s with got := s.got ++ s.buf.take space, buf := s.buf.drop space }
  else match s.net with
    | [] => .ok { s with writing := false }
    | .record b :: net => .ok { s with
        net := net, writing := false, got := s.got ++ b.take space, buf := b.drop space }
    | .eof :: net => .ok { close { s with net := net, writing := false } with
        notes := s.notes ++ [.remoteClosed] }
    | .bad :: net => .ok { destroy { s with net := net, writing := false } with
        notes := s.notes ++ [.readError] }

/-- what the event loop and the owner of the stream do -/
inductive Op where
  /-- something arrives on the socket -/
  | arrive (x : In)
  /-- `stream_gnutls__on_event`, gnutls.c 159-169: the socket is readable, writable or both; `h` is what
  the handshake says at each call, `space` the room for a read, `as` the answers to sends -/
  | event (r w : Bool) (hr hw : HsAns) (space : Nat) (as : List SendAns)
  /-- process_pending_fence calls on_client_event itself (server.c 2419-2436) -/
  | poke (space : Nat)
  /-- `stream_gnutls_send` -/
  | send (d : Bytes) (cb : Reaction) (as : List SendAns)
  /-- `stream_close` by the owner -/
  | close

/-- `stream_gnutls__on_readable`, gnutls.c 126-141.  In the ready phase the socket is readable when
something has arrived. -/
def onReadable (h : HsAns) (space : Nat) (s : State) : Outcome State :=
  match s.phase with
  | .normal | .ready => if s.net = [] then .ok s else read space s
  | .handshake => .ok (tryAccept h s).1
  | .closed => .ok s

/-- `stream_gnutls__on_writable`, gnutls.c 143-157 -/
def onWritable (h : HsAns) (as : List SendAns) (s : State) : Outcome State :=
  if s.freed then .ub "stream used after stream_destroy"
  else match s.phase with
    | .normal | .ready => flush as s
    | .handshake => .ok (tryAccept h s).1
    | .closed => .ok s

/-- One operation.  The event loop polls what the mask says, and nothing when the handler is stopped.
The owner does not use a stream it has destroyed. -/
def step (o : Op) (s : State) : Outcome State :=
  if s.freed then .ok s
  else match o with
  | .arrive x => .ok { s with
      net := s.net ++ [x],
      arrived := s.arrived ++ (match x with | .record b => b | _ => []) }
  | .event r w hr hw space as =>
    if !s.handler then .ok s
    else
      match (if r && s.maskR then onReadable hr space s else .ok s) with
      | .ok t => if w && s.maskW then onWritable hw as t else .ok t
      | .ub w => .ub w
      | .abort w => .abort w
  | .poke space => read space s
  | .send d cb as => if s.phase = .closed then .ok s else flush as (enqueue s d cb)
  | .close => .ok (close s)

def run : List Op → State → Outcome State
  | [], s => .ok s
  | o :: os, s =>
    match step o s with
    | .ok s => run os s
    | .ub w => .ub w
    | .abort w => .abort w

end Verif.Tls
