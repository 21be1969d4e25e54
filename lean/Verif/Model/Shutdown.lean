import Verif.Basic

/-!
# The end of the server, while clients are connected

`nvnc_del`, `client_close`, `client_drain_encoder`, `defer_client_close` and `close_after_write` of src/server.c.
While the server waits for an encoder the main loop runs, and with it everything that is due there. What
happens in it is given by a script. New connections are accepted meanwhile, as the sockets are closed last;
what such clients send is left out.
-/

namespace Verif.Shutdown

/-- what is called when a message leaves the queue of a stream -/
inductive Cb where
  | plain                             -- nothing
  | frame                             -- `on_write_frame_done`
  | last                              -- `close_after_write`
  deriving DecidableEq, Repr

/-- a client; `queue` is empty if the stream is closed -/
structure Client where
  id : Nat
  updating : Bool
  queue : List Cb
  deriving DecidableEq, Repr

/-- the server. Clients that are not in the list are freed. -/
structure St where
  clients : List Client
  /-- closings that are due in the main loop -/
  idles : List Nat
  freed : List Nat
  /-- calls of the application's clean-up function for a client -/
  called : List Nat
  clock : Nat
  /-- how long the main loop was told to wait at most -/
  polls : List Int
  /-- whether there is still a display -/
  display : Bool
  deriving DecidableEq, Repr

/-- what happens in the main loop -/
inductive Ev where
  | done (id : Nat)                   -- the encoder of a client has finished
  | idle (id : Nat)                   -- a closing that is due
  | connect (id : Nat)                -- someone connects
  | other                             -- something else
  deriving DecidableEq, Repr

/-- `aml_poll` and `aml_dispatch`: what happens, and how long it takes -/
structure Round where
  evs : List Ev
  dt : Nat
  deriving DecidableEq, Repr

def find (s : St) (id : Nat) : Option Client := s.clients.find? fun c => c.id == id

def update (s : St) (id : Nat) (f : Client → Client) : St :=
  { s with clients := s.clients.map fun c => if c.id == id then f c else c }

/-- `stream_close`: src/stream/tcp.c 38-58. `on_write_frame_done` (server.c 2438-2451) ends the update, and
nothing else as the stream is closed; `close_after_write` (server.c 223-234) makes a closing due. -/
def closeStream (s : St) (id : Nat) : St :=
  match find s id with
  | none => s
  | some c =>
    let s := { s with idles := s.idles ++ (c.queue.filter (· == .last)).map fun _ => id }
    update s id fun c => { c with queue := [], updating := c.updating && !c.queue.contains .frame }

/-- the end of `client_close`, server.c 173-202 -/
def free (s : St) (id : Nat) : St :=
  { s with
    called := s.called ++ [id]
    clients := s.clients.filter fun c => !(c.id == id)
    freed := s.freed ++ [id] }

mutual

/-- `client_close`, server.c 164-203, when the server is closing. `none` if the script ends before. -/
def close : Nat → List Round → Nat → St → Outcome (Option (List Round × St))
  | 0, _, _, _ => .ok none
  | n + 1, rs, id, s =>
    match find s id with
    | none => .ub "client_close: client used after free"
    | some _ => do
      let s := closeStream s id
      match ← drain n rs id s.clock 1000000 s with
      | none => return none
      | some (rs, s) =>
        match find s id with
        | none => .ub "client_close: client used after free"
        | some _ => return some (rs, free s id)

/-- the loop of `client_drain_encoder`, server.c 150-161 -/
def drain : Nat → List Round → Nat → Nat → Int → St → Outcome (Option (List Round × St))
  | 0, _, _, _, _, _ => .ok none
  | n + 1, rs, id, start, remaining, s =>
    match find s id with
    | none => .ub "client_drain_encoder: client used after free"
    | some c =>
      if !c.updating then .ok (some (rs, s))
      else match rs with
        | [] => .ok none
        | r :: rs => do
          match ← events n rs r.evs { s with polls := s.polls ++ [remaining] } with
          | none => return none
          | some (rs, s) =>
            let s := { s with clock := s.clock + r.dt }
            let remaining := (1000000 : Int) - (s.clock - start)
            if remaining ≤ 0 then return some (rs, s)
            else drain n rs id start remaining s

/-- `aml_dispatch`: `on_encode_frame_done` (server.c 2552-2559, 2488-2492) for clients that are there (those
that are freed have taken themselves from their encoder, server.c 190-197), `do_deferred_client_close`
(server.c 205-221) and `on_connection` (server.c 1997-2070) -/
def events : Nat → List Round → List Ev → St → Outcome (Option (List Round × St))
  | 0, _, _, _ => .ok none
  | _ + 1, rs, [], s => .ok (some (rs, s))
  | n + 1, rs, .done id :: es, s => events n rs es (update s id fun c => { c with updating := false })
  | n + 1, rs, .idle id :: es, s =>
    if s.idles.contains id then do
      match ← close n rs id { s with idles := s.idles.erase id } with
      | none => return none
      | some (rs, s) => events n rs es s
    else events n rs es s
  | n + 1, rs, .connect id :: es, s =>
    if !s.display then .ub "on_connection: display used after free"
    else events n rs es { s with clients := { id, updating := false, queue := [.plain] } :: s.clients }
  | n + 1, rs, .other :: es, s => events n rs es s

end

/-- `while (!LIST_EMPTY(&self->clients)) client_close(LIST_FIRST(&self->clients))`, server.c 2378-2379 -/
def closeAll : Nat → Nat → List Round → St → Outcome (Option (List Round × St))
  | 0, _, _, _ => .ok none
  | m + 1, n, rs, s =>
    match s.clients with
    | [] => .ok (some (rs, s))
    | c :: _ => do
      match ← close n rs c.id s with
      | none => return none
      | some (rs, s) => closeAll m n rs s

/-- `LIST_FOREACH(client, &self->clients, link) stream_close(client->net_stream)`, server.c 2375-2376 -/
def closeStreams (s : St) : St := (s.clients.map (·.id)).foldl closeStream s

/-- the part of `nvnc_del` that deals with the display and the clients, server.c 2366-2379. `keeps` is whether
the application has a reference to the display. -/
def del (m n : Nat) (keeps : Bool) (rs : List Round) (s : St) : Outcome (Option (List Round × St)) :=
  closeAll m n rs (closeStreams { s with display := s.display && keeps })

/-- what is due in the main loop afterwards, when it runs or is freed: `do_deferred_client_close`, server.c
205-221 -/
def after (s : St) : Outcome St :=
  match s.idles with
  | [] => .ok s
  | id :: _ =>
    match find s id with
    | none => .ub "do_deferred_client_close: client used after free"
    | some _ => .ok s

end Verif.Shutdown
