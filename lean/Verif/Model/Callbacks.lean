import Verif.Basic

/-!
# Model of an application that closes clients in its callbacks

nvnc_client_close, nvnc_client_first and nvnc_client_next in src/server.c, called by the application from its main loop or
while the library is calling it.  What is modelled of the library is which clients it uses before and after it calls the
application; a client that is not in the list has been freed, for client_close frees what it takes off the list.  What
the messages say is in `Model/Server`, where the application is taken not to call the library back; the end of the server
is in `Model/Shutdown`.
-/

namespace Verif.Callbacks

/-- what the application does with clients, in a callback or in its main loop: nothing more; any function of the API
that reads the client, like nvnc_client_get_address or nvnc_client_next; nvnc_client_close.  `data` and `bye` are what it
does in the two callbacks that come while the client is closed -/
inductive React where
  | done
  | use (id : Nat) (rest : React)
  | close (id : Nat) (data bye rest : React)
  deriving DecidableEq, Repr

/-- `server->clients`, the latest first, and the closings of which the application was told -/
structure St where
  clients : List Nat := []
  ended : List Nat := []
  deriving DecidableEq, Repr

/-- a client that the application passes has been freed -/
def app : String := "the application uses a client that has been freed"

/-- the library goes on with a client that has been freed -/
def lib : String := "the library uses a client that has been freed"

/-- What the application does.  For nvnc_client_close that is client_close, server.c 164-203: the clean-up function of
nvnc_set_userdata is called (175), then `client->cleanup_fn` read and called (177-179), then `client->bwe` read and the
client taken off the list and freed (181-202). -/
def run : React → St → Outcome St
  | .done, s => .ok s
  | .use id rest, s => if id ∈ s.clients then run rest s else .ub app
  | .close id data bye rest, s =>
    if id ∉ s.clients then .ub app
    else do
      let s ← run data s
      if id ∉ s.clients then .ub lib
      else do
        let s ← run bye { s with ended := s.ended ++ [id] }
        if id ∉ s.clients then .ub lib
        else run rest { s with clients := s.clients.erase id }

/-- client_close when the library calls it for a client that it holds -/
def close (id : Nat) (f : React × React) (s : St) : Outcome St := run (.close id f.1 f.2 .done) s

/-- LIST_NEXT, include/sys/queue.h 571 -/
def nextOf (l : List Nat) (id : Nat) : Option Nat :=
  match l.dropWhile (· != id) with
  | _ :: n :: _ => some n
  | _ => none

/-- LIST_FOREACH_SAFE (include/sys/queue.h 544-547) with client_close for all but one client, as in
disconnect_all_other_clients, server.c 406-418: the successor is read before the client is closed.  Each round reads the
successor of a client that must be there; `fuel` is the number of rounds. -/
def sweep (self : Option Nat) (f : Nat → React × React) : Nat → Option Nat → St → Outcome St
  | _, none, s => .ok s
  | 0, some _, _ => .ub "out of rounds"
  | k + 1, some n, s =>
    if n ∉ s.clients then .ub lib
    else if self = some n then sweep self f k (nextOf s.clients n) s
    else do
      let s' ← close n (f n) s
      sweep self f k (nextOf s.clients n) s'

/-- what happens in the main loop -/
inductive Ev where
  | connect (id : Nat)                                    -- on_connection
  | serve (id : Nat) (rs : List React)                    -- on_client_event: messages for which it is called
  | init (id : Nat) (shared : Bool) (f : Nat → React × React) (r : React)   -- ClientInit
  | hangUp (id : Nat) (f : React × React)                 -- do_deferred_client_close
  | app (r : React)                                       -- the application, on its own

/-- on_client_event, server.c 1969-1989: after each message, and whatever callback it led to, the client is used again
(buffer_index, 1978).  Callbacks: 996-998 (framebuffer request; process_fb_update_requests follows), 1027, 1052, 1093,
1260, 1490, 1629, and auth_fn of the security types. -/
def serve (id : Nat) : List React → St → Outcome St
  | [], s => .ok s
  | r :: rs, s => do
    let s ← run r s
    if id ∉ s.clients then .ub lib else serve id rs s

/-- on_init_message, server.c 485-487 -/
def others (id : Nat) (shared : Bool) (f : Nat → React × React) (s : St) : Outcome St :=
  if shared then .ok s else sweep (some id) f s.clients.length s.clients.head? s

/-- one round of the main loop.  on_connection, server.c 2060; on_init_message, 480-503: the client is used after the
others are closed (488) and after new_client_fn (497-500); do_deferred_client_close, 205-208.  Only clients that are
there have sockets to be woken by, and numbers of new clients are new. -/
def step (e : Ev) (s : St) : Outcome St :=
  match e with
  | .connect id => .ok { s with clients := id :: s.clients }
  | .serve id rs => if id ∈ s.clients then serve id rs s else .ok s
  | .init id shared f r =>
    if id ∈ s.clients then do
      let s ← others id shared f s
      if id ∉ s.clients then .ub lib
      else serve id [r] s
    else .ok s
  | .hangUp id f => if id ∈ s.clients then close id f s else .ok s
  | .app r => run r s

def steps : List Ev → St → Outcome St
  | [], s => .ok s
  | e :: es, s => do
    let s ← step e s
    steps es s

/-- `for (c = nvnc_client_first(server); c; c = nvnc_client_next(c))` with what the application does for each client,
server.c 2743-2753; the clients visited are returned -/
def walk (f : Nat → React) : Nat → Option Nat → St → Outcome (List Nat × St)
  | _, none, s => .ok ([], s)
  | 0, some _, _ => .ub "out of rounds"
  | k + 1, some n, s => do
    let s ← run (f n) s
    if n ∉ s.clients then .ub app
    else do
      let (l, s) ← walk f k (nextOf s.clients n) s
      .ok (n :: l, s)

end Verif.Callbacks
