import Verif.Basic

/-!
# Model of what the application attaches to the server and to clients

nvnc_set_userdata and nvnc_get_userdata with the clean-up functions, in src/server.c.  Attached data are numbers; NULL is
`none`.  What is modelled of a connection is that it comes, that the application is called on its behalf, and that it
goes; why it goes is in `Model/Server`.  Framebuffers are in `Model/Displays`.  The clean-up functions themselves are
taken not to call the library.
-/

namespace Verif.Userdata

/-- struct nvnc_common, include/common.h 75-78: `clean` says whether there is a `cleanup_fn` -/
structure Common where
  data : Option Nat := none
  clean : Bool := false
  deriving DecidableEq, Repr

/-- the parts of struct nvnc_client, include/common.h 88-138; `fn` says whether there is a `cleanup_fn` of
nvnc_set_client_cleanup_fn -/
structure Client where
  id : Nat
  common : Common := {}
  fn : Bool := false
  deriving DecidableEq, Repr

/-- the calls that the application gets -/
inductive Ev where
  | clean (d : Option Nat)                       -- a clean-up function of nvnc_set_userdata, with its argument
  | called (i : Nat) (mine srv : Option Nat)     -- a callback for client `i`: what nvnc_get_userdata gives there for
                                                 -- the client and for its server
  | bye (i : Nat) (mine srv : Option Nat)        -- the function of nvnc_set_client_cleanup_fn, likewise
  deriving DecidableEq, Repr

/-- the server while it lasts: its own data, the clients (the latest first), the number of the next one -/
structure State where
  server : Option Common := some {}
  clients : List Client := []
  next : Nat := 0
  log : List Ev := []
  deriving DecidableEq, Repr

/-- what happens -/
inductive Op where
  | connect                                      -- on_connection
  | call (i : Nat)                               -- a message of client `i` makes the server call the application
  | setClient (i : Nat) (c : Common)             -- nvnc_set_userdata for a client
  | setServer (c : Common)                       -- nvnc_set_userdata for the server
  | setFn (i : Nat) (b : Bool)                   -- nvnc_set_client_cleanup_fn
  | close (i : Nat)                              -- client_close
  | del                                          -- nvnc_del
  deriving DecidableEq, Repr

/-- server.c 173-175 and 2362-2364 -/
def cleanUp (c : Common) : List Ev := if c.clean then [.clean c.data] else []

/-- client_close, server.c 173-179: what the application is called for -/
def farewell (srv : Option Nat) (c : Client) : List Ev :=
  cleanUp c.common ++ (if c.fn then [.bye c.id c.common.data srv] else [])

/-- One operation.  Clients that are not there any more are not referred to: such calls of the application are not
modelled.  nvnc_set_userdata (server.c 2639-2644) overwrites what was there. -/
def step (s : State) (o : Op) : State :=
  match s.server with
  | none => s
  | some srv =>
    match o with
    | .connect => { s with clients := { id := s.next } :: s.clients, next := s.next + 1 }
    | .call i => { s with log := s.log ++ (s.clients.filter (·.id == i)).map fun c => .called i c.common.data srv.data }
    | .setClient i d => { s with clients := s.clients.map fun c => if c.id = i then { c with common := d } else c }
    | .setServer d => { s with server := some d }
    | .setFn i b => { s with clients := s.clients.map fun c => if c.id = i then { c with fn := b } else c }
    | .close i => { s with
        clients := s.clients.filter (·.id != i)
        log := s.log ++ (s.clients.filter (·.id == i)).flatMap (farewell srv.data) }
    -- server.c 2358-2383: the server's data first, then the clients from the head of the list on
    | .del => { s with
        server := none, clients := []
        log := s.log ++ cleanUp srv ++ s.clients.flatMap (farewell srv.data) }

def run (ops : List Op) : State := ops.foldl step {}

end Verif.Userdata
