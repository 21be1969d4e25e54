import Verif.Basic

/-! # Model of listening sockets and connections: src/server.c 1997-2417

The kernel's answers are parameters.  Descriptors are numbered in the order in which they come into being and no number is
used twice, so that they can be told apart. -/

namespace Verif.Listen

/-- `struct nvnc__socket`, common.h 160-167; `path` is the file of a Unix socket -/
structure Sock where
  fd : Nat
  external : Bool
  ws : Bool
  path : Option Nat
  deriving DecidableEq, Repr

structure State where
  sockets : List Sock := []
  /-- descriptors of the streams of clients -/
  clients : List Nat := []
  /-- whether there is a display, and whether it has a buffer -/
  display : Option Bool := none
  dead : Bool := false
  /-- existing files of Unix sockets -/
  files : List Nat := []
  nextFd : Nat := 3
  /-- ghost: descriptors that became the server's -/
  owned : List Nat := []
  /-- ghost: calls of `close` -/
  closes : List Nat := []
  /-- ghost: files that the application made -/
  appFiles : List Nat := []
  deriving DecidableEq, Repr

/-- the fate of one address in `bind_address_tcp` -/
inductive Addr where
  | noSocket | noOption | noBind | bound
  deriving DecidableEq, Repr

def openFd (s : State) : State := { s with nextFd := s.nextFd + 1, owned := s.owned ++ [s.nextFd] }

def closeFd (fd : Nat) (s : State) : State := { s with closes := s.closes ++ [fd] }

/-- `bind_address_tcp`, server.c 2107-2158; `[]` is a failure of `getaddrinfo` too -/
def bindTcp : List Addr → State → Option Nat × State
  | [], s => (none, s)
  | .noSocket :: l, s => bindTcp l s
  | .noOption :: l, s => bindTcp l (closeFd s.nextFd (openFd s))
  | .noBind :: l, s => bindTcp l (closeFd s.nextFd (openFd s))
  | .bound :: _, s => (some s.nextFd, openFd s)

/-- `bind_address_unix`, server.c 2160-2182: `fits` is whether the path is short enough, `sock` whether `socket()`
succeeds; `bind` fails at least if the file exists, and otherwise if `bind` is false -/
def bindUnix (path : Nat) (fits sock bind : Bool) (s : State) : Option Nat × State :=
  if !fits then (none, s)
  else if !sock then (none, s)
  else if bind && decide (path ∉ s.files) then
    (some s.nextFd, { openFd s with files := s.files ++ [path] })
  else (none, closeFd s.nextFd (openFd s))

/-- `nvnc__listen`, server.c 2184-2212: `ok` is whether the allocations and `listen()` succeed -/
def listen (fd : Nat) (external ws : Bool) (path : Option Nat) (ok : Bool) (s : State) : Option State :=
  if ok then some { s with sockets := ⟨fd, external, ws, path⟩ :: s.sockets } else none

def unlink (path : Nat) (s : State) : State := { s with files := s.files.filter (· ≠ path) }

/-- `nvnc_listen_tcp`, server.c 2239-2255 -/
def listenTcp (ws : Bool) (addrs : List Addr) (ok : Bool) (s : State) : State × Bool :=
  match bindTcp addrs s with
  | (none, s) => (s, false)
  | (some fd, s) =>
    match listen fd false ws none ok s with
    | some s => (s, true)
    | none => (closeFd fd s, false)

/-- `nvnc_listen_unix`, server.c 2257-2279 -/
def listenUnix (ws : Bool) (path : Nat) (fits sock bind ok : Bool) (s : State) : State × Bool :=
  match bindUnix path fits sock bind s with
  | (none, s) => (s, false)
  | (some fd, s) =>
    match listen fd false ws (some path) ok s with
    | some s => (s, true)
    | none => (closeFd fd (if ws then unlink path s else s), false)

/-- `nvnc_listen`, server.c 2232-2237, for a descriptor of the application's, bound to a file of its own if `path` says so.
The descriptor becomes the server's if the call succeeds. -/
def listenFd (ws : Bool) (path : Option Nat) (ok : Bool) (s : State) : State × Bool :=
  match listen s.nextFd true ws path ok s with
  | some t => ({ t with nextFd := s.nextFd + 1, owned := s.owned ++ [s.nextFd] }, true)
  | none => ({ s with nextFd := s.nextFd + 1 }, false)

inductive Accept where
  | noMemory | refused | noStream | ok
  deriving DecidableEq, Repr

/-- `on_connection`, server.c 1997-2085.  That the version message cannot be allocated is not modelled.  `stream_destroy`
closes the descriptor (tcp.c 54-66). -/
def onConnection (a : Accept) (s : State) : Outcome State :=
  match a with
  | .noMemory => .ok s
  | .refused => .ok s
  | .noStream => .ok (closeFd s.nextFd (openFd s))
  | .ok =>
    match s.display with
    | none => .ub "server->display->buffer, NULL display"
    | some false => .ok (closeFd s.nextFd (closeFd s.nextFd (openFd s)))
    | some true => .ok { openFd s with clients := s.nextFd :: s.clients }

/-- the loop over the sockets in `nvnc_del`, server.c 2381-2394, with `unlink_fd_path`, 2345-2355 -/
def delSockets : List Sock → State → State
  | [], s => s
  | k :: l, s =>
    delSockets l (closeFd k.fd (match k.external, k.path with
      | false, some p => unlink p s
      | _, _ => s))

/-- the loops over the clients in `nvnc_del`, server.c 2375-2379: each stream is closed once, by the first -/
def delClients : List Nat → State → State
  | [], s => s
  | c :: l, s => delClients l (closeFd c s)

/-- `nvnc_del`, server.c 2357-2411 -/
def del (s : State) : State :=
  { delSockets s.sockets (delClients s.clients s) with sockets := [], clients := [], dead := true }

inductive Op where
  | listenTcp (ws : Bool) (addrs : List Addr) (ok : Bool)
  | listenUnix (ws : Bool) (path : Nat) (fits sock bind ok : Bool)
  | listenFd (ws : Bool) (path : Option Nat) (ok : Bool)
  /-- the application makes the file of a Unix socket, if it does not exist -/
  | appFile (path : Nat)
  /-- `nvnc_add_display`, `nvnc_remove_display` and the first `nvnc_display_feed_buffer` -/
  | display (d : Option Bool)
  | connect (a : Accept)
  /-- a client goes away: its stream is closed and destroyed -/
  | gone (fd : Nat)
  | del
  deriving DecidableEq, Repr

def step (o : Op) (s : State) : Outcome State :=
  if s.dead then .ok s
  else match o with
  | .listenTcp ws addrs ok => .ok (listenTcp ws addrs ok s).1
  | .listenUnix ws path fits sock bind ok => .ok (listenUnix ws path fits sock bind ok s).1
  | .listenFd ws path ok =>
    if path.all (fun p => decide (p ∈ s.appFiles)) then .ok (listenFd ws path ok s).1 else .ok s
  | .appFile p =>
    if p ∈ s.files then .ok s else .ok { s with files := s.files ++ [p], appFiles := s.appFiles ++ [p] }
  | .display d => .ok { s with display := d }
  | .connect a => if s.sockets = [] then .ok s else onConnection a s
  | .gone fd => if fd ∈ s.clients then .ok { closeFd fd s with clients := s.clients.erase fd } else .ok s
  | .del => .ok (del s)

def run : List Op → State → Outcome State
  | [], s => .ok s
  | o :: os, s =>
    match step o s with
    | .ok s => run os s
    | .ub w => .ub w
    | .abort w => .abort w

/-- `sockaddr_to_string`, server.c 2087-2105, into an array that is not initialised: whether it was written to -/
def addressWritten (family : Nat) : Bool := family == 2 || family == 10

/-- the log line of `on_connection`, server.c 2066-2073, for a peer of the address family (1 is AF_UNIX, 2 AF_INET,
10 AF_INET6).  It is not part of `onConnection`. -/
def announce (family : Nat) : Outcome Unit :=
  if addressWritten family then .ok () else .ub "%s of uninitialised memory"

end Verif.Listen
