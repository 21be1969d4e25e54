import Verif.Model.Server

/-!
# The whole server: configuration, any number of clients, API calls

`Verif.Model.Server` follows one client.  Here the clients of one `struct nvnc` share the server's
state.  Clients are numbered in the order in which they connect; a freed client keeps its place
(marked `freed`) so that its log stays visible.
-/

namespace Verif.System

open Verif.Server

/-- a client together with everything it and the application saw of it -/
structure Peer where
  cl : Client
  log : List Eff
  deriving Repr, DecidableEq

structure Sys where
  srv : Srv
  peers : List Peer
  deriving Repr, DecidableEq

/-- the single-client view of a peer -/
def Peer.at (p : Peer) (srv : Srv) : St := { srv := srv, cl := p.cl, net := [], log := p.log }

def Peer.of (s : St) : Peer := { cl := s.cl, log := s.log }

/-- `LIST_FOREACH (client, &server->clients, link)` with the server's state threaded through.
The list is walked in order of connection; neatvnc inserts at the head, so its order is the reverse.
What the bodies do to one client does not depend on the other clients. -/
def each (f : Nat → St → Outcome St) : Nat → List Peer → Srv → Outcome (Srv × List Peer)
  | _, [], srv => .ok (srv, [])
  | i, p :: ps, srv => do
    let t ← f i (p.at srv)
    let (srv, ps) ← each f (i + 1) ps t.srv
    .ok (srv, Peer.of t :: ps)

/-- the events that concern a single client -/
def Op.own : Op → Bool
  | .damage _ | .display _ | .cursor => false
  | _ => true

/-- what is done to one client by disconnect_all_other_clients, server.c 406-418 (`i` is the
client that asked for it) -/
def closeOther (i : Nat) (j : Nat) (s : St) : Outcome St :=
  .ok (if j = i ∨ s.cl.freed then s else freeClient s)

/-- what is done to one client by the second loop of nvnc_send_cut_text, server.c 1576-1589, and
send_cut_text_to_client, server.c 1544-1554.  The state of the handshake is not looked at. -/
def cutTextSend (text : Bytes) (s : St) : St :=
  if hasEnc s.cl encExtClipboard then
    match s.srv.provideMsg with
    | none => s
    | some m =>
      if s.cl.clipCaps.testBit clipProvide ∧ text.length ≤ s.cl.clipMax then sendClipProvide m s
      else if s.cl.clipCaps.testBit clipNotify then sendClipNotify s
      else s
  else send .cutText ([3, 0, 0, 0] ++ be32 text.length ++ text) s

/-- the same for every client in the list, with a ghost entry -/
def cutTextTo (text : Bytes) (s : St) : St :=
  if s.cl.freed then s
  else cutTextSend text (if s.cl.closed then s else emit (.offered text) s)

/-- the message compressed by ext_clipboard_save_provide_msg, server.c 1510-1519 -/
def provideBody (text : Bytes) : Bytes := be32 text.length ++ text ++ [0]

/-- ext_clipboard_save_provide_msg, server.c 1498-1542; `zip` is zlib's `compress` -/
def saveProvide (zip : Bytes → Option Bytes) (text : Bytes) (srv : Srv) : Srv :=
  { srv with provideMsg := if text = [] then none else zip (provideBody text) }

/-- the first half of nvnc_send_cut_text, server.c 1561-1574 -/
def cutTextSave (zip : Bytes → Option Bytes) (text : Bytes) (s : Sys) : Srv :=
  if s.peers.any fun p => !p.cl.freed && hasEnc p.cl encExtClipboard then
    saveProvide zip text s.srv
  else { s.srv with provideMsg := none }

/-- nvnc_set_name, server.c 2827-2831: `strncpy` into an array of 256 bytes -/
def setName (name : Bytes) (srv : Srv) : Srv := { srv with name := (cstr name).take 255 }

inductive SysOp where
  | connect                                                -- on_connection, server.c 1998-2086
  | client (i : Nat) (o : Op) (env : Env) (net : List Read)
  | damage (r : Region) (w : Nat → Env × List Read)        -- nvnc__damage_region
  | cursor (w : Nat → Env × List Read)                     -- nvnc_set_cursor
  | display (fb : Option Fb)                               -- the displayed buffer is replaced
  | enableAuth (auth enc fn : Bool)                        -- nvnc_enable_auth
  | tlsCreds                                               -- nvnc_set_tls_creds
  | setName (name : Bytes)                                 -- nvnc_set_name
  | sendCutText (zip : Bytes → Option Bytes) (text : Bytes)  -- nvnc_send_cut_text

/-- an event of one client, and what it does to the others.  disconnect_all_other_clients runs in
the middle of the event; what it does commutes with the rest of the event. -/
def clientStep (table : List Nat) (i : Nat) (o : Op) (env : Env) (net : List Read) (s : Sys) :
    Outcome Sys :=
  match s.peers[i]? with
  | none => .ok s
  | some p =>
    if !Op.own o then .ok s
    else do
      let t ← step table o env net (p.at s.srv)
      let peers := s.peers.set i (Peer.of t)
      if (t.log.drop p.log.length).contains .disconnectOthers then do
        let (srv, peers) ← each (closeOther i) 0 peers t.srv
        .ok { srv := srv, peers := peers }
      else .ok { srv := t.srv, peers := peers }

/-- the body of the loops of nvnc__damage_region, server.c 2625-2636, and of nvnc_set_cursor,
server.c 2931-2933 -/
def kick (table : List Nat) (r : Region) (w : Nat → Env × List Read) (i : Nat) (s : St) :
    Outcome St :=
  step table (.damage r) (w i).1 (w i).2 s

def sysStep (table : List Nat) (o : SysOp) (s : Sys) : Outcome Sys :=
  match o with
  -- without a display buffer the connection is refused (server.c 2048-2051)
  | .connect =>
    if s.srv.fb.isNone then .ok s
    else .ok { s with peers := s.peers ++ [Peer.of (start s.srv)] }
  | .client i o env net => clientStep table i o env net s
  | .damage r w => do
    let (srv, peers) ← each (kick table r w) 0 s.peers s.srv
    .ok { srv := srv, peers := peers }
  | .cursor w => do
    let (srv, peers) ← each (kick table [] w) 0 s.peers
      { s.srv with cursorSeq := s.srv.cursorSeq + 1 }
    .ok { srv := srv, peers := peers }
  | .display fb => .ok { s with srv := { s.srv with fb := fb } }
  -- nvnc_enable_auth, server.c 2887-2897: the list of security types is left alone
  | .enableAuth a e f =>
    .ok { s with srv := { s.srv with requireAuth := a, requireEnc := e, hasAuthFn := f } }
  | .tlsCreds => .ok { s with srv := { s.srv with hasTls := true } }
  | .setName n => .ok { s with srv := setName n s.srv }
  | .sendCutText zip text => do
    let (srv, peers) ← each (fun _ s => .ok (cutTextTo text s)) 0 s.peers (cutTextSave zip text s)
    .ok { srv := srv, peers := peers }

def sysRun (table : List Nat) : List SysOp → Sys → Outcome Sys
  | [], s => .ok s
  | o :: rest, s => do
    let s ← sysStep table o s
    sysRun table rest s

/-- nvnc_new, server.c 2213-2235: a server with a name and possibly a display, nothing configured -/
def fresh (name : Bytes) (fb : Option Fb) : Sys :=
  { srv := { requireAuth := false, requireEnc := false, hasAuthFn := false, hasTls := false,
             secTypes := [], name := name, fb := fb, cursorSeq := 0, provideMsg := none,
             nDamageClients := 0 },
    peers := [] }

end Verif.System
