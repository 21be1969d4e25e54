import Verif.Model.System

/-!
# What the properties of the server talk about

Everything here is about what is seen from outside: the log of a client lists, in order, what was
written to it and which callbacks were made for it.
-/

namespace Verif.Server

/-- every `Q` in the log comes after some `P` -/
def After (P Q : Eff → Prop) (log : List Eff) : Prop :=
  ∀ pre e post, log = pre ++ e :: post → Q e → ∃ g ∈ pre, P g

/-- the application's callback approved of the credentials -/
inductive Approved : Eff → Prop
  | mk (u p) : Approved (.auth u p true)

/-- the callbacks by which a client controls the application -/
inductive Callback : Eff → Prop
  | key (k d) : Callback (.key k d)
  | keyCode (k d) : Callback (.keyCode k d)
  | pointer (x y m) : Callback (.pointer x y m)
  | fbReq (i x y w h) : Callback (.fbReq i x y w h)
  | cutText (b) : Callback (.cutText b)
  | layout (l) : Callback (.layout l)

/-- what only a client with access may cause -/
inductive Session : Eff → Prop
  | callback {e} : Callback e → Session e
  | send (ch k b) : k.handshake = false → k ≠ .cutText → Session (.send ch k b)
  | newClient : Session .newClient
  | encode (e d f q) : Session (.encode e d f q)
  | disconnectOthers : Session .disconnectOthers

/-- the user names the application approved of -/
def approvedNames : List Eff → List Bytes
  | [] => []
  | .auth u _ true :: es => u :: approvedNames es
  | _ :: es => approvedNames es

/-- the application was asked about credentials -/
def Eff.isAuth : Eff → Bool
  | .auth .. => true
  | _ => false

/-- nvnc_client_get_auth_username, server.c 2736-2740 -/
def authUsername (c : Client) : Option Bytes := if c.username = [] then none else some c.username

/-! ## Examples to instantiate the theorems with -/

def demoFmt : PixFmt :=
  { bpp := 32, depth := 24, bigEndian := 0, trueColour := 1, rmax := 255, gmax := 255,
    bmax := 255, rshift := 16, gshift := 8, bshift := 0 }

def demoFb : Fb := { w := 4, h := 3, fmt := some demoFmt, gbm := false }

/-- an application that knows one user -/
def demoEnv : Env :=
  { experimental := false, now := 7, authFn := fun u p => u == [117] && p == [112],
    layoutFn := fun _ => true, tlsOk := true, appleKey := [1], appleDecrypt := fun _ c => c,
    rsaKey := [2], rsaKeySize := fun m _ => m.length, rsaChallenge := fun _ _ => some [],
    rsaDecrypt := fun c => some c, serverHash := fun _ => List.replicate 32 9,
    clientHash := List.replicate 20 8, stale := fun _ => 0, inflate1 := fun _ => none,
    inflate2 := fun _ _ => none, h264Works := false, encNew := fun _ => true, encodeOk := true,
    cursorMsg := fun _ => none, maxInflight := none, lastWrite := .sent, sentAtOnce := false }

end Verif.Server

namespace Verif.System

open Verif.Server

/-- client `i` sends these bytes, and they arrive in one piece -/
def says (i : Nat) (b : Bytes) : SysOp := .client i (.readable (.data b)) demoEnv []

def hello : Bytes := versionMsg

/-- VeNCrypt handshake with user "u" and password "p" up to ClientInit (shared), in steps -/
def vencrypt (i : Nat) : List SysOp :=
  [says i hello, says i [19], says i [0, 2], says i [0, 0, 1, 6],
   says i [0, 0, 0, 1, 0, 0, 0, 1, 117, 112], says i [1]]

def demo : Sys := fresh "Neat VNC".toUTF8.toList (some demoFb)

/-- run of the demo server -/
def demoRun (ops : List SysOp) : Option Sys :=
  match sysRun [0, 1, 2] ops demo with
  | .ok s => some s
  | _ => none

theorem demo_witness (ops : List SysOp) (i : Nat) (f : Srv → Peer → Bool)
    (h : ((demoRun ops).bind fun s => s.peers[i]?.map (f s.srv)) = some true) :
    ∃ s p, sysRun [0, 1, 2] ops demo = .ok s ∧ s.peers[i]? = some p ∧ f s.srv p = true := by
  unfold demoRun at h
  split at h
  · rename_i s hs
    simp only [Option.bind_some] at h
    cases hp : s.peers[i]? with
    | none => rw [hp] at h; cases h
    | some p => rw [hp] at h; exact ⟨s, p, hs, hp, by simpa using h⟩
  · cases h

end Verif.System
