import Verif.Model.Server

/-!
# Who is waiting for an update
-/

namespace Verif.Server

/-- the client is connected, there is something to show, the client asked for an update (by a request
or by enabling continuous updates), and a pixel it has not been given differs: anywhere for a request,
in the rectangle of the continuous updates when these are enabled -/
def Owed (s : St) : Prop :=
  s.cl.closed = false ∧ s.srv.fb ≠ none ∧ s.cl.freed = false ∧ (s.cl.cont = true ∨ s.cl.nPending ≠ 0) ∧
  ∃ px py, Region.Has s.cl.damage px py ∧ (s.cl.cont = true → Region.Has [s.cl.contRect] px py)

/-- the encoders are available, accept every frame, and the estimate of the bandwidth does not limit
the client -/
def Ample (env : Env) : Prop :=
  (∀ e, env.encNew e = true) ∧ env.encodeOk = true ∧ env.maxInflight = none

/-- a new buffer is followed by the damage it brings (display.c 30-52) -/
def Shown : List (Op × Env × List Read) → Prop
  | [] => True
  | (.display (some _), _, _) :: (.damage _, _, _) :: rest => Shown rest
  | (.display (some _), _, _) :: _ => False
  | _ :: rest => Shown rest

/-- the client turned continuous updates off -/
def TurnedOff (log : List Eff) : Prop :=
  ∃ ch b pl, .msg .ready ch (150 :: 0 :: b) pl ∈ log

end Verif.Server
