import Verif.Model.Server

/-!
# What a client is told about its extensions

RFC 6143 and the community's description of the protocol (rfbproto): a client lists the extensions that it knows among
its encodings. The server answers to -312 (Fence) with a fence, to -313 (ContinuousUpdates) with an
EndOfContinuousUpdates message, once, and to 0xc0a1e5ce (Extended Clipboard) with its capabilities. It says that it
knows -258 (QEMU Extended Key Event) and -1001 (clocks, an extension of this library) with an empty rectangle of that
encoding in an update.
-/

namespace Verif.Extensions

open Verif.Server

/-- the encodings that the client named last -/
def named : List Eff → List Int := List.foldl (fun a e => match e with | .encodings es => es | _ => a) []

/-- An update of empty rectangles for those of the two extensions that are in the list. -/
def announcement (es : List Int) : Bytes :=
  [0, 0, 0, UInt8.ofNat ((if -258 ∈ es then 1 else 0) + (if -1001 ∈ es then 1 else 0))] ++
    (if -258 ∈ es then [0, 0, 0, 0, 0, 0, 0, 0, 0xff, 0xff, 0xfe, 0xfe] else []) ++
    (if -1001 ∈ es then [0, 0, 0, 0, 0, 0, 0, 0, 0xff, 0xff, 0xfc, 0x17] else [])

/-- The clipboard capabilities: all actions, for texts, of which none is to come without having been asked for. -/
def capabilities : Bytes := [3, 0, 0, 0, 0xff, 0xff, 0xff, 0xf8, 0x1f, 0, 0, 1, 0, 0, 0, 0]

/-- The client has named -313 before. -/
def knew (before : List Eff) : Bool :=
  before.any fun e => match e with | .encodings es => es.contains (-313) | _ => false

/-- What the server has to send at once when a client names the encodings `es`, and has done `before`. -/
def Answered (before : List Eff) (es : List Int) (after : List Eff) : Prop :=
  ∃ (ch : Chan) (t : Bytes) (rest : List Eff), t.length = 8 ∧ after =
    (if -313 ∈ es ∧ knew before = false then [.send ch .endOfCont [150]] else []) ++
    (if -1063131698 ∈ es then [.send ch .clip capabilities] else []) ++
    (if -312 ∈ es then [.send ch .fence ([248, 0, 0, 0, 128, 0, 0, 1, 8] ++ t)] else []) ++ rest

end Verif.Extensions
