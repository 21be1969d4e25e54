import Verif.Model.Server

/-!
# What a client asked for

The pixel format and the encodings that frames have to be in, as the record of a connection shows them
(RFC 6143, 7.3.2, 7.4, 7.5.1 and 7.5.2).
-/

namespace Verif.Formats

open Verif.Server

/-- PIXEL_FORMAT as it is written on the wire, RFC 6143, 7.4 -/
def describe (f : PixFmt) : Bytes :=
  [UInt8.ofNat f.bpp, UInt8.ofNat f.depth, UInt8.ofNat f.bigEndian, UInt8.ofNat f.trueColour,
    UInt8.ofNat (f.rmax / 256), UInt8.ofNat f.rmax, UInt8.ofNat (f.gmax / 256), UInt8.ofNat f.gmax,
    UInt8.ofNat (f.bmax / 256), UInt8.ofNat f.bmax,
    UInt8.ofNat f.rshift, UInt8.ofNat f.gshift, UInt8.ofNat f.bshift, 0, 0, 0]

/-- the format, if there is one, and the encodings -/
structure Asked where
  fmt : Option Bytes
  encs : List Int
deriving DecidableEq

/-- ServerInit announces a format after the size; a client may then ask for another one, and for encodings -/
def Asked.note (a : Asked) : Eff → Asked
  | .send _ .serverInit b => { a with fmt := some ((b.drop 4).take 16) }
  | .pixFmt f => { a with fmt := some (describe f) }
  | .encodings es => { a with encs := es }
  | _ => a

def asked (l : List Eff) : Asked := l.foldl Asked.note ⟨none, []⟩

/-- An encoding and a format are as the client wants them; raw is for everybody (RFC 6143, 7.7). -/
def Suits (a : Asked) (e : Int) (f : PixFmt) : Prop := a.fmt = some (describe f) ∧ (e ∈ a.encs ∨ e = 0)

instance (a : Asked) (e : Int) (f : PixFmt) : Decidable (Suits a e f) := by unfold Suits; infer_instance

/-- The frames that are with an encoder, by their encodings and formats, and those among which the frame is that the
encoder finished last.  With two frames at an encoder either may be finished first; the other one is not delivered. -/
structure Air where
  fly : List (Int × PixFmt) := []
  done : List (Int × PixFmt) := []

def Air.note (a : Air) : Eff → Air
  | .encode e _ f _ => { a with fly := a.fly ++ [(e, f)] }
  | .encodeDone _ => ⟨[], a.fly⟩
  | _ => a

def air (l : List Eff) : Air := l.foldl Air.note {}

/-- no frame is handed to an encoder that has another one, be it taken or refused (that this can happen is
`c23_one_frame_violated`) -/
structure Single (l : List Eff) : Prop where
  taken : ∀ pre e j f q post, l = pre ++ .encode e j f q :: post → (air pre).fly = []
  refused : ∀ pre post, l = pre ++ .encodeFail :: post → (air pre).fly = []

/-- Frames begin in the encoding and the format that the client wants at that time.  They are sent if it still
wants them so, or if the client has fences (-312) to tell frames from before a change from later ones. -/
structure FormatsOk (l : List Eff) : Prop where
  begun : ∀ pre e j f q post, l = pre ++ .encode e j f q :: post → (asked pre).fmt ≠ none → Suits (asked pre) e f
  sent : ∀ pre ch b post, l = pre ++ .send ch .frame b :: post →
    -312 ∈ (asked pre).encs ∨ (air pre).done ≠ [] ∧ ∀ j ∈ (air pre).done, Suits (asked pre) j.1 j.2

end Verif.Formats
