import Verif.Spec.Frames

/-!
# What it means that clients learn the state of the LEDs
-/

namespace Verif.Leds

open Verif.Server

/-- an update with one rectangle without area, of encoding -261, that carries the state in one byte -/
def ledUpdate (v : Int) : Bytes :=
  [0, 0, 0, 1, 0, 0, 0, 0, 0, 0, 0, 0, 255, 255, 254, 251, UInt8.ofNat (v % 256).toNat]

/-- the client knows that the LEDs are in state `v` (-1 is what it knows at first) -/
def Knows (log : List Eff) (v : Int) : Prop := v = (leds log).told.getD (-1)

end Verif.Leds
