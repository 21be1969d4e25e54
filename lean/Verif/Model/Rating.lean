import Verif.Model.Cursor

/-!
# The rating of pixel formats

src/pixels.c 691-830 and src/server.c 2952-2993.  Ratings are `double`s in the code; here they are fractions.
-/

namespace Verif.Rating
open Verif.Server (PixFmt)
open Verif.Pixels

/-- a fraction; `den` is positive -/
structure Frac where
  num : Int
  den : Int
  deriving Repr, DecidableEq

def Frac.lt (a b : Frac) : Prop := a.num * b.den < b.num * a.den

instance (a b : Frac) : Decidable (a.lt b) := inferInstanceAs (Decidable (_ < _))

def Frac.le (a b : Frac) : Prop := a.num * b.den ≤ b.num * a.den

def zero : Frac := ⟨0, 1⟩

/-- get_format_depth, pixels.c 691-697 -/
def formatDepth (f : Fourcc) : Nat :=
  match pixfmt f with
  | some p => p.depth
  | none => 0

/-- rate_format_by_depth, pixels.c 717-730, times 30 -/
def rateDepth (f : Fourcc) (target : Nat) : Int :=
  let depth := formatDepth f
  if depth = 0 then 0
  else if target ≤ depth then target + 30 - depth
  else depth

/-- format_has_alpha, pixels.c 732-750: DRM_FORMAT_BIG_ENDIAN is not masked -/
def hasAlpha (f : Fourcc) : Bool :=
  match f.code with
  | .four _ _ alpha => alpha && !f.big
  | _ => false

/-- rfb_pixfmt_depth, pixels.c 754-761 -/
def clientDepth (p : PixFmt) : Nat := popcount p.rmax + popcount p.gmax + popcount p.bmax

/-- amd_format_modifier_is_allowed, pixels.c 764-768; DCC is bit 13 and DCC_RETILE is bit 14 in drm_fourcc.h -/
def amdAllowed (modifier : Nat) : Bool := !modifier.testBit 13 && !modifier.testBit 14

/-- format_modifier_allow_list, pixels.c 770-778: linear, and three of vendor 1 -/
def allowList : List Nat := [0, 0x0100000000000001, 0x0100000000000002, 0x0100000000000003]

/-- format_modifier_is_allowed, pixels.c 780-791; AMD is vendor 2 -/
def modifierAllowed (modifier : Nat) : Bool :=
  if modifier / 72057594037927936 % 256 = 2 then amdAllowed modifier
  else allowList.contains modifier

/-- the last part of rate_pixel_format, pixels.c 814-826 -/
def weigh (depth : Int) (linear : Bool) (alpha : Bool) (preferLinear : Bool) : Frac :=
  let linearWeight := if preferLinear then 10 else 0
  ⟨100 * depth + 30 * (linearWeight * (if linear then 1 else 0) + 1 * (if alpha then 1 else 0)),
    30 * (100 + linearWeight + 1)⟩

/-- rate_pixel_format, pixels.c 793-827 -/
def rate (f : Fourcc) (modifier : Nat) (needAlpha preferLinear : Bool) (target : Nat) : Frac :=
  if rateDepth f target = 0 then zero
  else if modifierAllowed modifier = false then zero
  else if needAlpha then
    if hasAlpha f = false then zero
    else weigh (rateDepth f target) (modifier == 0) (hasAlpha f) preferLinear
  else weigh (rateDepth f target) (modifier == 0) (!hasAlpha f) preferLinear

/-- the loop of find_highest_client_depth, server.c 2954-2961 -/
def deepest : List PixFmt → Nat → Nat
  | [], best => best
  | p :: ps, best => deepest ps (if best < clientDepth p then clientDepth p else best)

/-- find_highest_client_depth, server.c 2952-2964 -/
def highestDepth (clients : List PixFmt) : Nat :=
  if deepest clients 0 ≠ 0 then deepest clients 0 else 24

/-- nvnc_rate_pixel_format, server.c 2971-2980; `simple` is NVNC_FB_SIMPLE -/
def ratePixelFormat (clients : List PixFmt) (simple : Bool) (f : Fourcc) (modifier : Nat) : Frac :=
  if simple ∧ modifier ≠ 0 then zero else rate f modifier false false (highestDepth clients)

/-- nvnc_rate_cursor_pixel_format, server.c 2983-2993 -/
def rateCursorFormat (clients : List PixFmt) (simple : Bool) (f : Fourcc) (modifier : Nat) : Frac :=
  if simple ∧ modifier ≠ 0 then zero else rate f modifier true false (highestDepth clients)

/-- fourcc_to_pixman_fmt, pixels.c 464-535, on a little endian host -/
def pixmanKnown (f : Fourcc) : Outcome Bool :=
  if f.big then .abort "DRM_FORMAT_BIG_ENDIAN"
  else match f.code with
  | .four .w8 _ _ => .ok true
  | .four _ .argb _ => .ok true
  | .four _ .abgr _ => .ok true
  | .rgb888 => .ok true
  | .bgr888 => .ok true
  | _ => .ok false

/-- the formats are looked up in resample_now, resampler.c 111-121 -/
def resampleFormat (f : Fourcc) : Outcome Unit := do
  let ok ← pixmanKnown f
  if ok then .ok () else .abort "assert(ok)"

end Verif.Rating
