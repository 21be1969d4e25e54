import Verif.Model.Server
import Verif.Model.Pixels

/-!
# What the log calls things

`encoding_to_string` and `encodings_to_string_list` of src/server.c, `rfb_pixfmt_to_string` of src/pixels.c
-/

namespace Verif.Labels
open Verif.Server Verif.Pixels

/-- the bytes of a string -/
def str (s : String) : Bytes := s.toList.map fun c => UInt8.ofNat c.toNat

/-- `encoding_to_string`, src/server.c 745-769 -/
def encoding (e : Int) : String :=
  if e = encRaw then "raw"
  else if e = encCopyRect then "copyrect"
  else if e = encRre then "rre"
  else if e = encHextile then "hextile"
  else if e = encTight then "tight"
  else if e = encTrle then "trle"
  else if e = encZrle then "zrle"
  else if e = encH264 then "open-h264"
  else if e = encCursor then "cursor"
  else if e = encDesktopSize then "desktop-size"
  else if e = encExtDesktopSize then "extended-desktop-size"
  else if e = encQemuKey then "qemu-extended-key-event"
  else if e = encQemuLed then "qemu-led-state"
  else if e = encVmwareLed then "vmware-led-state"
  else if e = encExtClipboard then "extended-clipboard"
  else if e = encPts then "pts"
  else if e = encNtp then "ntp"
  else if e = encContUpdates then "continuous-updates"
  else if e = encFence then "fence"
  else "UNKNOWN"

/-- `snprintf(dst + off, size, ...)` for a text: what is written, with a zero at the end, and the length of
the whole text -/
def snprintf (dst : Bytes) (off size : Nat) (text : Bytes) : Outcome (Bytes × Nat) :=
  if size = 0 then .ok (dst, text.length)
  else do
    let d ← writeAt dst off (text.take (size - 1) ++ [0])
    .ok (d, text.length)

/-- the loop of `encodings_to_string_list`, src/server.c 568-570 -/
def listRest (len : Nat) : List Int → Bytes → Nat → Outcome Bytes
  | [], dst, _ => .ok dst
  | e :: es, dst, off =>
    if off < len then do
      let (dst, n) ← snprintf dst off (len - off) (str "," ++ str (encoding e))
      listRest len es dst (off + n)
    else .ok dst

/-- `encodings_to_string_list`, src/server.c 559-571 -/
def list (len : Nat) (es : List Int) (dst : Bytes) : Outcome Bytes :=
  match es with
  | [] => .ok dst
  | e :: es => do
    let (dst, n) ← snprintf dst 0 len (str (encoding e))
    listRest len es dst n

/-- `rfb_pixfmt_to_string`, src/pixels.c 648-676: the shifts are of 8 bits each, and the cases of the switch
are all different -/
def pixfmtName (p : PixFmt) : String :=
  match p.rshift, p.gshift, p.bshift with
  | 22, 10, 2 => "RGBX1010102"
  | 2, 12, 22 => "BGRX1010102"
  | 20, 10, 0 => "XRGB2101010"
  | 0, 10, 20 => "XBGR2101010"
  | 24, 16, 8 => "RGBX8888"
  | 8, 16, 24 => "BGRX8888"
  | 16, 8, 0 => "XRGB8888"
  | 0, 8, 16 => "XBGR8888"
  | 12, 8, 4 => "RGBX4444"
  | 4, 8, 12 => "BGRX4444"
  | 8, 4, 0 => "XRGB4444"
  | 0, 4, 8 => "XBGR4444"
  | 11, 5, 0 => "RGB565"
  | 5, 2, 0 => "RGB332"
  | 0, 2, 5 => "RGB332"
  | 4, 2, 0 => "RGB222"
  | 0, 2, 4 => "BGR222"
  | _, _, _ => "UNKNOWN"

end Verif.Labels
