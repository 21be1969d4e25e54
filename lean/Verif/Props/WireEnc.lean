import Verif.Props.Wire
import Verif.Props.Raw
import Verif.Props.ZrleFrame
import Verif.Props.Tight
import Verif.Props.H264
import Verif.Props.Cursor

/-!
# C98: what the encoders write can be read
-/

namespace Verif.Wire

open Verif.Enc Verif.Pixels Verif.Vec
open Verif.Server (PixFmt toInt32 be32i)

variable {z : Sizes}

/-- where a rectangle is, its size and its encoding -/
def RectMsg.place (q : RectMsg) : Nat × Nat × Nat × Nat × Int := (q.x, q.y, q.w, q.h, q.enc)

/-- a box on the display as a rectangle -/
def boxPlace (xpos ypos : Nat) (enc : Int) (b : Box) : Nat × Nat × Nat × Nat × Int :=
  (xpos + b.x1, ypos + b.y1, b.w, b.h, enc)

/-- a box has its place in 16 bits -/
def Small (xpos ypos : Nat) (b : Box) : Prop :=
  xpos + b.x1 < 65536 ∧ ypos + b.y1 < 65536 ∧ b.w < 65536 ∧ b.h < 65536

theorem small_in {xpos ypos : Nat} {fb : Fb} (hw : xpos + fb.width < 65536) (hh : ypos + fb.height < 65536) {b : Box}
    (h : b.In fb) : Small xpos ypos b := by
  obtain ⟨h1, h2, h3, h4⟩ := h
  unfold Small Box.w Box.h
  omega

theorem read_box {xpos ypos : Nat} {b : Box} (hs : Small xpos ypos b) {e : Int} (h1 : -2147483648 ≤ e)
    (h2 : e < 2147483648) {body : Bytes} (hb : bodySize z b.w b.h e body = some body.length) :
    readRect z (be16 (xpos + b.x1) ++ be16 (ypos + b.y1) ++ be16 b.w ++ be16 b.h ++ be32i e ++ body) =
      some (⟨xpos + b.x1, ypos + b.y1, b.w, b.h, e, body⟩, []) := by
  obtain ⟨a1, a2, a3, a4⟩ := hs
  have := read_rect (z := z) (xpos + b.x1) (ypos + b.y1) b.w b.h h1 h2 (body := body)
    (by rw [Nat.mod_eq_of_lt a3, Nat.mod_eq_of_lt a4]; exact hb)
  rw [Nat.mod_eq_of_lt a1, Nat.mod_eq_of_lt a2, Nat.mod_eq_of_lt a3, Nat.mod_eq_of_lt a4] at this
  exact this

theorem readRects_cons {b r : Bytes} {q : RectMsg} {qs : List RectMsg} {n : Nat}
    (h1 : readRect z b = some (q, [])) (h2 : readRects z n r = some (qs, [])) :
    readRects z (n + 1) (b ++ r) = some (q :: qs, []) := by
  have := readRects_append (readRects_one h1) h2
  rw [Nat.add_comm] at this
  exact this

/-! ## Raw -/

theorem cells_length (b : Box) : b.cells.length = b.w * b.h := by
  unfold Box.cells
  rw [List.length_flatMap]
  simp only [List.length_map, List.length_range, List.map_const', List.sum_replicate_nat]
  rw [Nat.mul_comm]

theorem read_raw {xpos ypos : Nat} {pix : Nat × Nat → Bytes} (hp : ∀ a, (pix a).length = z.pixel) {b : Box}
    (hs : Small xpos ypos b) : readRect z (rawRect xpos ypos pix b) =
      some (⟨xpos + b.x1, ypos + b.y1, b.w, b.h, 0, b.cells.flatMap pix⟩, []) := by
  have : ([0, 0, 0, 0] : Bytes) = be32i 0 := rfl
  unfold rawRect
  rw [this]
  refine read_box hs (by decide) (by decide) ?_
  rw [flatMap_length hp, cells_length]
  rfl

theorem read_raws {xpos ypos : Nat} {pix : Nat × Nat → Bytes} (hp : ∀ a, (pix a).length = z.pixel) :
    ∀ {bs : List Box}, (∀ b ∈ bs, Small xpos ypos b) →
      readRects z bs.length (bs.flatMap (rawRect xpos ypos pix)) =
        some (bs.map fun b => ⟨xpos + b.x1, ypos + b.y1, b.w, b.h, 0, b.cells.flatMap pix⟩, [])
  | [], _ => rfl
  | b :: bs, h => by
    rw [List.flatMap_cons, List.map_cons]
    exact readRects_cons (read_raw hp (h b (by simp))) (read_raws hp fun b hb => h b (by simp [hb]))

/-- What the raw encoder writes is read as rectangles in raw encoding, as many as it says, each of a box of
the framebuffer. -/
theorem c98_raw_partial {m0 : Heap} {m : Nat → Heap} (hm0 : Plenty m0) (hm : ∀ i, Plenty (m i)) {xpos ypos : Nat}
    {fb : Fb} (hf : fb.Ok) (hp : Plain fb.f) (hw : xpos + fb.width < 65536) (hh : ypos + fb.height < 65536)
    {dst : PixFmt} {l : Layout} (hd : Sane dst l) (hz : z.pixel = dst.bpp / 8)
    {bs : List Box} (hb : ∀ b ∈ bs, b.In fb) :
    ∃ p n qs, ∃ rects : List Box, rawWork m0 m xpos ypos dst fb bs = .ok (p, n) ∧ readRects z n p = some (qs, []) ∧
      qs.map RectMsg.place = rects.map (boxPlace xpos ypos 0) ∧ ∀ b ∈ rects, b.In fb := by
  obtain ⟨pix, h1, rects, h2, -, -, -, h3⟩ := c46_raw_partial hm0 hm (xpos := xpos) (ypos := ypos) hf hp hd hb
  refine ⟨_, _, _, rects, h3, read_raws (fun a => by rw [hz]; exact (h1 a.1 a.2).1)
    (fun b hb => small_in hw hh (h2 b hb)), ?_, h2⟩
  rw [List.map_map]
  rfl

/-- two rectangles of a framebuffer that is at (5, 7) -/
example := c98_raw_partial (z := ⟨2, 2⟩) (m0 := fun _ => some fun _ => 0) (m := fun _ _ => some fun _ => 0) (fun _ => rfl)
  (fun _ _ => rfl) (xpos := 5) (ypos := 7) demoFb_ok (by decide) (by decide) (by decide) sane565 rfl
  (bs := [⟨0, 0, 2, 1⟩, ⟨2, 0, 3, 2⟩]) (by decide)

example : readRects ⟨2, 2⟩ 2 ([0, 5, 0, 7, 0, 2, 0, 1, 0, 0, 0, 0] ++ [0x10, 0x40, 0x31, 0x44] ++
      [0, 7, 0, 7, 0, 1, 0, 2, 0, 0, 0, 0] ++ [0x52, 0x48, 0xd6, 0x58]) =
    some ([⟨5, 7, 2, 1, 0, [0x10, 0x40, 0x31, 0x44]⟩, ⟨7, 7, 1, 2, 0, [0x52, 0x48, 0xd6, 0x58]⟩], []) := by
  decide +kernel

/-! ## ZRLE -/

theorem read_zrle {xpos ypos : Nat} {b : Box} (hs : Small xpos ypos b) {c : Bytes} (hc : c.length < 4294967296) :
    readRect z (zrleRect xpos ypos b c) = some (⟨xpos + b.x1, ypos + b.y1, b.w, b.h, 16, be32 c.length ++ c⟩, []) := by
  have : ([0, 0, 0, 16] : Bytes) = be32i 16 := rfl
  unfold zrleRect
  rw [this, List.append_assoc _ (be32 c.length)]
  refine read_box hs (by decide) (by decide) ?_
  show ((takeN 4 (be32 c.length ++ c)).map fun q => 4 + beNat q.1) = _
  rw [takeN_eq (n := 4) (x := be32 c.length) rfl]
  show some (4 + beNat (be32 c.length)) = _
  rw [beNat_four, Nat.mod_eq_of_lt hc, List.length_append, be32_length]

theorem read_zrles {size : Nat} {one : Bytes → Bytes} {fb : Fb} {xpos ypos : Nat} :
    ∀ {bs : List Box} {s s' : Zs} {p : Bytes}, (∀ b ∈ bs, Small xpos ypos b) →
      ZrleFrame size one fb xpos ypos bs s p s' →
      ∃ qs, readRects z bs.length p = some (qs, []) ∧ qs.map RectMsg.place = bs.map (boxPlace xpos ypos 16)
  | [], _, _, _, _, h => by rw [h.1]; exact ⟨[], rfl, rfl⟩
  | b :: bs, _, _, _, hs, ⟨_, c, rest, e1, e2, _, e4⟩ => by
    obtain ⟨qs, h1, h2⟩ := read_zrles (fun b hb => hs b (by simp [hb])) e4
    rw [e1]
    refine ⟨_, readRects_cons (read_zrle (hs b (by simp)) e2) h1, ?_⟩
    rw [List.map_cons, List.map_cons, h2]
    rfl

/-- What the ZRLE encoder writes is read as rectangles in ZRLE encoding, as many as it says. -/
theorem c98_zrle_partial {m0 : Heap} {m : Nat → Nat → Heap} (hm : ∀ i j, Plenty (m i j)) {xpos ypos : Nat}
    {fb : Fb} (hf : fb.Ok) (hp : Plain fb.f) (hw : xpos + fb.width < 65536) (hh : ypos + fb.height < 65536)
    {dst : PixFmt} {l : Layout} (hd : Sane dst l) (hc : CpixelOk dst l)
    {bs : List Box} (hb : ∀ b ∈ bs, b.In fb)
    (hpal : cpixelSize dst l = 4 → bs.length < 65536 ∧ ∀ b ∈ bs, ∀ t ∈ rfcTiles b.w b.h, ∀ k,
      Colours (tilePixels fb b t) k → k ≤ 12 ∨ 16 < k)
    {s : Zs} {as : List Ans} (has : total as < 4294967296) {p : Bytes} {n : Nat} {s' : Zs}
    (e : zrleWork m0 m xpos ypos dst fb bs s as = .ok (p, n, s')) :
    ∃ qs, ∃ rects : List Box, readRects z n p = some (qs, []) ∧ qs.map RectMsg.place = rects.map (boxPlace xpos ypos 16) ∧
      ∀ b ∈ rects, b.In fb := by
  obtain ⟨one, -, rects, h1, h2, -, -, -, h3⟩ := (c42_zrle_partial hm hf hp hd hc hb hpal has).2 p n s' e
  obtain ⟨qs, h4, h5⟩ := read_zrles (z := z) (fun b hb => small_in hw hh (h1 b hb)) h3
  exact ⟨qs, rects, by rw [← h2]; exact h4, h5, h1⟩

example {p : Bytes} {n : Nat} {s' : Zs} := c98_zrle_partial (p := p) (n := n) (s' := s') (z := ⟨4, 3⟩) (m0 := fun _ => some fun _ => 0) (m := fun _ _ _ => some fun _ => 0)
  (fun _ _ _ => rfl) (xpos := 5) (ypos := 7) demoFb_ok (by decide) (by decide) (by decide) saneXrgb cpixelXrgb
  (bs := [⟨0, 0, 2, 1⟩, ⟨2, 0, 3, 2⟩]) (by decide)
  (fun h => absurd h (by decide)) (s := ⟨[], [], []⟩) (as := demoAnswers) (by decide)

example : readRects ⟨4, 3⟩ 2 ([0, 5, 0, 7, 0, 2, 0, 1, 0, 0, 0, 16, 0, 0, 0, 3, 1, 2, 3] ++
      [0, 7, 0, 7, 0, 1, 0, 2, 0, 0, 0, 16, 0, 0, 0, 2, 4, 5]) =
    some ([⟨5, 7, 2, 1, 16, [0, 0, 0, 3, 1, 2, 3]⟩, ⟨7, 7, 1, 2, 16, [0, 0, 0, 2, 4, 5]⟩], []) := by decide +kernel

/-! ## Tight -/

theorem read_tight {xpos ypos : Nat} {b : Box} (hs : Small xpos ypos b) {ctl : UInt8} {len data : Bytes}
    (hl : ∀ more, readCompact (len ++ more) = some (data.length, more))
    (hc : ctl.toNat / 16 = 9 ∨ (ctl.toNat / 16 < 4 ∧ 12 ≤ b.w * b.h * z.tpixel)) :
    readRect z (tightHead xpos ypos b ++ [ctl] ++ len ++ data) =
      some (⟨xpos + b.x1, ypos + b.y1, b.w, b.h, 7, ctl :: (len ++ data)⟩, []) := by
  have : ([0, 0, 0, 7] : Bytes) = be32i 7 := rfl
  unfold tightHead
  rw [this]
  simp only [List.append_assoc]
  simp only [← List.append_assoc (be16 _), ← List.append_assoc (be16 _ ++ _)]
  refine read_box hs (by decide) (by decide) ?_
  show tightSize z.tpixel b.w b.h (ctl :: (len ++ data)) = _
  unfold tightSize
  dsimp only
  rw [if_neg (by omega), if_pos hc, hl data]
  dsimp only
  show _ = some ((ctl :: (len ++ data)).length)
  rw [List.length_cons, List.length_append]
  congr 1
  omega

theorem read_tight_small {xpos ypos : Nat} {b : Box} (hs : Small xpos ypos b) {ctl : UInt8} {data : Bytes}
    (hd : data.length = b.w * b.h * z.tpixel) (hl : data.length < 12) (hc : ctl.toNat / 16 < 4) :
    readRect z (tightHead xpos ypos b ++ [ctl] ++ data) =
      some (⟨xpos + b.x1, ypos + b.y1, b.w, b.h, 7, ctl :: data⟩, []) := by
  have : ([0, 0, 0, 7] : Bytes) = be32i 7 := rfl
  unfold tightHead
  rw [this]
  simp only [List.append_assoc]
  simp only [← List.append_assoc (be16 _), ← List.append_assoc (be16 _ ++ _)]
  refine read_box hs (by decide) (by decide) ?_
  show tightSize z.tpixel b.w b.h (ctl :: data) = _
  unfold tightSize
  dsimp only
  rw [if_neg (by omega), if_neg (by omega), if_pos hc, ← hd]
  show _ = some ((ctl :: data).length)
  rw [List.length_cons, Nat.add_comm]

theorem stream_ctl (s : Fin 4) : (UInt8.ofNat (16 * s)).toNat / 16 < 4 := by
  revert s; decide

theorem read_tights {one : Bytes → Bytes} (ho : ∀ px, (one px).length = z.tpixel) {fb : Fb} {xpos ypos : Nat} :
    ∀ {bs : List Box} {s s' : Fin 4 → Zs} {p : Bytes}, (∀ b ∈ bs, Small xpos ypos b) →
      TightFrame one fb xpos ypos bs s p s' →
      ∃ qs, readRects z bs.length p = some (qs, []) ∧ qs.map RectMsg.place = bs.map (boxPlace xpos ypos 7)
  | [], _, _, _, _, h => by rw [h.1]; exact ⟨[], rfl, rfl⟩
  | b :: bs, s, s', p, hs, h => by
    have hlen : (tightData one fb b).length = b.w * b.h * z.tpixel := by
      unfold tightData
      rw [flatMap_length (fun a => ho _), cells_length]
    unfold TightFrame at h
    split at h
    · rename_i h12
      obtain ⟨k, rest, e1, e2⟩ := h
      obtain ⟨qs, h1, h2⟩ := read_tights ho (fun b hb => hs b (by simp [hb])) e2
      have h3 := read_tight_small (z := z) (hs b (by simp)) hlen h12 (stream_ctl k)
      rw [e1]
      refine ⟨_, readRects_cons h3 h1, ?_⟩
      rw [List.map_cons, List.map_cons, h2]
      rfl
    · rename_i h12
      obtain ⟨k, len, c, rest, e1, e2, e3⟩ := h
      obtain ⟨qs, h1, h2⟩ := read_tights ho (fun b hb => hs b (by simp [hb])) e3
      have h3 := read_tight (z := z) (hs b (by simp)) e2 (.inr ⟨stream_ctl k, by omega⟩)
      rw [e1]
      refine ⟨_, readRects_cons h3 h1, ?_⟩
      rw [List.map_cons, List.map_cons, h2]
      rfl

theorem read_jpegs {img : Box → Bytes} {xpos ypos : Nat} :
    ∀ {bs : List Box} {p : Bytes}, (∀ b ∈ bs, Small xpos ypos b) → JpegFrame img xpos ypos bs p →
      ∃ qs, readRects z bs.length p = some (qs, []) ∧ qs.map RectMsg.place = bs.map (boxPlace xpos ypos 7)
  | [], _, _, h => by rw [h]; exact ⟨[], rfl, rfl⟩
  | b :: bs, p, hs, ⟨len, rest, e1, e2, e3⟩ => by
    obtain ⟨qs, h1, h2⟩ := read_jpegs (fun b hb => hs b (by simp [hb])) e3
    have h3 := read_tight (z := z) (hs b (by simp)) (ctl := 0x90) e2 (.inl rfl)
    rw [e1]
    refine ⟨_, readRects_cons h3 h1, ?_⟩
    rw [List.map_cons, List.map_cons, h2]
    rfl

theorem tiles_in {fb : Fb} {t : Box} (h : t ∈ rfcTiles fb.width fb.height) : t.In fb := by
  unfold rfcTiles at h
  simp only [List.mem_flatMap, List.mem_map, List.mem_range] at h
  obtain ⟨j, hj, i, hi, rfl⟩ := h
  unfold Box.In
  dsimp only
  omega

/-- What the Tight encoder writes without JPEG is read as rectangles in Tight encoding, as many as it says.

Missing: rectangles of less than 12 bytes, see `c65_small_violated` and `c98_tight_violated`. -/
theorem c98_tight_partial {m0 : Heap} {m : Nat → Nat → Heap} (hm : ∀ i j, Plenty (m i j)) {cfg : TightCfg}
    (hcfg : cfg.jpeg = false ∨ 10 ≤ cfg.quality)
    {xpos ypos : Nat} {fb : Fb} (hf : fb.Ok) (hp : Plain fb.f) {dst : PixFmt} {l : Layout} (hd : Sane dst l)
    (hc : TpixelOk dst) (hz : z.tpixel = tpixelSize dst) (hw : fb.width ≤ 32704 ∧ fb.height ≤ 32704)
    (hx : xpos < 32768) (hy : ypos < 32768) {damage : List Box} (hb : ∀ b ∈ damage, b.In fb)
    (h12 : ∀ t ∈ rfcTiles fb.width fb.height, Touched damage t → 12 ≤ t.w * t.h * tpixelSize dst)
    {grid : List Tile} (hg : grid.length = (fb.height + 63) / 64 * ((fb.width + 63) / 64))
    {zs : Fin 4 → Zs} {ans : Fin 4 → List Ans} {schedule : List (Fin 4)} {p : Bytes} {n : Nat} {zs' : Fin 4 → Zs}
    (hrun : tightEncode m0 m cfg xpos ypos dst fb damage grid zs ans schedule = .ok (p, n, zs')) :
    ∃ qs, ∃ rects : List Box, readRects z n p = some (qs, []) ∧
      qs.map RectMsg.place = rects.map (boxPlace xpos ypos 7) ∧ ∀ b ∈ rects, b.In fb := by
  obtain ⟨one, h1, rects, h2, h3, h4, h5⟩ := c65_basic_partial hm hcfg hf hp hd hc hw hb h12 hg hrun
  have hin : ∀ b ∈ rects, b.In fb := fun b hb => tiles_in ((h4 b).1 hb).1
  obtain ⟨qs, h6, h7⟩ := read_tights (z := z) (fun px => by rw [hz]; exact (h1 px).1)
    (fun b hb => small_in (by omega) (by omega) (hin b hb)) h5
  exact ⟨qs, rects, by rw [← h2]; exact h6, h7, hin⟩

/-- What the Tight encoder writes with JPEG is read as rectangles in Tight encoding, as many as it says. -/
theorem c98_jpeg_partial {m0 : Heap} {m : Nat → Nat → Heap} (hm : ∀ i j, Plenty (m i j)) {cfg : TightCfg}
    (hcfg : cfg.jpeg = true ∧ cfg.quality < 10)
    {xpos ypos : Nat} {fb : Fb} (hf : fb.Ok) (hp : Plain fb.f) (he : Eight fb.f) {dst : PixFmt}
    (hw : fb.width ≤ 32704 ∧ fb.height ≤ 32704)
    (hx : xpos < 32768) (hy : ypos < 32768) {damage : List Box} (hb : ∀ b ∈ damage, b.In fb)
    {img : Box → Bytes} (himg : ∀ t ∈ rfcTiles fb.width fb.height, ∀ c, Shows fb t c →
      c.quality = 11 * cfg.quality + 1 → cfg.compress c = some (img t))
    (hmax : ∀ t ∈ rfcTiles fb.width fb.height, (img t).length ≤ 32768)
    {grid : List Tile} (hg : grid.length = (fb.height + 63) / 64 * ((fb.width + 63) / 64))
    {zs : Fin 4 → Zs} {ans : Fin 4 → List Ans} {schedule : List (Fin 4)} {p : Bytes} {n : Nat} {zs' : Fin 4 → Zs}
    (hrun : tightEncode m0 m cfg xpos ypos dst fb damage grid zs ans schedule = .ok (p, n, zs')) :
    ∃ qs, ∃ rects : List Box, readRects z n p = some (qs, []) ∧
      qs.map RectMsg.place = rects.map (boxPlace xpos ypos 7) ∧ ∀ b ∈ rects, b.In fb := by
  obtain ⟨-, rects, h2, h3, h4, h5⟩ := c65_jpeg_partial hm hcfg hf hp he hw hb himg hmax hg hrun
  have hin : ∀ b ∈ rects, b.In fb := fun b hb => tiles_in ((h4 b).1 hb).1
  obtain ⟨qs, h6, h7⟩ := read_jpegs (z := z) (fun b hb => small_in (by omega) (by omega) (hin b hb)) h5
  exact ⟨qs, rects, by rw [← h2]; exact h6, h7, hin⟩

example {p : Bytes} {n : Nat} {zs' : Fin 4 → Zs} (h : oneTile = .ok (p, n, zs')) :=
  c98_tight_partial (z := ⟨4, 3⟩) (fun _ _ _ => rfl) (.inr (by decide)) demoFb_ok (by decide) saneXrgb
    (.inr (.inr (by decide))) rfl (by decide) (by decide) (by decide) (by decide)
    (fun t ht _ => (by decide : ∀ t ∈ rfcTiles demoFb.width demoFb.height,
      12 ≤ t.w * t.h * tpixelSize demoXrgb) t ht) rfl h

example : readRects ⟨4, 3⟩ 1 [0, 5, 0, 7, 0, 3, 0, 2, 0, 0, 0, 7, 0, 3, 1, 2, 3] =
    some ([⟨5, 7, 3, 2, 7, [0, 3, 1, 2, 3]⟩], []) := by decide +kernel

example {p : Bytes} {n : Nat} {zs' : Fin 4 → Zs} (h : oneImage = .ok (p, n, zs')) :=
  c98_jpeg_partial (z := ⟨4, 3⟩) (fun _ _ _ => rfl) (by decide)
    ⟨by decide, by simp only [List.length_replicate]; decide, by decide⟩ (by decide) (by decide) (by decide)
    (by decide) (by decide)
    (by unfold Box.In; decide) (img := fun t => if t.w = 64 then [1, 2] else [3]) (fun t _ c hc _ => by
      dsimp only
      rw [hc.width]) (by decide) rfl h

example : readRects ⟨4, 3⟩ 1 [0, 69, 0, 7, 0, 1, 0, 1, 0, 0, 0, 7, 0x90, 1, 3] =
    some ([⟨69, 7, 1, 1, 7, [0x90, 1, 3]⟩], []) := by decide +kernel

/-- A rectangle of one pixel from the Tight encoder cannot be read: there is a length in it, and the data are
compressed, though they have less than 12 bytes. -/
theorem c98_tight_violated : ∃ p zs', smallRun = .ok (p, 1, zs') ∧ readRects ⟨4, tpixelSize demoXrgb⟩ 1 p ≠ none ∧
    ∀ qs, readRects ⟨4, tpixelSize demoXrgb⟩ 1 p ≠ some (qs, []) := by
  obtain ⟨p, zs', h1, -⟩ := c65_small_violated
  refine ⟨p, zs', h1, ?_⟩
  have h2 : (match smallRun with
    | .ok (p, _, _) => (readRects ⟨4, tpixelSize demoXrgb⟩ 1 p).map (·.2)
    | _ => none) = some [98, 100, 98, 6, 0, 0, 0, 255, 255] := by decide +kernel
  rw [h1] at h2
  dsimp only at h2
  constructor
  · intro h; rw [h] at h2; cases h2
  · intro qs h; rw [h] at h2; cases h2

/-! ## H.264 -/

theorem beNat_rd16 (a b : UInt8) : beNat [a, b] = rd16 a b := by
  simp only [beNat, rd16, List.foldl_cons, List.foldl_nil]; omega

theorem beNat_rd32 (a b c d : UInt8) : beNat [a, b, c, d] = rd32 a b c d := by
  simp only [beNat, rd32, List.foldl_cons, List.foldl_nil]; omega

theorem read_h264 {b : Bytes} {r : H264.Rect} (e : H264.readRect b = some (r, [])) (h : r.encoding = 50) :
    ∃ q, readRect z b = some (q, []) ∧ q.place = (r.x, r.y, r.width, r.height, 50) := by
  unfold H264.readRect at e
  split at e
  · rename_i x0 x1 y0 y1 w0 w1 h0 h1 e0 e1 e2 e3 l0 l1 l2 l3 f0 f1 f2 f3 l
    split at e
    · rename_i hl
      simp only [Option.some.injEq, Prod.mk.injEq] at e
      obtain ⟨rfl, e⟩ := e
      have hlen := List.drop_eq_nil_iff.1 e
      have he : toInt32 (beNat [e0, e1, e2, e3]) = 50 := by
        rw [beNat_rd32, show rd32 e0 e1 e2 e3 = 50 from h]; rfl
      refine ⟨⟨rd16 x0 x1, rd16 y0 y1, rd16 w0 w1, rd16 h0 h1, 50, l0 :: l1 :: l2 :: l3 :: f0 :: f1 :: f2 :: f3 :: l⟩, ?_, rfl⟩
      have a1 : takeN 12 (x0 :: x1 :: y0 :: y1 :: w0 :: w1 :: h0 :: h1 :: e0 :: e1 :: e2 :: e3 :: l0 :: l1 :: l2 :: l3 ::
          f0 :: f1 :: f2 :: f3 :: l) = some ([x0, x1, y0, y1, w0, w1, h0, h1, e0, e1, e2, e3], l0 :: l1 :: l2 :: l3 ::
          f0 :: f1 :: f2 :: f3 :: l) :=
        takeN_eq (x := [x0, x1, y0, y1, w0, w1, h0, h1, e0, e1, e2, e3]) rfl _
      have a2 : takeN 4 (l0 :: l1 :: l2 :: l3 :: f0 :: f1 :: f2 :: f3 :: l) =
          some ([l0, l1, l2, l3], f0 :: f1 :: f2 :: f3 :: l) := takeN_eq (x := [l0, l1, l2, l3]) rfl _
      have a3 : bodySize z (beNat [w0, w1]) (beNat [h0, h1]) 50 (l0 :: l1 :: l2 :: l3 :: f0 :: f1 :: f2 :: f3 :: l) =
          some (l0 :: l1 :: l2 :: l3 :: f0 :: f1 :: f2 :: f3 :: l).length := by
        show ((takeN 4 (l0 :: l1 :: l2 :: l3 :: f0 :: f1 :: f2 :: f3 :: l)).map fun q => 8 + beNat q.1) = _
        rw [a2]
        show some (8 + beNat [l0, l1, l2, l3]) = _
        rw [beNat_rd32]
        simp only [List.length_cons]
        congr 1
        omega
      have a4 := takeN_append (l0 :: l1 :: l2 :: l3 :: f0 :: f1 :: f2 :: f3 :: l) []
      rw [List.append_nil] at a4
      unfold readRect
      rw [a1]
      show (match bodySize z (beNat [w0, w1]) (beNat [h0, h1]) (toInt32 (beNat [e0, e1, e2, e3]))
          (l0 :: l1 :: l2 :: l3 :: f0 :: f1 :: f2 :: f3 :: l) with
        | none => none
        | some n => match takeN n (l0 :: l1 :: l2 :: l3 :: f0 :: f1 :: f2 :: f3 :: l) with
          | none => none
          | some (body, r) => some (RectMsg.mk (beNat [x0, x1]) (beNat [y0, y1]) (beNat [w0, w1]) (beNat [h0, h1])
              (toInt32 (beNat [e0, e1, e2, e3])) body, r)) = _
      rw [he, a3]
      dsimp only
      rw [a4]
      simp only [beNat_rd16]
    · cases e
  · cases e

/-- What the H.264 encoder hands on is read as one rectangle of the size of the frame. -/
theorem c98_h264_partial {x y : Nat} (hx : x < 65536) (hy : y < 65536) {m m' m'' : Heap} (h : Plenty m) (h' : Plenty m')
    (h'' : Plenty m'') {o : H264.Oh} (hn : H264.new x y m m' m'' = .ok (some o)) {evs : List H264.Ev}
    (hr : ∀ ev ∈ evs, ev.Roomy) {s : H264.Sys} {es : List H264.Eff}
    (e : H264.run ⟨some o, []⟩ evs = .ok (s, es)) :
    ∀ r ∈ H264.finished es, ∃ fr, r = some fr ∧ ∃ q, readRects z fr.nRects fr.payload = some ([q], []) ∧
      q.place = (x, y, fr.width, fr.height, 50) := by
  obtain ⟨h1, h2⟩ := H264.c57_rects_partial hx hy h h' h'' hn hr e
  intro r hr
  obtain ⟨i, hi, rfl⟩ := List.mem_iff_getElem.1 hr
  obtain ⟨fr, h3, h4, h5, h6, -, h7⟩ := h2 ((H264.codedOf es)[i]'(by omega), (H264.finished es)[i])
    (by rw [List.mem_iff_getElem]; exact ⟨i, by rw [List.length_zip]; omega, by simp⟩)
  refine ⟨fr, h3, ?_⟩
  have h8 := h7 []
  rw [List.append_nil] at h8
  obtain ⟨q, h9, h10⟩ := read_h264 (z := z) h8 rfl
  exact ⟨q, by rw [h4]; exact readRects_one h9, by rw [h10, h5, h6]⟩

/-- three frames of two sizes -/
example : (match H264.session H264.demoEvs with
    | .ok es => (H264.finished es).map fun r : Option H264.Frame =>
      match r.bind fun fr => readRects ⟨4, 3⟩ fr.nRects fr.payload with
      | some (qs, []) => qs.map fun q => [q.x, q.y, q.w, q.h]
      | _ => []
    | _ => []) = [[[0, 0, 64, 48]], [[0, 0, 32, 48]], [[0, 0, 32, 48]]] := by decide +kernel

/-! ## Cursor -/

/-- What the server sends for the cursor is an update with one rectangle, of the cursor's size, whose position
is the cursor's hotspot. -/
theorem c98_cursor_partial {m0 m m' m'' : Heap} (hm0 : Plenty m0) (hm' : Plenty m') {fb : Fb} (hf : fb.Ok)
    (hp : Plain fb.f) (ha : hasAlpha fb.f = true) {dst : PixFmt} {l : Layout} (hd : Sane dst l)
    (hz : z.pixel = dst.bpp / 8) {w h hx hy : Nat}
    (hw : w ≤ fb.width) (hh : h ≤ fb.height) (hs : Small 0 0 ⟨hx, hy, hx + w, hy + h⟩)
    (hfit : w % 8 = 0 ∨ 16 + w * h * (dst.bpp / 8) + h * rowLen w ≤ 4096) :
    ∃ b q, sendCursor m0 m m' m'' dst (some fb) w h hx hy = .ok (some ([0, 0, 0, 1] ++ b)) ∧
      readRect z b = some (q, []) ∧ q.place = (hx, hy, w, h, -239) := by
  obtain ⟨pix, mask, h1, ⟨one, h2, h3⟩, h4, -⟩ := c50_cursor_partial (m := m) (m'' := m'') hm0 hm' hf hp ha hd
    (hx := hx) (hy := hy) hw hh hfit
  have e1 : Box.w ⟨hx, hy, hx + w, hy + h⟩ = w := by unfold Box.w; dsimp only; omega
  have e2 : Box.h ⟨hx, hy, hx + w, hy + h⟩ = h := by unfold Box.h; dsimp only; omega
  have h5 : pix.length = w * h * z.pixel := by
    rw [h2, flatMap_length (k := z.pixel) (fun a => by rw [hz]; exact (h3 a.1 a.2).1), cells_length]
    unfold Box.w Box.h
    simp
  have h6 := read_box (z := z) (body := pix ++ mask) hs (e := -239) (by decide) (by decide) (by
    rw [e1, e2, List.length_append, h5, h4]
    show some (w * h * z.pixel + (w + 7) / 8 * h) = _
    rw [show rowLen w = (w + 7) / 8 from by unfold rowLen; split <;> omega, Nat.mul_comm h])
  simp only [Nat.zero_add, e1, e2] at h6
  refine ⟨_, _, ?_, h6, rfl⟩
  rw [h1]
  simp only [List.append_assoc]

example := c98_cursor_partial (z := ⟨2, 2⟩) (m0 := demoHeap) (m := demoHeap) (m' := demoHeap) (m'' := demoHeap)
  (fun _ => rfl) (fun _ => rfl) (fb := demoCursor 3 2 true) ⟨by decide, by decide, by decide⟩ (by decide) (by decide)
  sane565 rfl (w := 3) (h := 2) (hx := 1) (hy := 1) (by decide) (by decide) (by unfold Small Box.w Box.h; decide)
  (.inr (by decide))

/-- The message for a cursor whose image has no alpha channel cannot be read: there is no mask. -/
theorem c98_cursor_violated : ∃ b, sendCursor demoHeap demoHeap demoHeap demoHeap demo565 (some (demoCursor 2 1 false))
      2 1 0 0 = .ok (some ([0, 0, 0, 1] ++ b)) ∧ readRect ⟨2, 2⟩ b = none :=
  ⟨[0, 0, 0, 0, 0, 2, 0, 1, 0xff, 0xff, 0xff, 0x11, 0x61, 0x80, 0x2f, 0xd9], by
    rw [c50_cursor_violated.2]; rfl, by decide +kernel⟩

end Verif.Wire
