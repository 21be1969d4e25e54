import Verif.Lemmas.TightWork

/-!
# C44, C45, C65: Tight
-/

namespace Verif.Enc
open Verif.Server (PixFmt be32i)
open Verif.Pixels
open Verif.Vec (Heap Vec Ok reserve_ok step_ok write_end bytes_length sizeT reserve)

/-- **C44**: every length below 2^22 is encoded, if there is room, so that it is read as it was -/
theorem c44_compact {n : Nat} (hn : n < 4194304) {v : Vec} (hv : Ok v) (hroom : v.len + 3 ≤ v.cap) :
    ∃ v' len, encodeSize n v = .ok v' ∧ Ok v' ∧ v'.bytes = v.bytes ++ len ∧ len.length ≤ 3 ∧
      ∀ more, readCompact (len ++ more) = some (n, more) := by
  have key : ∀ w : Vec, ∀ x, Ok w → w.len < w.cap → ∃ w', push x w = .ok w' ∧ Ok w' ∧ w'.len = w.len + 1 ∧ w'.cap = w.cap := by
    intro w x hw hl
    obtain ⟨w', e, o, c, b⟩ := push_adds (x := x) hw hl
    have := congrArg List.length b
    rw [List.length_append, bytes_length o, bytes_length hw] at this
    exact ⟨w', e, o, this, c⟩
  have hok : ∃ v', encodeSize n v = .ok v' := by
    unfold encodeSize
    obtain ⟨v1, e1, o1, l1, c1⟩ := key v (UInt8.ofNat ((n &&& 0x7f) ||| (if 128 ≤ n then 1 <<< 7 else 0))) hv (by omega)
    rw [e1, Outcome.bind_ok]
    by_cases h1 : 128 ≤ n
    · obtain ⟨v2, e2, o2, l2, c2⟩ := key v1 (UInt8.ofNat (((n >>> 7) &&& 0x7f) ||| (if 16384 ≤ n then 1 <<< 7 else 0)))
        o1 (by omega)
      simp only [if_pos h1]
      rw [e2, Outcome.bind_ok]
      by_cases h2 : 16384 ≤ n
      · rw [if_pos h2]
        obtain ⟨v3, e3, -⟩ := key v2 (UInt8.ofNat ((n >>> 14) &&& 0xff)) o2 (by omega)
        exact ⟨v3, e3⟩
      · rw [if_neg h2]
        exact ⟨_, rfl⟩
    · simp only [if_neg h1]
      rw [Outcome.bind_ok, if_neg (by omega)]
      exact ⟨_, rfl⟩
  obtain ⟨v', e⟩ := hok
  rcases encodeSize_gives hv hn with ⟨why, h⟩ | ⟨v'', h, o, b⟩
  · rw [e] at h
    cases h
  · rw [e] at h
    cases h
    exact ⟨v', sizeBytes n, e, o, b, (sizeBytes_length n).2, readCompact_size hn⟩

example := c44_compact (n := 32767) (by decide) (v := ⟨[9, 1, 2, 3], 1, 4⟩) ⟨by decide, by decide⟩ (by decide)

example : encodeSize 32767 ⟨[9, 1, 2, 3], 1, 4⟩ = .ok ⟨[9, 255, 255, 1], 4, 4⟩ := by decide +kernel

/-- nothing makes sure that there is room for more than one byte, see `c45_room_violated` -/
theorem c44_room_violated : ∃ v : Vec, Ok v ∧ v.len + 1 ≤ v.cap ∧ ∃ why, encodeSize 200 v = .abort why :=
  ⟨⟨[0, 0], 1, 2⟩, ⟨by decide, by decide⟩, by decide, _, rfl⟩

/-! ## Pixels -/

/-- red, green and blue in three bytes -/
def rgbLayout : Layout
  | .r => ⟨0, 8⟩
  | .g => ⟨8, 8⟩
  | .b => ⟨16, 8⟩

def rgbFmt : PixFmt :=
  { bpp := 32, depth := 24, bigEndian := 0, trueColour := 1, rmax := 0xff, gmax := 0xff, bmax := 0xff,
    rshift := 0, gshift := 8, bshift := 16 }

theorem saneRgb : Sane rgbFmt rgbLayout := by
  refine ⟨⟨⟨rfl, rfl⟩, ⟨rfl, rfl⟩, ⟨rfl, rfl⟩⟩, by decide, by decide, by decide, ?_, ?_, ?_⟩
  · intro c; cases c <;> decide
  · intro c; cases c <;> decide
  · intro c d h
    unfold Field.apart
    cases c <;> cases d <;> first | exact absurd rfl h | decide

theorem bits_255 {k : Nat} (h : k ≤ 16) (h2 : 255 = 2 ^ k - 1) : k = 8 := by
  have : ∀ k, k < 17 → 255 = 2 ^ k - 1 → k = 8 := by decide
  exact this k (by omega) h2

theorem leNat_three {b : Bytes} (h : b.length = 3) :
    leNat b = (b.getD 0 0).toNat + 256 * (b.getD 1 0).toNat + 65536 * (b.getD 2 0).toNat := by
  match b, h with
  | [x, y, z], _ =>
    simp [leNat]
    omega

/-- the pixels in a tile -/
theorem tpixel_conv {f : Fourcc} (hf : Plain f) {dst : PixFmt} {l : Layout} (hd : Sane dst l) (hc : TpixelOk dst) :
    ∃ src, pixfmt f = some src ∧ bytesPerCpixel dst = tpixelSize dst ∧ bytesPerCpixel dst ≤ 4 ∧ ∃ one : Bytes → Bytes,
      (∀ pxs, toCpixel (tightFmt dst) src (bytesPerCpixel dst) pxs = .ok (pxs.flatMap one)) ∧
      ∀ px, SameTpixel f dst l px (one px) := by
  have hb := hd.bpp
  have hdep := hd.depth
  by_cases hs : shortPixel dst
  · have h3 : bytesPerCpixel dst = 3 := by
      obtain ⟨h1, h2, -⟩ := hs
      unfold bytesPerCpixel
      rw [if_pos h1, h2]
    have hfmt : tightFmt dst = rgbFmt := by
      unfold tightFmt
      rw [if_pos h3]
      rfl
    obtain ⟨src, h1, h2, one, h4, h5⟩ := c64_cpixel_partial hf saneRgb
      (.inr (.inr ⟨by decide, .inl ⟨by decide, .r, rfl⟩⟩))
    have hkind : cpixelKind rgbFmt rgbLayout = .low := by decide
    refine ⟨src, h1, by unfold tpixelSize; rw [if_pos hs, h3], by omega, one, ?_, fun px => ?_⟩
    · rw [hfmt, h3]
      exact h4
    · obtain ⟨g1, g2, -⟩ := h5 px
      have hl : (one px).length = 3 := g1
      refine ⟨by unfold tpixelSize; rw [if_pos hs]; exact hl, fun c => ?_⟩
      have hv : cpixelValue rgbFmt rgbLayout (one px) = leNat (one px) := by
        unfold cpixelValue
        rw [hkind]
        rfl
      have hg := g2 c
      rw [hv] at hg
      have hlc : (l c).bits = 8 := by
        obtain ⟨-, -, m1, m2, m3⟩ := hs
        obtain ⟨sr, sg, sb⟩ := hd.says
        have hbits := hd.bits c
        cases c with
        | r => exact bits_255 hbits (by rw [← sr.1, m1])
        | g => exact bits_255 hbits (by rw [← sg.1, m2])
        | b => exact bits_255 hbits (by rw [← sb.1, m3])
      have h0 := ((one px).getD 0 0).toNat_lt
      have h1' := ((one px).getD 1 0).toNat_lt
      have h2' := ((one px).getD 2 0).toNat_lt
      have hle := leNat_three hl
      have hget : tpixelColour dst l (one px) c = (rgbLayout c).get (leNat (one px)) := by
        unfold tpixelColour
        rw [if_pos hs]
        unfold Field.get
        cases c with
        | r => simp only [rgbLayout]; rw [hle]; omega
        | g => simp only [rgbLayout]; rw [hle]; omega
        | b => simp only [rgbLayout]; rw [hle]; omega
      rw [hget, hg, hlc]
      cases c <;> rfl
  · have hfull : dst.bpp ≠ 32 ∨ 24 < dst.depth := by
      rcases hc with h | h | h
      · exact .inl h
      · exact .inr h
      · exact absurd h hs
    have hbpc : bytesPerCpixel dst = dst.bpp / 8 := by
      unfold bytesPerCpixel
      split <;> omega
    have hfmt : tightFmt dst = dst := by
      unfold tightFmt
      rw [if_neg (by omega)]
    obtain ⟨src, h1, one, h2, h3⟩ := c47_pixels_partial hf hd
    have hsz : tpixelSize dst = dst.bpp / 8 := by unfold tpixelSize; rw [if_neg hs]
    refine ⟨src, h1, by rw [hbpc, hsz], by omega, one, by rw [hfmt, hbpc]; exact h2,
      fun px => ⟨by rw [hsz]; exact (h3 px).1, fun c => ?_⟩⟩
    unfold tpixelColour
    rw [if_neg hs]
    exact (h3 px).2.1 c

/-! ## Tiles -/

/-- a tile in basic compression -/
def Basic (one : Bytes → Bytes) (fb : Fb) : Done := fun p t z z' =>
  t.type = UInt8.ofNat (16 * (p.1 % 4)) ∧ t.data.length ≤ maxTile ∧
    z' = z.put (tightData one fb (boxOf fb p)) t.data

theorem tightData_eq (one : Bytes → Bytes) (fb : Fb) (t : Box) : tightData one fb t =
    (List.range t.h).flatMap fun j => (List.range t.w).flatMap fun i => one (fb.pixel (t.x1 + i) (t.y1 + j)) := by
  unfold tightData Box.cells
  rw [List.flatMap_assoc]
  simp only [List.flatMap_map]

theorem basic_done {cfg : TightCfg} (hcfg : cfg.jpeg = false ∨ 10 ≤ cfg.quality) {dst src : PixFmt} {fb : Fb}
    (hf : fb.Ok) (hs : src.bpp = 8 * pixelSize fb.f) {one : Bytes → Bytes}
    (h : ∀ pxs, toCpixel (tightFmt dst) src (bytesPerCpixel dst) pxs = .ok (pxs.flatMap one))
    (h1 : ∀ px, (one px).length = bytesPerCpixel dst) (hb : bytesPerCpixel dst ≤ 4) :
    TileDone (Basic one fb) cfg dst src fb := by
  have key : ∀ x y, x < fb.gw → y < fb.gh → ∀ z as,
      (∀ why, tightRows dst src fb (x * 64) (tightSide fb.width (x * 64)) (y * 64) (tightSide fb.height (y * 64)) [] z as
        ≠ .ub why) ∧
      ∀ data' z' as', tightRows dst src fb (x * 64) (tightSide fb.width (x * 64)) (y * 64)
          (tightSide fb.height (y * 64)) [] z as = .ok (data', z', as') →
        data'.length ≤ maxTile ∧
        z' = z.put (tightData one fb (boxOf fb (x, y))) data' := by
    intro x y hx hy z as
    obtain ⟨s1, s2⟩ := box_side hx hy
    rw [s1, s2]
    unfold Fb.gw at hx
    unfold Fb.gh at hy
    have hw : (boxOf fb (x, y)).w ≤ 64 ∧ 64 * x + (boxOf fb (x, y)).w ≤ fb.width := by
      unfold Box.w boxOf
      simp only
      omega
    have hh : 0 < (boxOf fb (x, y)).h ∧ 64 * y + (boxOf fb (x, y)).h ≤ fb.height := by
      unfold Box.h boxOf
      simp only
      omega
    obtain ⟨t1, t2⟩ := tightRows_eq (x := x * 64) (w := (boxOf fb (x, y)).w) hf hs h h1 hb hw.1 (by omega)
      (boxOf fb (x, y)).h (y * 64) [] z as (by omega) (by simp)
    refine ⟨t1, fun data' z' as' e => ?_⟩
    obtain ⟨k, c, c1, c2, c3, c4⟩ := t2 data' z' as' e
    have c4 := c4 hh.1
    rw [List.nil_append] at c1
    subst c1
    refine ⟨k, ?_⟩
    have hin : z'.inp = z.inp ++ tightData one fb (boxOf fb (x, y)) := by
      rw [c3, tightData_eq]
      unfold boxOf
      simp only
      rw [Nat.mul_comm x, Nat.mul_comm y]
    obtain ⟨i', o', r'⟩ := z'
    simp only at c2 c4 hin
    rw [c4, hin, c2]
    rfl
  constructor
  · intro x y t z as hx hy why
    unfold encodeTile
    simp only
    rw [if_pos hcfg, if_neg (by omega)]
    obtain ⟨k1, k2⟩ := key x y hx hy z as
    cases e : tightRows dst src fb (x * 64) (tightSide fb.width (x * 64)) (y * 64) (tightSide fb.height (y * 64)) [] z as with
    | ub why => exact absurd e (k1 why)
    | abort why => nofun
    | ok q => nofun
  · intro x y t z as t' z' as' hx hy e
    unfold encodeTile at e
    simp only at e
    rw [if_pos hcfg, if_neg (by omega)] at e
    obtain ⟨k1, k2⟩ := key x y hx hy z as
    obtain ⟨⟨data', z1, as1⟩, e1, e2⟩ := Outcome.bind_eq_ok.mp e
    obtain ⟨g1, g2⟩ := k2 _ _ _ e1
    cases e2
    refine ⟨rfl, ?_, g1, g2⟩
    simp only
    unfold streamOf
    simp only
    rw [Nat.shiftLeft_eq, Nat.mul_comm]

/-- a tile as a JPEG image -/
def Jpeg (cfg : TightCfg) (src : PixFmt) (fb : Fb) : Done := fun p t z z' =>
  t.type = 0x90 ∧
    tightJpeg cfg src fb (p.1 * 64) (p.2 * 64) (tightSide fb.width (p.1 * 64)) (tightSide fb.height (p.2 * 64)) = .ok t.data ∧
    z' = z

theorem jpeg_length {cfg : TightCfg} {src : PixFmt} {fb : Fb} {x y w h : Nat} {b : Bytes}
    (e : tightJpeg cfg src fb x y w h = .ok b) : b.length ≤ maxTile := by
  unfold tightJpeg at e
  split at e
  · cases e; simp
  · obtain ⟨stride, -, e⟩ := Outcome.bind_eq_ok.mp e
    obtain ⟨xoff, -, e⟩ := Outcome.bind_eq_ok.mp e
    dsimp only at e
    split at e
    · cases e
    · split at e
      · cases e; simp
      · split at e
        · cases e; simp
        · cases e; omega

theorem jpegFormat_size {f : Fourcc} {t : Tjpf} (h : jpegFormat f = some t) : t.size = pixelSize f := by
  rcases f with ⟨c, big⟩
  cases big
  · rcases c with ⟨w, o, a⟩ | _ | _ | _
    · cases w <;> cases o <;> cases h <;> rfl
    · cases h; rfl
    · cases h; rfl
    · cases h
  · rcases c with ⟨w, o, a⟩ | _ | _ | _
    · cases w <;> cases o <;> cases h
    · cases h
    · cases h
    · cases h

/-- the call that is made for a tile -/
def jpegCall (cfg : TightCfg) (fb : Fb) (t : Box) (fmt : Tjpf) : JpegCall :=
  ⟨fb.mem.drop ((t.y1 * fb.stride + t.x1) * pixelSize fb.f), t.w, fb.stride * pixelSize fb.f, t.h, fmt, false,
    11 * cfg.quality + 1⟩

theorem tightJpeg_eq {cfg : TightCfg} {src : PixFmt} {fb : Fb} (hf : fb.Ok) (hs : src.bpp = 8 * pixelSize fb.f)
    {x y : Nat} (hx : x < fb.gw) (hy : y < fb.gh) :
    tightJpeg cfg src fb (x * 64) (y * 64) (tightSide fb.width (x * 64)) (tightSide fb.height (y * 64)) =
      match jpegFormat fb.f with
      | none => .ok []
      | some fmt => match cfg.compress (jpegCall cfg fb (boxOf fb (x, y)) fmt) with
        | none => .ok []
        | some b => if maxTile < b.length then .ok [] else .ok b := by
  unfold Fb.gw at hx
  unfold Fb.gh at hy
  obtain ⟨s1, s2⟩ := box_side hx hy
  rw [s1, s2]
  have hs8 : src.bpp / 8 = pixelSize fb.f := by omega
  unfold tightJpeg
  cases hfmt : jpegFormat fb.f with
  | none => rfl
  | some fmt =>
    dsimp only
    have hsize := jpegFormat_size hfmt
    have hp := pixelSize_le fb.f
    have hst := hf.stride
    have hmem := hf.mem
    have hsm := hf.small
    generalize hb : boxOf fb (x, y) = b
    have hw : b.x1 = x * 64 ∧ b.y1 = y * 64 ∧ b.x1 + b.w ≤ fb.width ∧ 0 < b.h ∧ b.y1 + b.h ≤ fb.height := by
      subst hb
      unfold Box.w Box.h boxOf
      simp only
      omega
    obtain ⟨w1, w2, w3, w4, w5⟩ := hw
    rw [← w1, ← w2]
    have hint : fb.height * fb.stride * pixelSize fb.f ≤ fb.height * fb.stride * 4 := Nat.mul_le_mul_left _ hp
    have hlast : ((b.y1 + (b.h - 1)) * fb.stride + b.x1 + b.w) * pixelSize fb.f ≤ fb.height * fb.stride * pixelSize fb.f := by
      apply Nat.mul_le_mul_right
      have : (b.y1 + (b.h - 1) + 1) * fb.stride ≤ fb.height * fb.stride := Nat.mul_le_mul_right _ (by omega)
      rw [Nat.succ_mul] at this
      omega
    have hsplit : ((b.y1 + (b.h - 1)) * fb.stride + b.x1 + b.w) * pixelSize fb.f =
        b.y1 * (fb.stride * pixelSize fb.f) + (b.h - 1) * (fb.stride * pixelSize fb.f) + b.x1 * pixelSize fb.f + b.w * pixelSize fb.f := by
      simp only [Nat.add_mul, Nat.mul_assoc]
    have hstr : fb.stride * pixelSize fb.f ≤ fb.height * fb.stride * pixelSize fb.f := by
      apply Nat.mul_le_mul_right
      exact Nat.le_mul_of_pos_left _ (by omega)
    have i1 : int (b.x1 * pixelSize fb.f) = .ok (b.x1 * pixelSize fb.f) := if_pos (by omega)
    have i2 : int (fb.stride * pixelSize fb.f) = .ok (fb.stride * pixelSize fb.f) := if_pos (by omega)
    have hoff : b.x1 * pixelSize fb.f + b.y1 * (fb.stride * pixelSize fb.f) % 4294967296 =
        (b.y1 * fb.stride + b.x1) * pixelSize fb.f := by
      rw [Nat.mod_eq_of_lt (by omega), Nat.add_mul, Nat.mul_assoc, Nat.add_comm]
    rw [hs8, i2, Outcome.bind_ok, i1, Outcome.bind_ok]
    rw [hoff, hsize, if_neg (by rw [Nat.add_mul, Nat.mul_assoc b.y1]; omega)]
    unfold jpegCall
    rw [show (11 * cfg.quality + 1 == 9) = false from beq_eq_false_iff_ne.mpr (by omega)]
    rfl

theorem jpeg_done {cfg : TightCfg} (hcfg : ¬ (cfg.jpeg = false ∨ 10 ≤ cfg.quality)) {dst src : PixFmt} {fb : Fb}
    (hf : fb.Ok) (hs : src.bpp = 8 * pixelSize fb.f) : TileDone (Jpeg cfg src fb) cfg dst src fb := by
  constructor
  · intro x y t z as hx hy why
    unfold encodeTile
    dsimp only
    rw [if_neg hcfg, tightJpeg_eq hf hs hx hy]
    split
    · nofun
    · split
      · nofun
      · split <;> nofun
  · intro x y t z as t' z' as' _ _ e
    unfold encodeTile at e
    dsimp only at e
    rw [if_neg hcfg] at e
    obtain ⟨data, e1, e⟩ := Outcome.bind_eq_ok.mp e
    cases e
    exact ⟨rfl, rfl, e1, rfl⟩

theorem leNat_byte : ∀ (l : Bytes) (k : Nat) (b : UInt8), l[k]? = some b → leNat l / 256 ^ k % 256 = b.toNat
  | [], _, _, h => by cases h
  | a :: l, 0, b, h => by
    cases h
    rw [leNat]
    have := a.toNat_lt
    omega
  | a :: l, k + 1, b, h => by
    have ih := leNat_byte l k b h
    rw [leNat, Nat.pow_succ, Nat.mul_comm (256 ^ k), ← Nat.div_div_eq_div_mul]
    have := a.toNat_lt
    rwa [show (a.toNat + 256 * leNat l) / 256 = leNat l by omega]

/-- turbojpeg's format for a format has the colours where they are -/
theorem jpegFormat_layout {f : Fourcc} (hp : Plain f) (he : Eight f) : ∃ t, jpegFormat f = some t ∧
    t.letters.length = pixelSize f ∧ ∀ ch k, t.letters[k]? = some (some ch) → k < pixelSize f ∧ drm f.code ch = ⟨8 * k, 8⟩ := by
  rcases f with ⟨c, big⟩
  obtain ⟨rfl, hp⟩ := hp
  have fin : ∀ {t : Tjpf} {c : Code}, t.letters.length = pixelSize ⟨c, false⟩ →
      (∀ ch, ∀ k, k < pixelSize ⟨c, false⟩ → t.letters[k]? = some (some ch) → drm c ch = ⟨8 * k, 8⟩) →
      ∀ ch k, t.letters[k]? = some (some ch) → k < pixelSize ⟨c, false⟩ ∧ drm c ch = ⟨8 * k, 8⟩ := by
    intro t c h1 h2 ch k hk
    have : k < t.letters.length := (List.getElem?_eq_some_iff.mp hk).1
    exact ⟨by omega, h2 ch k (by omega) hk⟩
  rcases c with ⟨w, o, a⟩ | _ | _ | _
  · cases w
    · have := he .r
      cases o <;> cases a <;> exact absurd this (by decide)
    · cases o <;> cases a <;> exact ⟨_, rfl, rfl, fin rfl fun ch => by cases ch <;> decide⟩
    · exact hp.elim
  · exact ⟨_, rfl, rfl, fin rfl fun ch => by cases ch <;> decide⟩
  · exact ⟨_, rfl, rfl, fin rfl fun ch => by cases ch <;> decide⟩
  · exact hp.elim

theorem jpegCall_shows {cfg : TightCfg} {fb : Fb} (hf : fb.Ok) (hp : Plain fb.f) (he : Eight fb.f) {t : Box} (ht : t.In fb) :
    ∃ fmt, jpegFormat fb.f = some fmt ∧ Shows fb t (jpegCall cfg fb t fmt) := by
  obtain ⟨fmt, h1, h2, h3⟩ := jpegFormat_layout hp he
  refine ⟨fmt, h1, rfl, rfl, fun x y hx hy ch k hk => ?_⟩
  obtain ⟨k1, k2⟩ := h3 ch k hk
  obtain ⟨t1, t2, t3, t4⟩ := ht
  unfold Box.w at hx
  unfold Box.h at hy
  have hst := hf.stride
  have hmem := hf.mem
  have hrow : ((t.y1 + y) * fb.stride + (t.x1 + x) + 1) * pixelSize fb.f ≤ fb.height * fb.stride * pixelSize fb.f := by
    apply Nat.mul_le_mul_right
    have : (t.y1 + y + 1) * fb.stride ≤ fb.height * fb.stride := Nat.mul_le_mul_right _ (by omega)
    rw [Nat.succ_mul] at this
    omega
  rw [Nat.succ_mul] at hrow
  have hidx : (t.y1 * fb.stride + t.x1) * pixelSize fb.f + (y * (fb.stride * pixelSize fb.f) + x * pixelSize fb.f + k) =
      ((t.y1 + y) * fb.stride + (t.x1 + x)) * pixelSize fb.f + k := by
    simp only [Nat.add_mul, Nat.mul_assoc]
    omega
  have hlt : ((t.y1 + y) * fb.stride + (t.x1 + x)) * pixelSize fb.f + k < fb.mem.length := by omega
  refine ⟨fb.mem[((t.y1 + y) * fb.stride + (t.x1 + x)) * pixelSize fb.f + k], ?_, ?_⟩
  · unfold jpegCall
    dsimp only
    rw [h2, List.getElem?_drop, hidx, List.getElem?_eq_getElem hlt]
  · rw [k2]
    unfold Field.get drmPixel
    dsimp only
    rw [if_neg (by rw [hp.1]; decide), Nat.pow_mul]
    refine (leNat_byte _ k _ ?_).symm
    unfold Fb.pixel
    rw [List.getElem?_take_of_lt k1, List.getElem?_drop, List.getElem?_eq_getElem hlt]

/-! ## Frames -/

theorem frames_rects {R : Done} (hR : ∀ p t z z', R p t z z' → t.data.length ≤ maxTile) {xpos ypos : Nat} {fb : Fb} :
    ∀ {ps : List (Nat × Nat)} {z z' : Fin 4 → Zs} {p : Bytes}, Frames R xpos ypos fb ps z p z' →
      TightRects xpos ypos (ps.map (boxOf fb)) p
  | [], _, _, _, h => h.1
  | q :: ps, z, z', p, ⟨s, t, z1, rest, h1, h2, h3, h4⟩ => by
    have hmax : maxTile = 32768 := rfl
    have := hR _ _ _ _ h2
    refine ⟨t.type, sizeBytes t.data.length, t.data, rest, ?_, readCompact_size (by omega), frames_rects hR h4⟩
    rw [h3]
    unfold rectBytes
    simp only [List.append_assoc]

theorem frames_basic {one : Bytes → Bytes} {xpos ypos : Nat} {fb : Fb} :
    ∀ {ps : List (Nat × Nat)} {z z' : Fin 4 → Zs} {p : Bytes}, (∀ q ∈ ps, 12 ≤ (tightData one fb (boxOf fb q)).length) →
      Frames (Basic one fb) xpos ypos fb ps z p z' → TightFrame one fb xpos ypos (ps.map (boxOf fb)) z p z'
  | [], _, _, _, _, h => h
  | q :: ps, z, z', p, hq, ⟨s, t, z1, rest, h1, ⟨r1, r2, r3⟩, h3, h4⟩ => by
    have hmax : maxTile = 32768 := rfl
    rw [List.map_cons, TightFrame, if_neg (by have := hq q (List.mem_cons_self ..); omega)]
    refine ⟨s, sizeBytes t.data.length, t.data, rest, ?_, readCompact_size (by omega), ?_⟩
    · rw [h3]
      unfold rectBytes
      rw [r1, ← h1]
      simp only [List.append_assoc]
    · rw [← r3]
      exact frames_basic (fun q' h => hq q' (List.mem_cons_of_mem _ h)) h4

theorem frames_jpeg {cfg : TightCfg} {src : PixFmt} {img : Box → Bytes} {xpos ypos : Nat} {fb : Fb} :
    ∀ {ps : List (Nat × Nat)} {z z' : Fin 4 → Zs} {p : Bytes},
      (∀ q ∈ ps, tightJpeg cfg src fb (q.1 * 64) (q.2 * 64) (tightSide fb.width (q.1 * 64)) (tightSide fb.height (q.2 * 64)) =
        .ok (img (boxOf fb q))) →
      Frames (Jpeg cfg src fb) xpos ypos fb ps z p z' → JpegFrame img xpos ypos (ps.map (boxOf fb)) p ∧ z' = z
  | [], _, _, _, _, h => h
  | q :: ps, z, z', p, hq, ⟨s, t, z1, rest, h1, ⟨r1, r2, r3⟩, h3, h4⟩ => by
    have hmax : maxTile = 32768 := rfl
    have he := hq q (List.mem_cons_self ..)
    have hl := jpeg_length r2
    rw [he] at r2
    have r2 := (Outcome.ok.inj r2).symm
    obtain ⟨g1, g2⟩ := frames_jpeg (fun q' h => hq q' (List.mem_cons_of_mem _ h)) h4
    refine ⟨⟨sizeBytes t.data.length, rest, ?_, ?_, g1⟩, ?_⟩
    · rw [h3]
      unfold rectBytes
      rw [r1, ← r2]
      simp only [List.append_assoc]
    · rw [← r2]
      exact readCompact_size (by omega)
    · rw [g2, r3]
      funext j
      split
      · rename_i h; rw [h]
      · rfl

/-- tiles that some damage is in, for framebuffers that are not too large -/
theorem damagedTile_iff {fb : Fb} (hw : fb.width ≤ 32704 ∧ fb.height ≤ 32704) {damage : List Box}
    (hb : ∀ b ∈ damage, b.In fb) {x y : Nat} (hx : x < fb.gw) (hy : y < fb.gh) :
    damagedTile damage x y = true ↔ Touched damage (boxOf fb (x, y)) := by
  unfold Fb.gw at hx
  unfold Fb.gh at hy
  have hi : ∀ n, n < 32768 → i16 n = n := by
    intro n hn
    unfold i16
    rw [if_pos (by omega)]
    omega
  unfold damagedTile overlaps Touched
  rw [hi _ (by omega), hi _ (by omega), hi _ (by omega), hi _ (by omega), List.any_eq_true]
  constructor
  · rintro ⟨b, hbm, h⟩
    obtain ⟨i1, i2, i3, i4⟩ := hb b hbm
    simp only [decide_eq_true_eq] at h
    refine ⟨b, hbm, max b.x1 (64 * x), max b.y1 (64 * y), ?_, ?_⟩
    · unfold Box.has; omega
    · unfold Box.has boxOf; simp only; omega
  · rintro ⟨b, hbm, x0, y0, h1, h2⟩
    refine ⟨b, hbm, ?_⟩
    unfold Box.has boxOf at h2
    unfold Box.has at h1
    simp only at h2
    simp only [decide_eq_true_eq]
    omega

/-- tiles do not overlap -/
theorem tiles_apart (w h : Nat) : ∀ t ∈ rfcTiles w h, ∀ t' ∈ rfcTiles w h, ∀ x y, t.has x y → t'.has x y → t = t' := by
  intro t ht t' ht' x y h1 h2
  have hm := rfcTiles_mem ht
  have hb := h1
  unfold Box.has at hb
  obtain ⟨t0, -, -, hu⟩ := c42_partition w h x y (by omega) (by omega)
  rw [hu t ht h1, hu t' ht' h2]

theorem boxOf_inj {fb : Fb} {p q : Nat × Nat} (h : boxOf fb p = boxOf fb q) : p = q := by
  unfold boxOf at h
  have h1 := congrArg Box.x1 h
  have h2 := congrArg Box.y1 h
  simp only at h1 h2
  exact Prod.ext (by omega) (by omega)

/-- **C45** (part): in every run, whatever the order of the workers, the payload consists of as many
rectangles as are announced, at least one, which are tiles of the framebuffer, each of them once, and so
do not overlap, namely exactly those that some damage is in; all damage is covered.

What is missing: framebuffers with more than 32704 columns or rows, see `c45_wide_violated`, more than
65535 rectangles (C56), aborts, see `c45_room_violated`, formats for which there is no conversion (C47,
C48), and memory that runs out. -/
theorem c45_tight_partial {m0 : Heap} {m : Nat → Nat → Heap} (hm : ∀ i j, Plenty (m i j)) {cfg : TightCfg}
    {xpos ypos : Nat} {fb : Fb} (hf : fb.Ok) (hp : Plain fb.f) {dst : PixFmt} {l : Layout} (hd : Sane dst l)
    (hc : TpixelOk dst) (hw : fb.width ≤ 32704 ∧ fb.height ≤ 32704) {damage : List Box} (hb : ∀ b ∈ damage, b.In fb)
    {grid : List Tile} (hg : grid.length = (fb.height + 63) / 64 * ((fb.width + 63) / 64))
    {zs : Fin 4 → Zs} {ans : Fin 4 → List Ans} {schedule : List (Fin 4)} :
    (∀ why, tightEncode m0 m cfg xpos ypos dst fb damage grid zs ans schedule ≠ .ub why) ∧
    ∀ p n zs', tightEncode m0 m cfg xpos ypos dst fb damage grid zs ans schedule = .ok (p, n, zs') →
      ∃ rects : List Box, rects.length = n ∧ 0 < n ∧ TightRects xpos ypos rects p ∧
        rects.Sublist (rfcTiles fb.width fb.height) ∧ rects.Nodup ∧
        (∀ t, t ∈ rects ↔ t ∈ rfcTiles fb.width fb.height ∧ Touched damage t) ∧
        (∀ t ∈ rects, t.In fb) ∧
        (∀ t ∈ rects, ∀ t' ∈ rects, ∀ x y, t.has x y → t'.has x y → t = t') ∧
        ∀ b ∈ damage, ∀ x y, b.has x y → ∃ t ∈ rects, t.has x y := by
  obtain ⟨src, h1, h2, h4, one, h5, h6⟩ := tpixel_conv hp hd hc
  have hlen : ∀ p, (one p).length = bytesPerCpixel dst := fun p => by rw [(h6 p).1, h2]
  obtain ⟨src', h1', -, -, -, -, hs⟩ := plain_table hp
  rw [h1] at h1'
  cases h1'
  have hall : ∃ R : Done, TileDone R cfg dst src fb ∧ ∀ p t z z', R p t z z' → t.data.length ≤ maxTile := by
    by_cases hcfg : cfg.jpeg = false ∨ 10 ≤ cfg.quality
    · exact ⟨_, basic_done hcfg hf hs h5 hlen h4, fun _ _ _ _ h => h.2.1⟩
    · exact ⟨_, jpeg_done hcfg hf hs, fun p t _ _ h => jpeg_length h.2.1⟩
  obtain ⟨R, hR, hRl⟩ := hall
  obtain ⟨k1, k2⟩ := tightEncode_eq (m0 := m0) hm (xpos := xpos) (ypos := ypos) hf h1 hR hRl (damage := damage) hg
    (zs := zs) (ans := ans) (schedule := schedule)
  refine ⟨k1, fun p n zs' e => ?_⟩
  obtain ⟨e1, e2, e3⟩ := k2 p n zs' e
  have htiles := rfcTiles_coords fb
  have hmem : ∀ t, t ∈ ((coords fb.gw fb.gh).filter fun q => damagedTile damage q.1 q.2).map (boxOf fb) ↔
      t ∈ rfcTiles fb.width fb.height ∧ Touched damage t := by
    intro t
    rw [htiles, List.mem_map, List.mem_map]
    constructor
    · rintro ⟨⟨x, y⟩, hq, rfl⟩
      rw [List.mem_filter] at hq
      obtain ⟨hx, hy⟩ := mem_coords.mp hq.1
      exact ⟨⟨_, hq.1, rfl⟩, (damagedTile_iff hw hb hx hy).mp hq.2⟩
    · rintro ⟨⟨⟨x, y⟩, hq, rfl⟩, ht⟩
      obtain ⟨hx, hy⟩ := mem_coords.mp hq
      exact ⟨(x, y), List.mem_filter.mpr ⟨hq, (damagedTile_iff hw hb hx hy).mpr ht⟩, rfl⟩
  refine ⟨_, by rw [List.length_map, e1], e2, frames_rects hRl e3, ?_, ?_, hmem, fun t ht => ?_,
    fun t ht t' ht' => tiles_apart _ _ t ((hmem t).mp ht).1 t' ((hmem t').mp ht').1, ?_⟩
  · rw [htiles]
    exact (List.filter_sublist).map _
  · rw [List.nodup_iff_pairwise_ne, List.pairwise_map]
    exact List.Pairwise.imp (fun hne h => hne (boxOf_inj h)) ((coords_nodup _ _).filter _)
  · obtain ⟨a, b, c, d, -⟩ := rfcTiles_mem ((hmem t).mp ht).1
    exact ⟨a, b, c, d⟩
  · intro b hbm x y hxy
    have hin := hb b hbm
    have hxy' := hxy
    unfold Box.has at hxy'
    unfold Box.In at hin
    obtain ⟨t, t1, t2, -⟩ := c42_partition fb.width fb.height x y (by omega) (by omega)
    exact ⟨t, (hmem t).mpr ⟨t1, b, hbm, x, y, hxy, t2⟩, t2⟩

/-- **C45**: every tile belongs to exactly one worker, which looks at it once, and the stream of a tile that
a worker looks at is not that of a tile of another worker -/
theorem c45_workers (gw gh : Nat) :
    (∀ x y, x < gw → y < gh → ∃ i, (x, y) ∈ workerTiles gw gh i ∧ ∀ j, (x, y) ∈ workerTiles gw gh j → j = i) ∧
    (∀ i, (workerTiles gw gh i).Nodup ∧ ∀ p ∈ workerTiles gw gh i, p.1 < gw ∧ p.2 < gh) ∧
    ∀ i j p q, p ∈ workerTiles gw gh i → q ∈ workerTiles gw gh j → streamOf p.1 = streamOf q.1 → i = j := by
  refine ⟨fun x y hx hy => ⟨streamOf x, mem_workerTiles.mpr ⟨⟨hx, hy⟩, rfl⟩, fun j hj => ?_⟩, fun i => ⟨?_, ?_⟩, ?_⟩
  · exact Fin.ext (mem_workerTiles.mp hj).2.symm
  · rw [workerTiles_eq]
    exact (coords_nodup _ _).filter _
  · rintro ⟨x, y⟩ h
    exact (mem_workerTiles.mp h).1
  · rintro i j ⟨x, y⟩ ⟨x', y'⟩ h1 h2 h
    have e1 := (mem_workerTiles.mp h1).2
    have e2 := (mem_workerTiles.mp h2).2
    have e3 := congrArg Fin.val h
    unfold streamOf at e3
    exact Fin.ext (by simp only at e3; omega)

example : workerTiles 6 2 1 = [(1, 0), (5, 0), (1, 1), (5, 1)] := by decide

/-- **C65** (part): rectangles in basic compression are as the protocol says, if every tile has at least 12
bytes: for each of them the compressed data are what came out of its stream, when all of the tile's pixels,
converted to the client's TPIXEL, were put in and flushed; streams carry the rectangles in the order in which
they are sent.

What is missing: tiles with less than 12 bytes, see `c65_small_violated`, other formats, see
`c65_tpixel_violated`, and what is missing in C45. -/
theorem c65_basic_partial {m0 : Heap} {m : Nat → Nat → Heap} (hm : ∀ i j, Plenty (m i j)) {cfg : TightCfg}
    (hcfg : cfg.jpeg = false ∨ 10 ≤ cfg.quality)
    {xpos ypos : Nat} {fb : Fb} (hf : fb.Ok) (hp : Plain fb.f) {dst : PixFmt} {l : Layout} (hd : Sane dst l)
    (hc : TpixelOk dst) (hw : fb.width ≤ 32704 ∧ fb.height ≤ 32704) {damage : List Box} (hb : ∀ b ∈ damage, b.In fb)
    (h12 : ∀ t ∈ rfcTiles fb.width fb.height, Touched damage t → 12 ≤ t.w * t.h * tpixelSize dst)
    {grid : List Tile} (hg : grid.length = (fb.height + 63) / 64 * ((fb.width + 63) / 64))
    {zs : Fin 4 → Zs} {ans : Fin 4 → List Ans} {schedule : List (Fin 4)} {p : Bytes} {n : Nat} {zs' : Fin 4 → Zs}
    (hrun : tightEncode m0 m cfg xpos ypos dst fb damage grid zs ans schedule = .ok (p, n, zs')) :
    ∃ one : Bytes → Bytes, (∀ px, SameTpixel fb.f dst l px (one px)) ∧
      ∃ rects : List Box, rects.length = n ∧ rects.Sublist (rfcTiles fb.width fb.height) ∧
        (∀ t, t ∈ rects ↔ t ∈ rfcTiles fb.width fb.height ∧ Touched damage t) ∧
        TightFrame one fb xpos ypos rects zs p zs' := by
  obtain ⟨src, h1, h2, h4, one, h5, h6⟩ := tpixel_conv hp hd hc
  have hlen : ∀ p, (one p).length = bytesPerCpixel dst := fun p => by rw [(h6 p).1, h2]
  obtain ⟨src', h1', -, -, -, -, hs⟩ := plain_table hp
  rw [h1] at h1'
  cases h1'
  obtain ⟨-, k2⟩ := tightEncode_eq (m0 := m0) hm (xpos := xpos) (ypos := ypos) hf h1
    (basic_done hcfg hf hs h5 hlen h4) (fun _ _ _ _ h => h.2.1) (damage := damage) hg
    (zs := zs) (ans := ans) (schedule := schedule)
  obtain ⟨e1, e2, e3⟩ := k2 p n zs' hrun
  have htiles := rfcTiles_coords fb
  have hmem : ∀ t, t ∈ ((coords fb.gw fb.gh).filter fun q => damagedTile damage q.1 q.2).map (boxOf fb) ↔
      t ∈ rfcTiles fb.width fb.height ∧ Touched damage t := by
    intro t
    rw [htiles, List.mem_map, List.mem_map]
    constructor
    · rintro ⟨⟨x, y⟩, hq, rfl⟩
      rw [List.mem_filter] at hq
      obtain ⟨hx, hy⟩ := mem_coords.mp hq.1
      exact ⟨⟨_, hq.1, rfl⟩, (damagedTile_iff hw hb hx hy).mp hq.2⟩
    · rintro ⟨⟨⟨x, y⟩, hq, rfl⟩, ht⟩
      obtain ⟨hx, hy⟩ := mem_coords.mp hq
      exact ⟨(x, y), List.mem_filter.mpr ⟨hq, (damagedTile_iff hw hb hx hy).mpr ht⟩, rfl⟩
  refine ⟨one, h6, _, by rw [List.length_map, e1], by rw [htiles]; exact (List.filter_sublist).map _, hmem,
    frames_basic (fun q hq => ?_) e3⟩
  obtain ⟨m1, m2⟩ := (hmem (boxOf fb q)).mp (List.mem_map_of_mem hq)
  have := h12 _ m1 m2
  have hcl : (boxOf fb q).cells.length = (boxOf fb q).w * (boxOf fb q).h := cells_length _
  unfold tightData
  rw [flatMap_length (k := tpixelSize dst) (fun p => (h6 _).1), hcl]
  exact this

/-- **C65** (part): with a quality the client asked for rectangles have the JPEG images of tiles, provided that the
framebuffer's format has eight bits for each colour and images are not too large, and streams are left alone.  The
image of a tile is what libjpeg makes when it is shown that tile.

What is missing: what happens otherwise, see `c65_jpeg_violated`. -/
theorem c65_jpeg_partial {m0 : Heap} {m : Nat → Nat → Heap} (hm : ∀ i j, Plenty (m i j)) {cfg : TightCfg}
    (hcfg : cfg.jpeg = true ∧ cfg.quality < 10)
    {xpos ypos : Nat} {fb : Fb} (hf : fb.Ok) (hp : Plain fb.f) (he : Eight fb.f) {dst : PixFmt}
    (hw : fb.width ≤ 32704 ∧ fb.height ≤ 32704) {damage : List Box} (hb : ∀ b ∈ damage, b.In fb)
    {img : Box → Bytes} (himg : ∀ t ∈ rfcTiles fb.width fb.height, ∀ c, Shows fb t c →
      c.quality = 11 * cfg.quality + 1 → cfg.compress c = some (img t))
    (hmax : ∀ t ∈ rfcTiles fb.width fb.height, (img t).length ≤ 32768)
    {grid : List Tile} (hg : grid.length = (fb.height + 63) / 64 * ((fb.width + 63) / 64))
    {zs : Fin 4 → Zs} {ans : Fin 4 → List Ans} {schedule : List (Fin 4)} {p : Bytes} {n : Nat} {zs' : Fin 4 → Zs}
    (hrun : tightEncode m0 m cfg xpos ypos dst fb damage grid zs ans schedule = .ok (p, n, zs')) :
    zs' = zs ∧ ∃ rects : List Box, rects.length = n ∧ rects.Sublist (rfcTiles fb.width fb.height) ∧
      (∀ t, t ∈ rects ↔ t ∈ rfcTiles fb.width fb.height ∧ Touched damage t) ∧
      JpegFrame img xpos ypos rects p := by
  obtain ⟨src, h1, -, -, -, -, hs⟩ := plain_table hp
  have hcfg' : ¬ (cfg.jpeg = false ∨ 10 ≤ cfg.quality) := by
    rintro (h | h)
    · rw [hcfg.1] at h; cases h
    · omega
  obtain ⟨-, k2⟩ := tightEncode_eq (m0 := m0) hm (xpos := xpos) (ypos := ypos) (dst := dst) hf h1 (jpeg_done hcfg' hf hs)
    (fun p t _ _ h => jpeg_length h.2.1) (damage := damage) hg
    (zs := zs) (ans := ans) (schedule := schedule)
  obtain ⟨e1, e2, e3⟩ := k2 p n zs' hrun
  have htiles := rfcTiles_coords fb
  have hmem : ∀ t, t ∈ ((coords fb.gw fb.gh).filter fun q => damagedTile damage q.1 q.2).map (boxOf fb) ↔
      t ∈ rfcTiles fb.width fb.height ∧ Touched damage t := by
    intro t
    rw [htiles, List.mem_map, List.mem_map]
    constructor
    · rintro ⟨⟨x, y⟩, hq, rfl⟩
      rw [List.mem_filter] at hq
      obtain ⟨hx, hy⟩ := mem_coords.mp hq.1
      exact ⟨⟨_, hq.1, rfl⟩, (damagedTile_iff hw hb hx hy).mp hq.2⟩
    · rintro ⟨⟨⟨x, y⟩, hq, rfl⟩, ht⟩
      obtain ⟨hx, hy⟩ := mem_coords.mp hq
      exact ⟨(x, y), List.mem_filter.mpr ⟨hq, (damagedTile_iff hw hb hx hy).mpr ht⟩, rfl⟩
  obtain ⟨g1, g2⟩ := frames_jpeg (img := img) (fun q hq => by
    obtain ⟨m1, -⟩ := (hmem (boxOf fb q)).mp (List.mem_map_of_mem hq)
    obtain ⟨hx, hy⟩ := mem_coords.mp (List.mem_filter.mp hq).1
    have hl := hmax _ m1
    have hmx : maxTile = 32768 := rfl
    obtain ⟨fmt, f1, f2⟩ := jpegCall_shows (cfg := cfg) hf hp he (t := boxOf fb q) (by
      unfold Fb.gw at hx
      unfold Fb.gh at hy
      unfold Box.In boxOf
      dsimp only
      omega)
    rw [tightJpeg_eq hf hs hx hy, f1]
    dsimp only
    rw [show ((q.1, q.2) : Nat × Nat) = q from rfl, himg _ m1 _ f2 rfl]
    dsimp only
    rw [if_neg (by omega)]) e3
  exact ⟨g2, _, by rw [List.length_map, e1], by rw [htiles]; exact (List.filter_sublist).map _, hmem, g1⟩

/-! ## C119: what libjpeg is asked for -/

theorem workRun_same {cfg cfg' : TightCfg} {dst src : PixFmt} {fb : Fb}
    (h : ∀ x y t z as, x < fb.gw → y < fb.gh → encodeTile cfg dst src fb x y t z as = encodeTile cfg' dst src fb x y t z as) :
    ∀ (is : List (Fin 4)) (s : Work), (∀ i, ∀ p ∈ s.todo i, p.1 < fb.gw ∧ p.2 < fb.gh) →
      workRun cfg dst src fb is s = workRun cfg' dst src fb is s
  | [], _, _ => rfl
  | i :: is, s, hs => by
    have hstep : workStep cfg dst src fb i s = workStep cfg' dst src fb i s := by
      unfold workStep
      split
      · rfl
      next x y rest ht =>
        obtain ⟨hx, hy⟩ := hs i (x, y) (by rw [ht]; simp)
        dsimp only
        split
        · rfl
        · rw [h _ _ _ _ _ hx hy]
    rw [workRun, workRun, hstep]
    cases e : workStep cfg' dst src fb i s with
    | ub w => rfl
    | abort w => rfl
    | ok s' =>
      rw [Outcome.bind_ok, Outcome.bind_ok]
      refine workRun_same h is s' fun j p hp => ?_
      have hput : ∀ (x y : Nat) (rest : List (Nat × Nat)), s.todo i = (x, y) :: rest → p ∈ put4 s.todo i rest j →
          p.1 < fb.gw ∧ p.2 < fb.gh := by
        intro x y rest ht hp
        unfold put4 at hp
        split at hp
        · exact hs i p (by rw [ht]; exact List.mem_cons_of_mem _ hp)
        · exact hs j p hp
      unfold workStep at e
      split at e
      · cases e; exact hs j p hp
      next x y rest ht =>
        dsimp only at e
        split at e
        · cases e
        · split at e
          · obtain ⟨q, -, e⟩ := Outcome.bind_eq_ok.mp e
            cases e
            exact hput x y rest ht hp
          · cases e
            exact hput x y rest ht hp

theorem tightEncode_same {m0 : Heap} {m : Nat → Nat → Heap} {cfg cfg' : TightCfg} {xpos ypos : Nat} {fb : Fb} {dst src : PixFmt}
    (hsrc : pixfmt fb.f = some src) {damage : List Box} {grid : List Tile} {zs : Fin 4 → Zs} {ans : Fin 4 → List Ans}
    {schedule : List (Fin 4)}
    (h : ∀ x y t z as, x < fb.gw → y < fb.gh → encodeTile cfg dst src fb x y t z as = encodeTile cfg' dst src fb x y t z as) :
    tightEncode m0 m cfg xpos ypos dst fb damage grid zs ans schedule =
      tightEncode m0 m cfg' xpos ypos dst fb damage grid zs ans schedule := by
  unfold tightEncode
  rw [hsrc]
  dsimp only
  rw [workRun_same h schedule _ fun i p hp => (mem_workerTiles.mp hp).1]

/-- **C119** (part): a frame depends on libjpeg only in so far as it is shown the tiles of the framebuffer, each with its
size and its colours in the right bytes, and asked for a quality from 1 to 100 that is 11 more for each level of
the client's.

What is missing: colours in full resolution, see `c119_chroma_violated`. -/
theorem c119_image_partial {m0 : Heap} {m : Nat → Nat → Heap} {q : Nat} (hq : q ≤ 9) {compress compress' : JpegCall → Option Bytes}
    {xpos ypos : Nat} {fb : Fb} (hf : fb.Ok) (hp : Plain fb.f) (he : Eight fb.f) {dst : PixFmt}
    {damage : List Box} {grid : List Tile} {zs : Fin 4 → Zs} {ans : Fin 4 → List Ans} {schedule : List (Fin 4)}
    (h : ∀ t ∈ rfcTiles fb.width fb.height, ∀ c, Shows fb t c → 1 ≤ c.quality → c.quality ≤ 100 →
      c.quality = 100 - 11 * (9 - q) → compress c = compress' c) :
    tightEncode m0 m ⟨true, q, compress⟩ xpos ypos dst fb damage grid zs ans schedule =
      tightEncode m0 m ⟨true, q, compress'⟩ xpos ypos dst fb damage grid zs ans schedule := by
  obtain ⟨src, h1, -, -, -, -, hs⟩ := plain_table hp
  refine tightEncode_same h1 fun x y t z as hx hy => ?_
  unfold encodeTile
  dsimp only
  obtain ⟨fmt, f1, f2⟩ := jpegCall_shows (cfg := ⟨true, q, compress⟩) hf hp he (t := boxOf fb (x, y)) (by
    unfold Fb.gw at hx
    unfold Fb.gh at hy
    unfold Box.In boxOf
    dsimp only
    omega)
  have hc := h (boxOf fb (x, y)) (by rw [rfcTiles_coords]; exact List.mem_map_of_mem (mem_coords.mpr ⟨hx, hy⟩)) _ f2
    (show 1 ≤ 11 * q + 1 by omega) (show 11 * q + 1 ≤ 100 by omega) (show 11 * q + 1 = 100 - 11 * (9 - q) by omega)
  rw [tightJpeg_eq hf hs hx hy, tightJpeg_eq hf hs hx hy, f1]
  dsimp only
  rw [hc]
  rfl

/-- C119 is violated: whatever the quality, libjpeg is never asked to keep the colours' resolution.  What would do so is
compared with a level, but is already a quality. -/
theorem c119_chroma_violated {m0 : Heap} {m : Nat → Nat → Heap} {q : Nat} {compress compress' : JpegCall → Option Bytes}
    {xpos ypos : Nat} {fb : Fb} {dst : PixFmt}
    {damage : List Box} {grid : List Tile} {zs : Fin 4 → Zs} {ans : Fin 4 → List Ans} {schedule : List (Fin 4)}
    (h : ∀ c, c.full = false → compress c = compress' c) :
    tightEncode m0 m ⟨true, q, compress⟩ xpos ypos dst fb damage grid zs ans schedule =
      tightEncode m0 m ⟨true, q, compress'⟩ xpos ypos dst fb damage grid zs ans schedule := by
  cases h1 : pixfmt fb.f with
  | none => unfold tightEncode; rw [h1]
  | some src =>
    refine tightEncode_same h1 fun x y t z as hx hy => ?_
    unfold encodeTile tightJpeg
    dsimp only
    rw [show (11 * q + 1 == 9) = false from beq_eq_false_iff_ne.mpr (by omega)]
    have hc : ∀ c : JpegCall, compress { c with full := false } = compress' { c with full := false } := fun c => h _ rfl
    split
    · rfl
    · congr 1
      split
      · rfl
      next fmt _ =>
        refine congrArg (Bind.bind (m := Outcome) _) (funext fun stride => congrArg (Bind.bind (m := Outcome) _) (funext fun xoff => ?_))
        split
        · rfl
        · rw [hc ⟨_, _, _, _, _, true, _⟩]

/-! ## Cases -/

/-- five columns of tiles, two rows: 257 by 65 pixels -/
def tightFb : Fb := ⟨⟨.four .w8 .argb false, false⟩, 257, 65, 257, List.replicate (65 * 257 * 4) 7⟩

theorem tightFb_ok : tightFb.Ok :=
  ⟨by decide, by unfold tightFb; simp only [List.length_replicate]; decide, by decide⟩

def tightGrid : List Tile := List.replicate 10 ⟨.ready, 0, []⟩

def plenty : Heap := fun _ => some fun _ => 0

example {cfg : TightCfg} {zs : Fin 4 → Zs} {ans : Fin 4 → List Ans} {schedule : List (Fin 4)} :=
  c45_tight_partial (m0 := plenty) (m := fun _ _ => plenty) (fun _ _ _ => rfl) (cfg := cfg) (xpos := 3) (ypos := 4)
    tightFb_ok (by decide) saneXrgb (.inr (.inr (by decide))) (by decide) (damage := [⟨63, 0, 65, 64⟩, ⟨256, 64, 257, 65⟩])
    (by unfold Box.In tightFb; decide) (grid := tightGrid) rfl (zs := zs) (ans := ans) (schedule := schedule)

/-- three by two pixels of 32 bits, one worker that has something to do -/
def oneTile : Outcome (Bytes × Nat × (Fin 4 → Zs)) :=
  tightEncode plenty (fun _ _ => plenty) ⟨true, 10, fun _ => none⟩ 5 7 demoXrgb demoFb [⟨0, 0, 1, 1⟩]
    [⟨.ready, 0, []⟩] (fun _ => ⟨[], [], []⟩)
    (fun _ => [⟨plenty, 9, [1, 2], false⟩, ⟨plenty, 9, [3], false⟩]) [3, 0, 2, 1]

/-- the whole tile is sent: 18 bytes of three byte pixels went into stream 0, and three bytes came out -/
example : (oneTile >>= fun q => .ok (q.1, q.2.1, q.2.2 0)) =
    .ok ([0, 5, 0, 7, 0, 3, 0, 2, 0, 0, 0, 7, 0, 3, 1, 2, 3], 1,
      ⟨[16, 8, 0, 48, 40, 32, 80, 72, 64, 144, 136, 128, 176, 168, 160, 208, 200, 192], [1, 2, 3],
        [([16, 8, 0, 48, 40, 32, 80, 72, 64, 144, 136, 128, 176, 168, 160, 208, 200, 192], [1, 2, 3])]⟩) := by
  decide +kernel

example {p : Bytes} {n : Nat} {zs' : Fin 4 → Zs} (h : oneTile = .ok (p, n, zs')) :=
  c65_basic_partial (fun _ _ _ => rfl) (.inr (by decide)) demoFb_ok (by decide) saneXrgb (.inr (.inr (by decide)))
    (by decide) (by decide) (fun t ht _ => (by decide : ∀ t ∈ rfcTiles demoFb.width demoFb.height,
      12 ≤ t.w * t.h * tpixelSize demoXrgb) t ht) rfl h

/-- two tiles as images, of which one is damaged -/
def oneImage : Outcome (Bytes × Nat × (Fin 4 → Zs)) :=
  tightEncode plenty (fun _ _ => plenty) ⟨true, 9, fun c => some (if c.width = 64 then [1, 2] else [3])⟩ 5 7 demoXrgb
    ⟨⟨.four .w8 .argb false, false⟩, 65, 1, 65, List.replicate (65 * 4) 7⟩ [⟨64, 0, 65, 1⟩]
    (List.replicate 2 ⟨.ready, 0, []⟩) (fun _ => ⟨[], [], []⟩) (fun _ => []) [1, 3, 0, 2]

example {p : Bytes} {n : Nat} {zs' : Fin 4 → Zs} (h : oneImage = .ok (p, n, zs')) :=
  c65_jpeg_partial (fun _ _ _ => rfl) (by decide)
    ⟨by decide, by simp only [List.length_replicate]; decide, by decide⟩ (by decide) (by decide) (by decide)
    (by unfold Box.In; decide) (img := fun t => if t.w = 64 then [1, 2] else [3]) (fun t _ c hc _ => by
      dsimp only
      rw [hc.width]) (by decide) rfl h

/-- C119: at the best level the first tile of the framebuffer is compressed with quality 100 -/
example (compress' : JpegCall → Option Bytes) (h : ∀ c, c.quality = 100 → compress' c = some (if c.width = 64 then [1, 2] else [3])) :
    tightEncode plenty (fun _ _ => plenty) ⟨true, 9, compress'⟩ 5 7 demoXrgb
      ⟨⟨.four .w8 .argb false, false⟩, 65, 1, 65, List.replicate (65 * 4) 7⟩ [⟨64, 0, 65, 1⟩]
      (List.replicate 2 ⟨.ready, 0, []⟩) (fun _ => ⟨[], [], []⟩) (fun _ => []) [1, 3, 0, 2] = oneImage :=
  c119_image_partial (by decide) ⟨by decide, by simp only [List.length_replicate]; decide, by decide⟩ (by decide) (by decide)
    fun t _ c _ _ _ hc => h c hc

example : (oneImage >>= fun q => .ok (q.1, q.2.1)) = .ok ([0, 69, 0, 7, 0, 1, 0, 1, 0, 0, 0, 7, 0x90, 1, 3], 1) := by
  decide +kernel

/-! ## Violations -/

theorem abort_of {α β} {o : Outcome α} {f : α → β} {why : String} (h : (o >>= fun q => .ok (f q)) = .abort why) :
    o = .abort why := by
  cases o with
  | ok a => cases h
  | ub w => cases h
  | abort w => cases h; rfl

theorem ok_of {α β} {o : Outcome α} {f : α → β} {b : β} (h : (o >>= fun q => .ok (f q)) = .ok b) :
    ∃ a, o = .ok a ∧ f a = b := by
  cases o with
  | ok a => cases h; exact ⟨a, rfl, rfl⟩
  | ub w => cases h
  | abort w => cases h

def wideFb : Fb := ⟨⟨.four .w8 .argb false, false⟩, 32768, 1, 32768, List.replicate (32768 * 4) 7⟩

/-- C45 is violated: the last column of tiles of a framebuffer with 32768 columns ends at a position that is
not an `int16_t`, so that damage in it is not seen, and the program is aborted if there is no other -/
theorem c45_wide_violated : wideFb.Ok ∧ (⟨32710, 0, 32711, 1⟩ : Box).In wideFb ∧
    ∀ cfg zs ans schedule, tightEncode plenty (fun _ _ => plenty) cfg 0 0 demoXrgb wideFb [⟨32710, 0, 32711, 1⟩]
      (List.replicate 512 ⟨.ready, 0, []⟩) zs ans schedule = .abort "n_rects > 0" := by
  refine ⟨⟨by decide, by unfold wideFb; simp only [List.length_replicate]; decide, by decide⟩,
    by unfold Box.In wideFb; decide, ?_⟩
  intro cfg zs ans schedule
  have h1 : (applyDamage 512 [⟨32710, 0, 32711, 1⟩] (List.replicate 512 ⟨.ready, 0, []⟩)).countP
      (fun t => t.state = .damaged) = 0 := by decide +kernel
  have h2 : pixfmt wideFb.f = some demoXrgb := by decide
  unfold tightEncode
  rw [h2]
  simp only
  rw [show (wideFb.width + 63) / 64 = 512 from rfl, h1]
  rfl

/-- C45 is violated: after JPEG images of 1011 and 640 bytes for two tiles of 65 by 4 pixels there is room for
one byte where two are written, and the program is aborted -/
theorem c45_room_violated :
    tightEncode plenty (fun _ _ => plenty)
      ⟨true, 9, fun c => some (List.replicate (if c.width = 64 then 1011 else 640) 7)⟩ 0 0 demoXrgb
      ⟨⟨.four .w8 .argb false, false⟩, 65, 4, 65, List.replicate (65 * 4 * 4) 7⟩ [⟨0, 0, 65, 4⟩]
      (List.replicate 2 ⟨.ready, 0, []⟩) (fun _ => ⟨[], [], []⟩) (fun _ => []) [0, 1, 2, 3] =
      .abort "vec_fast_append_8: len < cap" :=
  abort_of (f := fun q => q.2.1) (by decide +kernel)

/-- one pixel -/
def pixelFb : Fb := ⟨⟨.four .w8 .argb false, false⟩, 1, 1, 1, [1, 2, 3, 4]⟩

/-- the pixel is sent compressed -/
def smallRun : Outcome (Bytes × Nat × (Fin 4 → Zs)) :=
  tightEncode plenty (fun _ _ => plenty) ⟨true, 10, fun _ => none⟩ 0 0 demoXrgb
    pixelFb [⟨0, 0, 1, 1⟩] [⟨.ready, 0, []⟩] (fun _ => ⟨[], [], []⟩)
    (fun _ => [⟨plenty, 3, [120, 1, 98, 100, 98, 6, 0, 0, 0, 255, 255], false⟩]) [0, 1, 2, 3]

/-- C65 is violated: three bytes of a pixel are sent compressed, and not as they are -/
theorem c65_small_violated : ∃ p zs', smallRun = .ok (p, 1, zs') ∧
    ∀ one, (∀ px, SameTpixel pixelFb.f demoXrgb (drm (.four .w8 .argb false)) px (one px)) → ∀ z z',
      ¬ TightFrame one pixelFb 0 0 [⟨0, 0, 1, 1⟩] z p z' := by
  obtain ⟨⟨p, n, zs'⟩, h1, h2⟩ := ok_of (o := smallRun) (f := fun q => (q.1, q.2.1))
    (b := ([0, 0, 0, 0, 0, 1, 0, 1, 0, 0, 0, 7, 0, 11, 120, 1, 98, 100, 98, 6, 0, 0, 0, 255, 255], 1)) (by decide +kernel)
  cases h2
  refine ⟨_, zs', h1, fun one hone z z' h => ?_⟩
  have hl : (tightData one pixelFb ⟨0, 0, 1, 1⟩).length = 3 := by
    unfold tightData
    rw [flatMap_length (k := 3) (fun p => (hone _).1)]
    rfl
  rw [TightFrame, if_pos (by omega)] at h
  obtain ⟨s, rest, h1, h2, -⟩ := h
  subst h2
  have := congrArg List.length h1
  simp [tightHead, be16_length, hl] at this

/-- a pixel of 30 bits is to be sent as an image -/
def deepRun (compress : JpegCall → Option Bytes) : Outcome (Bytes × Nat × (Fin 4 → Zs)) :=
  tightEncode plenty (fun _ _ => plenty) ⟨true, 9, compress⟩ 0 0 demoXrgb
    { pixelFb with f := ⟨.four .w10 .argb false, false⟩ } [⟨0, 0, 1, 1⟩]
    [⟨.ready, 0, []⟩] (fun _ => ⟨[], [], []⟩) (fun _ => []) [0, 1, 2, 3]

/-- C65 is violated: what libjpeg cannot do is not done in another way, but sent as an image of no bytes -/
theorem c65_jpeg_violated (compress : JpegCall → Option Bytes) :
    ∃ zs', deepRun compress = .ok ([0, 0, 0, 0, 0, 1, 0, 1, 0, 0, 0, 7, 0x90, 0], 1, zs') := by
  obtain ⟨⟨p, n, zs'⟩, h1, h2⟩ := ok_of (o := deepRun fun _ => none) (f := fun q => (q.1, q.2.1))
    (b := ([0, 0, 0, 0, 0, 1, 0, 1, 0, 0, 0, 7, 0x90, 0], 1)) (by decide +kernel)
  cases h2
  have : deepRun compress = deepRun fun _ => none := rfl
  exact ⟨zs', by rw [this, h1]⟩

/-- colours of 16 bits in 32 bits -/
def wideRun : Outcome (Bytes × Nat × (Fin 4 → Zs)) :=
  tightEncode plenty (fun _ _ => plenty) ⟨true, 10, fun _ => none⟩ 5 7 demoWide demoFb [⟨0, 0, 1, 1⟩]
    [⟨.ready, 0, []⟩] (fun _ => ⟨[], [], []⟩)
    (fun _ => [⟨plenty, 6, [1, 2], false⟩, ⟨plenty, 6, [3], false⟩]) [3, 0, 2, 1]

/-- C65 is violated: 16 bits of colours in 32 bits are sent as two bytes, but only three bytes are special -/
theorem c65_tpixel_violated : tpixelSize demoWide = 4 ∧ ∃ p n zs', wideRun = .ok (p, n, zs') ∧
    (zs' 0).inp.length = 3 * 2 * 2 := by
  refine ⟨by decide, ?_⟩
  obtain ⟨⟨p, n, zs'⟩, h1, h2⟩ := ok_of (o := wideRun) (f := fun q => (q.2.2 0).inp.length) (b := 12) (by decide +kernel)
  exact ⟨p, n, zs', h1, h2⟩

end Verif.Enc
