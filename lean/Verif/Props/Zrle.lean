import Verif.Lemmas.Zrle

/-!
# ZRLE tiles (C41, C43)
-/

namespace Verif.Enc
open Verif.Server (PixFmt be32i)
open Verif.Pixels
open Verif.Vec (Heap Vec Ok reserve_ok step_ok write_end bytes_length sizeT reserve)

/-! ## The decoder reads what the encoder writes -/

theorem readPixels_eq {one : Bytes → Bytes} {size : Nat} (h1 : ∀ px, (one px).length = size) (rest : Bytes) :
    ∀ px : List Bytes, readPixels size px.length (px.flatMap one ++ rest) = some (px.map one, rest)
  | [] => rfl
  | p :: px => by
    rw [List.length_cons, readPixels, List.flatMap_cons, List.append_assoc,
      if_neg (by rw [List.length_append, h1]; omega)]
    have hd : (one p ++ (px.flatMap one ++ rest)).drop size = px.flatMap one ++ rest := by
      rw [← h1 p, List.drop_left]
    have ht : (one p ++ (px.flatMap one ++ rest)).take size = one p := by
      rw [← h1 p, List.take_left]
    rw [hd, ht, readPixels_eq h1 rest px]
    rfl

theorem readRun_tail (rest : Bytes) : ∀ k r, 1 ≤ r → r ≤ k → readRun (tailBytes k r ++ rest) = some (r, rest)
  | 0, r, h1, h2 => by omega
  | k + 1, r, h1, h2 => by
    rw [tailBytes]
    split
    · rw [List.cons_append, readRun, if_pos rfl, readRun_tail rest k (r - 255) (by omega) (by omega)]
      simp only [Option.map_some, Option.some.injEq, Prod.mk.injEq, and_true]
      omega
    · rename_i hr
      have hn : (UInt8.ofNat (r - 1)).toNat = r - 1 := by rw [toNat_ofNat8]; omega
      rw [List.cons_append, readRun, if_neg, hn, List.nil_append]
      · congr 2; omega
      · intro h
        have := congrArg UInt8.toNat h
        rw [hn] at this
        have : r - 1 = 255 := this
        omega

theorem index_small {pal : List Bytes} {c : Bytes} (h : c ∈ pal) (hl : pal.length ≤ 16) :
    ∃ i, i < 16 ∧ index pal c = UInt8.ofNat i ∧ pal[i]? = some c := by
  cases e : findColour pal c with
  | none => exact absurd h (findColour_none.1 e)
  | some i =>
    have hi := findColour_some e
    have hlt : i < pal.length := by
      rcases Nat.lt_or_ge i pal.length with h | h
      · exact h
      · rw [List.getElem?_eq_none h] at hi; cases hi
    exact ⟨i, by omega, by unfold index; rw [e], hi⟩

theorem small_index : ∀ i, i < 16 → (UInt8.ofNat i).toNat = i ∧ (UInt8.ofNat i ||| 128).toNat = 128 + i := by decide

theorem small_count : ∀ k, k ≤ 16 → (UInt8.ofNat (128 ||| k)).toNat = 128 + k := by
  have h : ∀ k, k < 17 → (UInt8.ofNat (128 ||| k)).toNat = 128 + k := by decide
  intro k hk
  exact h k (by omega)

/-- one run -/
theorem readPaletteRle_run {pal : List Bytes} {i : Nat} {c : Bytes} (hi : i < 16) (hc : pal[i]? = some c) {r k f : Nat}
    (h1 : 1 ≤ r) (hk : r ≤ k) (b : Bytes) :
    readPaletteRle pal (f + 1) k (runBytes (UInt8.ofNat i) r ++ b) =
      (readPaletteRle pal f (k - r) b).map fun q => (List.replicate r c ++ q.1, q.2) := by
  obtain ⟨k, rfl⟩ : ∃ j, k = j + 1 := ⟨k - 1, by omega⟩
  obtain ⟨g1, g2⟩ := small_index i hi
  unfold runBytes
  split
  · rename_i hr
    subst hr
    rw [List.cons_append, readPaletteRle, g1, Nat.mod_eq_of_lt (by omega), hc]
    simp only [Option.bind_eq_bind, Option.bind_some, if_pos (show i < 128 by omega), List.nil_append]
    show (readPaletteRle pal f k b).bind _ = _
    rw [Nat.add_sub_cancel]
    cases readPaletteRle pal f k b <;> rfl
  · rw [List.cons_append, readPaletteRle, g2, show (128 + i) % 128 = i by omega, hc]
    simp only [Option.bind_eq_bind, Option.bind_some]
    rw [if_neg (by omega), readRun_tail b r r h1 (Nat.le_refl _)]
    simp only [Option.bind_some]
    rw [if_pos hk]
    cases readPaletteRle pal f (k + 1 - r) b <;> rfl

theorem readPaletteRle_zero (pal : List Bytes) (f : Nat) (b : Bytes) : readPaletteRle pal f 0 b = some ([], b) := by
  cases f <;> rfl

/-- all runs -/
theorem readPaletteRle_runs {one : Bytes → Bytes} {pal : List Bytes} (hl : pal.length ≤ 16) (rest : Bytes) :
    ∀ (ps : List Bytes) (c : Bytes) (r f : Nat), 1 ≤ r → c ∈ pal → (∀ p ∈ ps, p ∈ pal) → r + ps.length ≤ f →
      readPaletteRle (pal.map one) f (r + ps.length) (runsBytes pal c r ps ++ rest) =
        some (List.replicate r (one c) ++ ps.map one, rest)
  | [], c, r, f, h1, hc, _, hf => by
    obtain ⟨i, hi, e, hp⟩ := index_small hc hl
    obtain ⟨f, rfl⟩ : ∃ g, f = g + 1 := ⟨f - 1, by omega⟩
    rw [runsBytes, e, List.length_nil]
    show readPaletteRle _ _ r _ = _
    rw [readPaletteRle_run hi (c := one c) (by rw [List.getElem?_map, hp]; rfl) h1 (Nat.le_refl _), Nat.sub_self,
      readPaletteRle_zero]
    rfl
  | p :: ps, c, r, f, h1, hc, hps, hf => by
    rw [List.length_cons] at hf ⊢
    rw [runsBytes]
    split
    · rename_i hpc
      subst hpc
      have := readPaletteRle_runs (one := one) hl rest ps p (r + 1) f (by omega) hc
        (fun q hq => hps q (List.mem_cons_of_mem _ hq)) (by omega)
      rw [show r + (ps.length + 1) = r + 1 + ps.length by omega, this, List.replicate_succ', List.append_assoc]
      rfl
    · obtain ⟨i, hi, e, hp⟩ := index_small hc hl
      obtain ⟨f, rfl⟩ : ∃ g, f = g + 1 := ⟨f - 1, by omega⟩
      have := readPaletteRle_runs (one := one) hl rest ps p 1 f (by omega) (hps p (by simp))
        (fun q hq => hps q (List.mem_cons_of_mem _ hq)) (by omega)
      rw [e, List.append_assoc,
        readPaletteRle_run hi (c := one c) (by rw [List.getElem?_map, hp]; rfl) h1 (by omega),
        show r + (ps.length + 1) - r = 1 + ps.length by omega, this]
      rfl

/-- a tile's bytes are read as its pixels -/
theorem decodeTile_eq {one : Bytes → Bytes} {size : Nat} (h1 : ∀ px, (one px).length = size) {px : List Bytes} {w h : Nat}
    (hp : px ≠ []) (hwh : w * h = px.length) (rest : Bytes) :
    decodeTile size w h (tileBytes one size px ++ rest) = some (px.map one, rest) := by
  obtain ⟨c, cs, rfl⟩ := List.exists_cons_of_ne_nil hp
  have hraw : decodeTile size w h (0 :: (c :: cs).flatMap one ++ rest) = some ((c :: cs).map one, rest) := by
    rw [List.cons_append, decodeTile, hwh]
    exact readPixels_eq h1 rest (c :: cs)
  have hn : [c].Nodup := by simp
  unfold tileBytes
  cases hloop : paletteLoop [c] (c :: cs) with
  | none => simp only [hloop]; exact hraw
  | some pal =>
    obtain ⟨g1, g2, ⟨more, g3⟩, g4⟩ := paletteLoop_some _ _ hn (by simp) hloop
    match pal with
    | [] => simp at g3
    | [d] =>
      simp only [hloop]
      have hall : ∀ p ∈ c :: cs, p = d := fun p hp => by
        have := (g4 p).2 (.inr hp)
        simpa using this
      have e : (c :: cs).map one = List.replicate (c :: cs).length (one d) := by
        rw [List.eq_replicate_iff]
        refine ⟨by simp, fun b hb => ?_⟩
        obtain ⟨p, hp, rfl⟩ := List.mem_map.1 hb
        rw [hall p hp]
      have := readPixels_eq h1 rest [d]
      rw [List.flatMap_cons, List.flatMap_nil, List.append_nil, List.length_singleton] at this
      rw [List.cons_append, decodeTile]
      show (readPixels size 1 _).map _ = _
      rw [this, e, hwh]
      rfl
    | d :: e :: pal =>
      simp only [hloop]
      split
      · unfold packedBytes
        have hk := small_count _ g2
        rw [List.cons_append, List.cons_append, decodeTile, hk]
        simp only [List.length_cons] at g2 ⊢
        rw [if_neg (by omega), if_neg (by omega), if_neg (by omega), if_neg (by omega), if_pos (by omega),
          show 128 + (pal.length + 1 + 1) - 128 = (d :: e :: pal).length by simp, List.append_assoc, readPixels_eq h1]
        simp only [Option.bind_eq_bind, Option.bind_some]
        have := readPaletteRle_runs (one := one) (pal := d :: e :: pal) (by simpa using g2) rest cs c 1 (w * h) (by omega)
          ((g4 c).2 (.inl (by simp))) (fun p hp => (g4 p).2 (.inr (List.mem_cons_of_mem _ hp)))
          (by rw [hwh, List.length_cons]; omega)
        rw [show 1 + cs.length = w * h by rw [hwh, List.length_cons]; omega] at this
        rw [this]
        rfl
      · exact hraw

/-! ## Compact pixels -/

/-- conversions that go well are pixel by pixel -/
theorem toCpixel_one {dst src : PixFmt} {bpc : Nat} (h : ∀ pxs, ∃ b, toCpixel dst src bpc pxs = .ok b) :
    1 ≤ bpc ∧ bpc ≤ 4 ∧ ∃ one : Bytes → Bytes, (∀ pxs, toCpixel dst src bpc pxs = .ok (pxs.flatMap one)) ∧
      ∀ px, (one px).length = bpc := by
  have hbpc : 1 ≤ bpc ∧ bpc ≤ 4 := by
    obtain ⟨b, hb⟩ := h []
    unfold toCpixel at hb
    repeat (rcases Server.ite_cases hb with ⟨_, hb⟩ | ⟨_, hb⟩; · cases hb)
    omega
  have hall : ∀ pxs, toCpixel dst src bpc pxs = convertAll (compact dst bpc) src bpc pxs := by
    obtain ⟨b, hb⟩ := h []
    intro pxs
    unfold toCpixel at hb ⊢
    rcases Server.ite_cases hb with ⟨_, hb⟩ | ⟨h1, hb⟩; · cases hb
    rcases Server.ite_cases hb with ⟨_, hb⟩ | ⟨h2, hb⟩; · cases hb
    rcases Server.ite_cases hb with ⟨_, hb⟩ | ⟨h3, hb⟩; · cases hb
    rcases Server.ite_cases hb with ⟨_, hb⟩ | ⟨h4, hb⟩; · cases hb
    rcases Server.ite_cases hb with ⟨_, hb⟩ | ⟨h5, hb⟩; · cases hb
    rcases Server.ite_cases hb with ⟨_, hb⟩ | ⟨h6, hb⟩; · cases hb
    rw [if_neg h1, if_neg h2, if_neg h3, if_neg h4, if_neg h5, if_neg h6]
  have hone : ∀ px : Bytes, ∃ v, convert (compact dst bpc) src (leNat px) = .ok v := by
    intro px
    obtain ⟨b, hb⟩ := h [px]
    rw [hall, convertAll] at hb
    obtain ⟨v, hv, -⟩ := Outcome.bind_eq_ok.1 hb
    exact ⟨v, hv⟩
  refine ⟨hbpc.1, hbpc.2, fun px => put (compact dst bpc) bpc (hone px).choose, fun pxs => ?_, fun px => put_length _ _ _⟩
  rw [hall]
  exact convertAll_eq (fun px => (hone px).choose_spec) pxs

theorem kind_low {p : PixFmt} {l : Layout} (h : cpixelKind p l = .low) :
    p.bpp = 32 ∧ p.depth ≤ 24 ∧ ∀ c, (l c).shift + (l c).bits ≤ 24 := by
  unfold cpixelKind at h
  split at h
  · rename_i h1
    split at h
    · rename_i h2
      exact ⟨h1.1, h1.2, fun c => by cases c <;> omega⟩
    · split at h <;> cases h
  · cases h

theorem kind_high {p : PixFmt} {l : Layout} (h : cpixelKind p l = .high) :
    p.bpp = 32 ∧ p.depth ≤ 24 ∧ ∀ c, 8 ≤ (l c).shift := by
  unfold cpixelKind at h
  split at h
  · rename_i h1
    split at h
    · cases h
    · split at h
      · rename_i h2
        exact ⟨h1.1, h1.2, fun c => by cases c <;> omega⟩
      · cases h
  · cases h

theorem holds_high {v : Nat} {l : Layout} {x : Ch → Nat} (h8 : ∀ c, 8 ≤ (l c).shift)
    (h : Holds v (fun c => ⟨(l c).shift - 8, (l c).bits⟩) x) : Holds (v * 256) l x := by
  obtain ⟨h1, h2⟩ := h
  constructor
  · intro c
    rw [← h1 c]
    unfold Field.get
    simp only
    have := h8 c
    rw [show 2 ^ (l c).shift = 256 * 2 ^ ((l c).shift - 8) by
      rw [show 256 = 2 ^ 8 from rfl, ← Nat.pow_add]; congr 1; omega]
    rw [Nat.mul_comm v, Nat.mul_div_mul_left _ _ (by decide)]
  · intro i hi
    rw [show 256 = 2 ^ 8 from rfl, ← Nat.shiftLeft_eq, Nat.testBit_shiftLeft] at hi
    have hi8 : 8 ≤ i := by
      rcases Nat.lt_or_ge i 8 with h | h
      · simp [show ¬ i ≥ 8 by omega] at hi
      · exact h
    obtain ⟨c, hc1, hc2⟩ := h2 (i - 8) (by simpa [hi8] using hi)
    have := h8 c
    simp only at hc1 hc2
    exact ⟨c, by omega, by omega⟩

/-- **C64** (part): for formats that make sense and are as in `CpixelOk` compact pixels have the RFC's size,
and are read as pixels with the source's colours.

What is missing: the other formats, see `c64_cpixel_violated`. -/
theorem c64_cpixel_partial {f : Fourcc} (hf : Plain f) {dst : PixFmt} {l : Layout} (hd : Sane dst l) (hc : CpixelOk dst l) :
    ∃ src, pixfmt f = some src ∧ bytesPerCpixel dst = cpixelSize dst l ∧ ∃ one : Bytes → Bytes,
      (∀ pxs, toCpixel dst src (bytesPerCpixel dst) pxs = .ok (pxs.flatMap one)) ∧
      ∀ px, SameCpixel f dst l px (one px) := by
  have hb := hd.bpp
  have hi := hd.inside
  have hdep := hd.depth
  by_cases hfull : dst.bpp ≠ 32 ∨ 24 < dst.depth
  · -- the pixels as they are
    obtain ⟨src, h1, one, h2, h3⟩ := c47_pixels_partial hf hd
    have hk : cpixelKind dst l = .full := by
      unfold cpixelKind
      rw [if_neg (by omega)]
    have hbpc : bytesPerCpixel dst = dst.bpp / 8 := by
      unfold bytesPerCpixel
      split <;> omega
    have hsz : cpixelSize dst l = dst.bpp / 8 := by unfold cpixelSize; rw [hk]
    refine ⟨src, h1, by rw [hbpc, hsz], one, by rw [hbpc]; exact h2, fun px => ⟨by rw [hsz]; exact (h3 px).1, ?_⟩⟩
    unfold cpixelValue
    rw [hk]
    exact (h3 px).2
  · -- three bytes
    have hc := hc.resolve_left (by omega) |>.resolve_left (by omega)
    obtain ⟨h16, hkind⟩ := hc
    have h32 : dst.bpp = 32 := by omega
    have h24 : dst.depth ≤ 24 := by omega
    have hbpc : bytesPerCpixel dst = 3 := by unfold bytesPerCpixel; rw [if_pos h32]; omega
    obtain ⟨src, h1, h2, h3, h4, h5, -⟩ := plain_table hf
    obtain ⟨sr, sg, sb⟩ := hd.says
    -- the layout of the three bytes
    have hlay : ∃ k, (k = 0 ∨ k = 8) ∧ (∀ c, k ≤ (l c).shift ∧ (l c).shift + (l c).bits ≤ 24 + k) ∧
        min dst.rshift (min dst.gshift dst.bshift) = k ∧ cpixelSize dst l = 3 ∧
        ∀ b, cpixelValue dst l b = clientPixel dst b * 2 ^ k := by
      rcases hkind with ⟨hk, c, hc⟩ | ⟨hk, c, hc⟩
      · refine ⟨0, .inl rfl, fun c => ⟨by omega, (kind_low hk).2.2 c⟩, ?_, by unfold cpixelSize; rw [hk], fun b => ?_⟩
        · rw [sr.2, sg.2, sb.2]
          cases c <;> omega
        · unfold cpixelValue; rw [hk]; simp
      · refine ⟨8, .inr rfl, fun c => ⟨(kind_high hk).2.2 c, by have := (hi c).2; omega⟩, ?_,
          by unfold cpixelSize; rw [hk], fun b => ?_⟩
        · have gr := (kind_high hk).2.2 .r
          have gg := (kind_high hk).2.2 .g
          have gb := (kind_high hk).2.2 .b
          rw [sr.2, sg.2, sb.2]
          cases c <;> omega
        · unfold cpixelValue; rw [hk]
    obtain ⟨k, hk, hlk, hmin, hsize, hval⟩ := hlay
    have hl' : Says (compact dst 3) (fun c => ⟨(l c).shift - k, (l c).bits⟩) := by
      unfold compact
      rw [if_pos ⟨rfl, h32, h24⟩]
      simp only [hmin]
      exact ⟨⟨sr.1, by simp only; rw [sr.2]⟩, ⟨sg.1, by simp only; rw [sg.2]⟩, ⟨sb.1, by simp only; rw [sb.2]⟩⟩
    have hbe : (compact dst 3).bigEndian = dst.bigEndian := by unfold compact; split <;> rfl
    have hconv : ∀ px : Bytes, ∃ v, convert (compact dst 3) src (leNat px) = .ok v ∧
        Holds v (fun c => ⟨(l c).shift - k, (l c).bits⟩) fun c =>
          rescale ((drm f.code c).get (drmPixel f px)) (drm f.code c).bits (l c).bits := by
      intro px
      have hp : drmPixel f px = leNat px := by unfold drmPixel; rw [hf.1]; rfl
      rw [hp]
      refine convert_holds hl' h2 (leNat px) (fun c => ⟨(h5 c).1, (h5 c).2.2⟩) (fun c => ?_) (fun c d hcd => ?_)
      · have := hi c
        exact ⟨hd.bits c, by simp only; omega, by simp only; omega⟩
      · have g1 := hlk c
        have g2 := hlk d
        have := hd.apart c d hcd
        unfold Field.apart at this ⊢
        simp only
        omega
    refine ⟨src, h1, by rw [hbpc, hsize], fun px => put (compact dst 3) 3 (hconv px).choose, fun pxs => ?_,
      fun px => ⟨by rw [put_length, hsize], ?_⟩⟩
    · rw [hbpc]
      unfold toCpixel
      rw [h3, if_neg (by decide), if_neg (by omega), if_neg hd.colour, if_neg (by omega), if_neg (by omega),
        if_neg (by omega)]
      exact convertAll_eq (fun px => (hconv px).choose_spec.1) pxs
    · have hh := (hconv px).choose_spec.2
      have hlt := holds_lt (n := 24) hh (fun c => by have := hlk c; simp only; omega)
      have hcl : clientPixel dst (put (compact dst 3) 3 (hconv px).choose) = (hconv px).choose := by
        have := clientPixel_put (p := compact dst 3) (n := 3) (v := (hconv px).choose) hlt
        unfold clientPixel at this ⊢
        rw [hbe] at this
        exact this
      rw [hval, hcl]
      rcases hk with rfl | rfl
      · simpa using hh
      · exact holds_high (fun c => (hlk c).1) hh

/-- a vector for tiles -/
structure TileVec (dst : PixFmt) (v : Vec) : Prop where
  ok : Ok v
  cap : v.cap = tileCap dst

/-- **C41** (part): the bytes of a tile of at most 64 by 64 pixels are read, as the RFC says, as those
pixels one by one in the client's compact format, and nothing is left over.

What is missing: formats whose compact pixels are not those of the RFC, see `c41_tile_violated`, such
for which there is no conversion (C47, C48), and tiles that overflow the palette (C43). -/
theorem c41_tile_partial {m : Heap} {f : Fourcc} (hf : Plain f) {dst : PixFmt} {l : Layout} (hd : Sane dst l)
    (hc : CpixelOk dst l) {v : Vec} (hv : TileVec dst v) {w h : Nat} (hw : 1 ≤ w ∧ w ≤ 64) (hh : 1 ≤ h ∧ h ≤ 64)
    {px : List Bytes} (hp : px.length = w * h)
    (hpal : cpixelSize dst l = 4 → ∀ k, Colours px k → k ≤ 12 ∨ 16 < k) :
    ∃ src, pixfmt f = some src ∧ ∃ one : Bytes → Bytes, (∀ p, SameCpixel f dst l p (one p)) ∧
      ∃ v', zrleTile m dst src px v = .ok v' ∧ TileVec dst v' ∧
        ∀ rest, decodeTile (cpixelSize dst l) w h (v'.bytes ++ rest) = some (px.map one, rest) := by
  obtain ⟨src, h1, h2, one, h3, h4⟩ := c64_cpixel_partial hf hd hc
  have hlen : ∀ p, (one p).length = bytesPerCpixel dst := fun p => by rw [(h4 p).1, h2]
  obtain ⟨b1, b4, -⟩ := toCpixel_one (fun pxs => ⟨_, h3 pxs⟩)
  have h1wh : 1 * 1 ≤ w * h := Nat.mul_le_mul hw.1 hh.1
  have hwh64 : w * h ≤ 64 * 64 := Nat.mul_le_mul hw.2 hh.2
  have hne : px ≠ [] := by rintro rfl; simp at hp; omega
  have hcap : v.cap < sizeT := by
    rw [hv.cap]
    unfold tileCap
    have : bytesPerCpixel dst * 64 * 64 ≤ 4 * 64 * 64 := Nat.mul_le_mul_right _ (Nat.mul_le_mul_right _ b4)
    have : sizeT = 18446744073709551616 := rfl
    omega
  obtain ⟨v', e, o, c, b⟩ := (zrleTile_eq (m := m) (px := px) hv.ok h3 hlen ⟨b1, b4⟩ hne (by omega)
    (Nat.le_of_eq hv.cap.symm) hcap).1 (by
      intro k hk hk16
      by_cases h4 : bytesPerCpixel dst = 4
      · have := hpal (by omega) k hk
        rw [h4]; omega
      · have : bytesPerCpixel dst * k ≤ 3 * 16 := Nat.mul_le_mul (by omega) hk16
        omega)
  refine ⟨src, h1, one, h4, v', e, ⟨o, by rw [c, hv.cap]⟩, fun rest => ?_⟩
  rw [b, ← h2]
  exact decodeTile_eq hlen hne hp.symm rest

/-- **C43** (part): a tile of at most 64 by 64 pixels is encoded into its buffer, and nothing is written
beside it or beside the palette on the stack, exactly unless compact pixels have four bytes and the tile
has 13 to 16 colours. -/
theorem c43_tile_partial {m : Heap} {dst src : PixFmt} (hconv : ∀ pxs, ∃ b, toCpixel dst src (bytesPerCpixel dst) pxs = .ok b)
    {v : Vec} (hv : TileVec dst v) {px : List Bytes} (hp : 1 ≤ px.length ∧ px.length ≤ 64 * 64) :
    (∃ v', zrleTile m dst src px v = .ok v' ∧ TileVec dst v') ↔
      ¬ (bytesPerCpixel dst = 4 ∧ ∃ k, Colours px k ∧ 13 ≤ k ∧ k ≤ 16) := by
  obtain ⟨b1, b4, one, h3, hlen⟩ := toCpixel_one hconv
  have hne : px ≠ [] := by rintro rfl; simp at hp
  have hcap : v.cap < sizeT := by
    rw [hv.cap]
    unfold tileCap
    have : bytesPerCpixel dst * 64 * 64 ≤ 4 * 64 * 64 := Nat.mul_le_mul_right _ (Nat.mul_le_mul_right _ b4)
    have : sizeT = 18446744073709551616 := rfl
    omega
  obtain ⟨g1, g2⟩ := zrleTile_eq (m := m) (px := px) hv.ok h3 hlen ⟨b1, b4⟩ hne (by omega)
    (Nat.le_of_eq hv.cap.symm) hcap
  constructor
  · rintro ⟨v', e, -⟩ ⟨h4, k, hk, h13, h16⟩
    rw [g2 ⟨k, hk, h16, by rw [h4]; omega⟩] at e
    cases e
  · intro hno
    obtain ⟨v', e, o, c, -⟩ := g1 (by
      intro k hk hk16
      by_cases h4 : bytesPerCpixel dst = 4
      · rw [h4]
        rcases Nat.lt_or_ge k 13 with h | h
        · omega
        · exact absurd ⟨h4, k, hk, h, hk16⟩ hno
      · have : bytesPerCpixel dst * k ≤ 3 * 16 := Nat.mul_le_mul (by omega) hk16
        omega)
    exact ⟨v', e, o, by rw [c, hv.cap]⟩

/-! ## Cases -/

theorem cpixelXrgb : CpixelOk demoXrgb (drm (.four .w8 .argb false)) := by
  refine .inr (.inr ⟨by decide, .inl ⟨by decide, .b, by decide⟩⟩)

/-- a vector for the tiles of `demoXrgb` -/
def demoTile : Vec := { data := List.replicate 12337 0, len := 0, cap := 12337 }

theorem demoTile_ok : TileVec demoXrgb demoTile := ⟨⟨List.length_replicate, Nat.zero_le _⟩, by decide +kernel⟩

/-- a long run, two colours more and a run at the end -/
def demoPx : List Bytes := List.replicate 600 [1, 2, 3, 0] ++ [[9, 9, 9, 0], [1, 2, 3, 0]] ++ List.replicate 38 [5, 5, 5, 0]

example := c41_tile_partial (m := fun _ => none) (f := ⟨.four .w8 .argb false, false⟩) (by decide) saneXrgb cpixelXrgb
  demoTile_ok (w := 64) (h := 10) (by decide) (by decide) (px := demoPx) (by decide +kernel) (fun h => absurd h (by decide))

example : (zrleTile (fun _ => none) demoXrgb demoXrgb demoPx demoTile >>= fun v => .ok v.bytes) =
    .ok ([131, 1, 2, 3, 9, 9, 9, 5, 5, 5] ++ [128, 255, 255, 89] ++ [1, 0] ++ [130, 37]) := by decide +kernel

/-- the 16 bit colours of `demo565` in 32 bits -/
def demoWide : PixFmt := { demo565 with bpp := 32, bigEndian := 0 }

theorem saneWide : Sane demoWide lay565 := by
  refine ⟨⟨⟨rfl, rfl⟩, ⟨rfl, rfl⟩, ⟨rfl, rfl⟩⟩, by decide, by decide, by decide, ?_, ?_, ?_⟩
  · intro c; cases c <;> decide
  · intro c; cases c <;> decide
  · exact sane565.apart

/-- seven bits for each colour, from the second bit of each byte on -/
def demoOdd : PixFmt := { demoXrgb with depth := 21, rmax := 127, gmax := 127, bmax := 127, rshift := 17, gshift := 9, bshift := 1 }

def layOdd : Layout
  | .r => ⟨17, 7⟩
  | .g => ⟨9, 7⟩
  | .b => ⟨1, 7⟩

theorem saneOdd : Sane demoOdd layOdd := by
  refine ⟨⟨⟨rfl, rfl⟩, ⟨rfl, rfl⟩, ⟨rfl, rfl⟩⟩, by decide, by decide, by decide, ?_, ?_, ?_⟩
  · intro c; cases c <;> decide
  · intro c; cases c <;> decide
  · intro c d h
    unfold Field.apart
    cases c <;> cases d <;> first | exact absurd rfl h | decide

/-- a tile's pixels as a client of that format reads them -/
def readBack (dst : PixFmt) (l : Layout) (w h : Nat) (px : List Bytes) : Outcome (Option (List (Nat × Nat × Nat))) := do
  let v ← zrleTile (fun _ => none) dst demoXrgb px { demoTile with data := List.replicate (tileCap dst) 0, cap := tileCap dst }
  .ok ((decodeTile (cpixelSize dst l) w h v.bytes).map fun q =>
    q.1.map fun b => let v := cpixelValue dst l b; ((l .r).get v, (l .g).get v, (l .b).get v))

/-- C64 is violated: 16 bit colours in 32 bits have compact pixels of two bytes, but of three according to
the RFC; and of colours that begin at the second bit each bit is in the wrong place. -/
theorem c64_cpixel_violated :
    (Sane demoWide lay565 ∧ bytesPerCpixel demoWide = 2 ∧ cpixelSize demoWide lay565 = 3) ∧
    (Sane demoOdd layOdd ∧ bytesPerCpixel demoOdd = 3 ∧ cpixelSize demoOdd layOdd = 3 ∧
      toCpixel demoOdd demoXrgb 3 [[255, 0, 0, 0]] = .ok [127, 0, 0] ∧
      (layOdd .b).get (cpixelValue demoOdd layOdd [127, 0, 0]) = 63) :=
  ⟨⟨saneWide, by decide, by decide⟩, ⟨saneOdd, by decide, by decide, by decide +kernel, by decide⟩⟩

/-- C41 is violated: for a client with 16 bit colours in 32 bits compact pixels have two bytes, not three
as the RFC says, so that a client cannot read the tile; and if no component begins at the first bit
the colours are wrong: full blue is read as 63 of 127. -/
theorem c41_tile_violated :
    (Sane demoWide lay565 ∧ readBack demoWide lay565 1 1 [[255, 0, 0, 0]] = .ok none) ∧
    (Sane demoOdd layOdd ∧ readBack demoOdd layOdd 1 1 [[255, 0, 0, 0]] = .ok (some [(0, 0, 63)])) :=
  ⟨⟨saneWide, by decide +kernel⟩, ⟨saneOdd, by decide +kernel⟩⟩

/-- a client that says that its depth is 32 -/
def demoDeep : PixFmt := { demoXrgb with depth := 32 }

def deepTile : Vec := { data := List.replicate 16433 0, len := 0, cap := 16433 }

theorem deepTile_ok : TileVec demoDeep deepTile := ⟨⟨List.length_replicate, Nat.zero_le _⟩, by decide +kernel⟩

def colours (n : Nat) : List Bytes := (List.range n).map fun i => [UInt8.ofNat i, 0, 0, 0]

theorem conv_deep (pxs : List Bytes) : ∃ b, toCpixel demoDeep demoXrgb (bytesPerCpixel demoDeep) pxs = .ok b := by
  have hs : Sane demoDeep (drm (.four .w8 .argb false)) := by
    refine ⟨⟨⟨rfl, rfl⟩, ⟨rfl, rfl⟩, ⟨rfl, rfl⟩⟩, by decide, by decide, by decide, saneXrgb.bits, saneXrgb.inside, saneXrgb.apart⟩
  obtain ⟨src, h1, -, one, h3, -⟩ := c64_cpixel_partial (f := ⟨.four .w8 .argb false, false⟩) (by decide) hs (.inr (.inl (by decide)))
  have : src = demoXrgb := by
    have h : pixfmt ⟨.four .w8 .argb false, false⟩ = some demoXrgb := by decide
    rw [h] at h1; cases h1; rfl
  subst this
  exact ⟨_, h3 pxs⟩

example := c43_tile_partial (m := fun _ => none) conv_deep deepTile_ok (px := colours 12) (by decide)

theorem colours_13 : Colours (colours 13) 13 := ⟨colours 13, by decide, by decide, fun _ => Iff.rfl⟩

/-- C43 is violated: a tile of 13 colours overflows the palette on the stack of a client with depth 32 -/
theorem c43_tile_violated :
    Colours (colours 13) 13 ∧
    zrleTile (fun _ => none) demoDeep demoXrgb (colours 13) deepTile = .ub "cpalette overflow" :=
  ⟨colours_13, by decide +kernel⟩

end Verif.Enc
