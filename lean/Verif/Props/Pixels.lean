import Verif.Spec.Pixels
import Verif.Lemmas.Messages

/-!
# Pixel conversion (C47, C48, C49)
-/

namespace Verif.Pixels
open Verif.Server

theorem popcount_max : ∀ k, k ≤ 32 → popcount (2 ^ k - 1) = k := by
  intro k hk
  unfold popcount
  simp only [Nat.testBit_two_pow_sub_one]
  have : ∀ k : Fin 33, (List.range 32).countP (fun i => decide (i < k.val)) = k.val := by decide
  exact this ⟨k, by omega⟩

theorem popcount_le (n : Nat) : popcount n ≤ 32 := by
  unfold popcount
  exact Nat.le_trans List.countP_le_length (by simp)

theorem popcount_lt {n : Nat} (h : n < 65536) : popcount n < 32 := by
  unfold popcount
  have h1 : (List.range 32).countP (fun i => n.testBit i) =
      (List.range 16).countP (fun i => n.testBit i) + (List.range' 16 16).countP (fun i => n.testBit i) := by
    rw [← List.countP_append]; rfl
  have h2 : (List.range' 16 16).countP (fun i => n.testBit i) = 0 := by
    rw [List.countP_eq_zero]
    intro i hi
    have : 16 ≤ i := by simp at hi; omega
    rw [Nat.testBit_lt_two_pow (Nat.lt_of_lt_of_le h (Nat.pow_le_pow_right (n := 2) (i := 16) (by omega) this))]
    simp
  have h3 := List.countP_le_length (p := fun i => n.testBit i) (l := List.range 16)
  rw [h1, h2]
  simp at h3
  omega

theorem rescale_lt {v s d : Nat} (h : v < 2 ^ s) : rescale v s d < 2 ^ d := by
  unfold rescale
  rw [Nat.div_lt_iff_lt_mul (Nat.two_pow_pos s), Nat.mul_comm (2 ^ d)]
  exact Nat.mul_lt_mul_of_pos_right h (Nat.two_pow_pos d)

/-- one component -/
theorem chan_eq {px ss sb db ds : Nat} (h1 : ss < 32) (h2 : ds < 32) (h3 : sb + db < 32) (h4 : ds + db ≤ 32) :
    chan px ss (2 ^ sb - 1) (2 ^ db - 1) ds =
      .ok (rescale (px / 2 ^ ss % 2 ^ sb) sb db * 2 ^ ds) := by
  have hv : px / 2 ^ ss % 2 ^ sb < 2 ^ sb := Nat.mod_lt _ (Nat.two_pow_pos sb)
  have hr := rescale_lt (d := db) hv
  unfold chan shr shl
  rw [popcount_max _ (by omega), popcount_max _ (by omega), if_pos h1, Outcome.bind_ok, if_pos (by omega),
    Outcome.bind_ok, if_pos (by omega), Outcome.bind_ok, if_pos h2]
  simp only [Nat.shiftRight_eq_div_pow, Nat.and_two_pow_sub_one_eq_mod, Nat.shiftLeft_eq]
  have e1 : px / 2 ^ ss % 2 ^ sb * 2 ^ db % 4294967296 = px / 2 ^ ss % 2 ^ sb * 2 ^ db := by
    apply Nat.mod_eq_of_lt
    have : px / 2 ^ ss % 2 ^ sb * 2 ^ db < 2 ^ sb * 2 ^ db :=
      Nat.mul_lt_mul_of_pos_right hv (Nat.two_pow_pos db)
    rw [← Nat.pow_add] at this
    exact Nat.lt_of_lt_of_le this (Nat.pow_le_pow_right (n := 2) (j := 32) (by omega) (by omega))
  rw [e1]
  congr 1
  apply Nat.mod_eq_of_lt
  show rescale _ sb db * 2 ^ ds < _
  have : rescale (px / 2 ^ ss % 2 ^ sb) sb db * 2 ^ ds < 2 ^ db * 2 ^ ds :=
    Nat.mul_lt_mul_of_pos_right hr (Nat.two_pow_pos ds)
  rw [← Nat.pow_add] at this
  exact Nat.lt_of_lt_of_le this (Nat.pow_le_pow_right (n := 2) (j := 32) (by omega) (by omega))

theorem testBit_place {x s i b : Nat} (hx : x < 2 ^ b) (h : (x * 2 ^ s).testBit i = true) : s ≤ i ∧ i < s + b := by
  rw [Nat.testBit_mul_two_pow] at h
  simp only [Bool.and_eq_true, decide_eq_true_eq] at h
  refine ⟨h.1, ?_⟩
  rcases Nat.lt_or_ge i (s + b) with g | g
  · exact g
  · rw [Nat.testBit_lt_two_pow (Nat.lt_of_lt_of_le hx (Nat.pow_le_pow_right (by omega) (by omega)))] at h
    cases h.2

/-- components that are put together can be taken apart -/
theorem holds_or {l : Layout} {x : Ch → Nat} (hx : ∀ c, x c < 2 ^ (l c).bits)
    (ha : ∀ c d, c ≠ d → (l c).apart (l d)) :
    Holds (x .r * 2 ^ (l .r).shift ||| x .g * 2 ^ (l .g).shift ||| x .b * 2 ^ (l .b).shift) l x := by
  have hor : ∀ i, (x .r * 2 ^ (l .r).shift ||| x .g * 2 ^ (l .g).shift ||| x .b * 2 ^ (l .b).shift).testBit i =
      true ↔ ∃ c, (x c * 2 ^ (l c).shift).testBit i = true := by
    intro i
    rw [Nat.testBit_or, Nat.testBit_or, Bool.or_eq_true, Bool.or_eq_true]
    constructor
    · rintro ((h | h) | h)
      · exact ⟨.r, h⟩
      · exact ⟨.g, h⟩
      · exact ⟨.b, h⟩
    · rintro ⟨c, h⟩
      cases c
      · exact .inl (.inl h)
      · exact .inl (.inr h)
      · exact .inr h
  refine ⟨fun c => ?_, fun i h => ?_⟩
  · unfold Field.get
    apply Nat.eq_of_testBit_eq
    intro i
    rw [Bool.eq_iff_iff, Nat.testBit_mod_two_pow, Nat.testBit_div_two_pow, Bool.and_eq_true, decide_eq_true_eq, hor]
    constructor
    · rintro ⟨h1, d, h2⟩
      by_cases hd : d = c
      · subst hd
        rw [Nat.testBit_mul_two_pow] at h2
        simpa using h2
      · have h3 := testBit_place (hx d) h2
        rcases ha d c hd with h | h <;> omega
    · intro h
      have h1 : i < (l c).bits := by
        rcases Nat.lt_or_ge i (l c).bits with g | g
        · exact g
        · rw [Nat.testBit_lt_two_pow (Nat.lt_of_lt_of_le (hx c) (Nat.pow_le_pow_right (by omega) g))] at h
          cases h
      refine ⟨h1, c, ?_⟩
      rw [Nat.testBit_mul_two_pow]
      simpa using h
  · obtain ⟨c, h⟩ := (hor i).1 h
    exact ⟨c, testBit_place (hx c) h⟩

/-! ## Bytes -/

theorem le_length (n v : Nat) : (le n v).length = n := by
  induction n generalizing v with
  | zero => rfl
  | succ n ih => simp [le, ih]

theorem leNat_le (n v : Nat) (h : v < 256 ^ n) : leNat (le n v) = v := by
  induction n generalizing v with
  | zero => simp at h; simp [le, leNat, h]
  | succ n ih =>
    simp only [le, leNat]
    have h1 : v >>> 8 = v / 256 := by rw [Nat.shiftRight_eq_div_pow]
    rw [ih _ (by rw [h1, Nat.div_lt_iff_lt_mul (by omega)]; rwa [Nat.pow_succ] at h), h1, toNat_ofNat8]
    omega

theorem beNat_append (a b : Bytes) : beNat (a ++ b) = b.foldl (fun acc b => acc * 256 + b.toNat) (beNat a) := by
  unfold beNat; rw [List.foldl_append]

theorem beNat_reverse (b : Bytes) : beNat b.reverse = leNat b := by
  induction b with
  | nil => rfl
  | cons x b ih =>
    rw [List.reverse_cons, beNat_append, ih]
    simp only [List.foldl, leNat]
    omega

theorem clientPixel_put {p : PixFmt} {n v : Nat} (h : v < 256 ^ n) : clientPixel p (put p n v) = v := by
  unfold clientPixel put
  split
  · rw [beNat_reverse, leNat_le n v h]
  · exact leNat_le n v h

theorem put_length (p : PixFmt) (n v : Nat) : (put p n v).length = n := by
  unfold put; split <;> simp [le_length]

/-! ## The table of formats -/

theorem plain_table {f : Fourcc} (h : Plain f) :
    ∃ src, pixfmt f = some src ∧ Says src (drm f.code) ∧ src.trueColour = 1 ∧ src.depth ≤ 32 ∧
      (∀ c, (drm f.code c).bits ≤ 10 ∧ (drm f.code c).shift + (drm f.code c).bits ≤ 32 ∧
        (drm f.code c).shift < 32) ∧ src.bpp = 8 * pixelSize f := by
  rcases f with ⟨c, big⟩
  obtain ⟨rfl, h⟩ := h
  rcases c with ⟨w, o, a⟩ | _ | _ | _
  · cases w <;> cases a
    iterate 4
      · cases o <;> exact ⟨_, rfl, ⟨⟨rfl, rfl⟩, ⟨rfl, rfl⟩, ⟨rfl, rfl⟩⟩, rfl, by decide,
          fun c => by cases c <;> decide, rfl⟩
    iterate 2
      · exact h.elim
  · exact ⟨_, rfl, ⟨⟨rfl, rfl⟩, ⟨rfl, rfl⟩, ⟨rfl, rfl⟩⟩, rfl, by decide, fun c => by cases c <;> decide, rfl⟩
  · exact ⟨_, rfl, ⟨⟨rfl, rfl⟩, ⟨rfl, rfl⟩, ⟨rfl, rfl⟩⟩, rfl, by decide, fun c => by cases c <;> decide, rfl⟩
  · exact h.elim

/-- **C47**, sizes: a pixel in memory has the bytes that the components in the format's name fill, for all formats of
the tables, whatever their byte order -/
theorem c47_size {f : Fourcc} (h : f.code ≠ .other) : 8 * pixelSize f = ((letters f.code).map (·.2)).sum := by
  rcases f with ⟨c, big⟩
  rcases c with ⟨w, o, a⟩ | _ | _ | _
  · cases w <;> cases o <;> rfl
  · rfl
  · rfl
  · exact absurd rfl h

example : pixelSize ⟨.four .w4 .argb true, true⟩ = 2 := rfl

/-! ## Conversion -/

/-- one pixel -/
theorem convert_holds {dst src : PixFmt} {l m : Layout} (hd : Says dst l) (hs : Says src m) (px : Nat)
    (h1 : ∀ c, (m c).bits ≤ 10 ∧ (m c).shift < 32)
    (h2 : ∀ c, (l c).bits ≤ 16 ∧ (l c).shift < 32 ∧ (l c).shift + (l c).bits ≤ 32)
    (ha : ∀ c d, c ≠ d → (l c).apart (l d)) :
    ∃ v, convert dst src px = .ok v ∧ Holds v l fun c => rescale ((m c).get px) (m c).bits (l c).bits := by
  have hc : ∀ c, chan px (m c).shift (2 ^ (m c).bits - 1) (2 ^ (l c).bits - 1) (l c).shift =
      .ok (rescale ((m c).get px) (m c).bits (l c).bits * 2 ^ (l c).shift) := by
    intro c
    have g1 := h1 c
    have g2 := h2 c
    exact chan_eq g1.2 g2.2.1 (by omega) g2.2.2
  refine ⟨_, ?_, holds_or (l := l) (x := fun c => rescale ((m c).get px) (m c).bits (l c).bits) (fun c => ?_) ha⟩
  · unfold convert
    rw [hd.r.1, hd.r.2, hd.g.1, hd.g.2, hd.b.1, hd.b.2, hs.r.1, hs.r.2, hs.g.1, hs.g.2, hs.b.1, hs.b.2,
      hc, hc, hc]
    rfl
  · exact rescale_lt (Nat.mod_lt _ (Nat.two_pow_pos _))

theorem holds_lt {v n : Nat} {l : Layout} {x : Ch → Nat} (h : Holds v l x)
    (hl : ∀ c, (l c).shift + (l c).bits ≤ n) : v < 2 ^ n := by
  apply Nat.lt_pow_two_of_testBit
  intro i hi
  cases hb : v.testBit i with
  | false => rfl
  | true =>
    obtain ⟨c, h1, h2⟩ := h.2 i hb
    have := hl c
    omega

theorem convertAll_eq {dst src : PixFmt} {bpc : Nat} {one : Bytes → Nat}
    (h : ∀ px, convert dst src (leNat px) = .ok (one px)) (pxs : List Bytes) :
    convertAll dst src bpc pxs = .ok (pxs.flatMap fun px => put dst bpc (one px)) := by
  induction pxs with
  | nil => rfl
  | cons px pxs ih => rw [convertAll, h, Outcome.bind_ok, ih]; rfl

/-- **C47** (part): pixels of a supported DRM format are converted to a client's format one by one;
read with the client's byte order each has, in each channel, the source's intensity rescaled by
dropping the least significant bits or adding zeros, and no bits besides.

What is missing: the 16 bit formats, for which the table has wrong maxima, and the formats marked as
big endian, see `c47_pixels_violated`. -/
theorem c47_pixels_partial {f : Fourcc} (hf : Plain f) {dst : PixFmt} {l : Layout} (hd : Sane dst l) :
    ∃ src, pixfmt f = some src ∧ ∃ one : Bytes → Bytes,
      (∀ pxs, toCpixel dst src (dst.bpp / 8) pxs = .ok (pxs.flatMap one)) ∧
      ∀ px, (one px).length = dst.bpp / 8 ∧
        Holds (clientPixel dst (one px)) l fun c =>
          rescale ((drm f.code c).get (drmPixel f px)) (drm f.code c).bits (l c).bits := by
  obtain ⟨src, h1, h2, h3, h4, h5, -⟩ := plain_table hf
  have hb := hd.bpp
  have hi := hd.inside
  have hconv : ∀ px : Bytes, ∃ v, convert dst src (leNat px) = .ok v ∧
      Holds v l fun c => rescale ((drm f.code c).get (drmPixel f px)) (drm f.code c).bits (l c).bits := by
    intro px
    have hp : drmPixel f px = leNat px := by unfold drmPixel; rw [hf.1]; rfl
    rw [hp]
    refine convert_holds hd.says h2 (leNat px) (fun c => ⟨(h5 c).1, (h5 c).2.2⟩) (fun c => ?_) hd.apart
    have := hi c
    exact ⟨hd.bits c, by omega, by omega⟩
  refine ⟨src, h1, fun px => put dst (dst.bpp / 8) (hconv px).choose, fun pxs => ?_, fun px => ⟨put_length _ _ _, ?_⟩⟩
  · have hc : compact dst (dst.bpp / 8) = dst := by
      unfold compact
      rw [if_neg (by omega)]
    unfold toCpixel
    rw [h3, if_neg (by decide), if_neg (by omega), if_neg hd.colour, if_neg (by omega), if_neg (by have := hd.depth; omega),
      if_neg (by omega), hc]
    exact convertAll_eq (fun px => (hconv px).choose_spec.1) pxs
  · have hh := (hconv px).choose_spec.2
    rw [clientPixel_put]
    · exact hh
    · have := holds_lt hh (fun c => (hi c).2)
      have e : 256 ^ (dst.bpp / 8) = 2 ^ dst.bpp := by
        rcases hb with h | h | h <;> rw [h]
      rw [e]; exact this

/-- where the formats agree, colours are as they were -/
theorem c47_identity {f : Fourcc} (hf : Plain f) {dst : PixFmt} (hd : Sane dst (drm f.code)) :
    ∃ src, pixfmt f = some src ∧ ∃ one : Bytes → Bytes,
      (∀ pxs, toCpixel dst src (dst.bpp / 8) pxs = .ok (pxs.flatMap one)) ∧
      ∀ px c, (drm f.code c).get (clientPixel dst (one px)) = (drm f.code c).get (drmPixel f px) := by
  obtain ⟨src, h1, one, h2, h3⟩ := c47_pixels_partial hf hd
  refine ⟨src, h1, one, h2, fun px c => ?_⟩
  rw [(h3 px).2.1 c]
  unfold rescale
  exact Nat.mul_div_cancel _ (Nat.two_pow_pos _)

/-- a client with 16 bit pixels, big endian -/
def demo565 : PixFmt :=
  { bpp := 16, depth := 16, bigEndian := 1, trueColour := 1, rmax := 31, gmax := 63, bmax := 31,
    rshift := 11, gshift := 5, bshift := 0 }

def lay565 : Layout
  | .r => ⟨11, 5⟩
  | .g => ⟨5, 6⟩
  | .b => ⟨0, 5⟩

theorem sane565 : Sane demo565 lay565 := by
  refine ⟨⟨⟨rfl, rfl⟩, ⟨rfl, rfl⟩, ⟨rfl, rfl⟩⟩, by decide, by decide, by decide, ?_, ?_, ?_⟩
  · intro c; cases c <;> decide
  · intro c; cases c <;> decide
  · intro c d h
    unfold Field.apart
    cases c <;> cases d <;> first | exact absurd rfl h | decide

example : Plain ⟨.four .w8 .argb false, false⟩ := by decide

example : (do
    let src ← (pixfmt ⟨.four .w8 .argb false, false⟩).elim (Outcome.abort "format") Outcome.ok
    toCpixel demo565 src 2 [[0x11, 0x82, 0xf3, 0], [0xff, 0, 0, 0]]) =
    .ok [0xf4, 0x02, 0, 0x1f] := by decide +kernel

/-- the client's own format -/
def demoXrgb : PixFmt :=
  { bpp := 32, depth := 24, bigEndian := 0, trueColour := 1, rmax := 255, gmax := 255, bmax := 255,
    rshift := 16, gshift := 8, bshift := 0 }

theorem saneXrgb : Sane demoXrgb (drm (.four .w8 .argb false)) := by
  refine ⟨⟨⟨rfl, rfl⟩, ⟨rfl, rfl⟩, ⟨rfl, rfl⟩⟩, by decide, by decide, by decide, ?_, ?_, ?_⟩
  · intro c; cases c <;> decide
  · intro c; cases c <;> decide
  · intro c d h
    unfold Field.apart
    cases c <;> cases d <;> first | exact absurd rfl h | decide

/-- a supported format with the pixel, and the pixel that the client gets; `demoXrgb` has 8 bits for
each channel -/
def sentRed (f : Fourcc) (px : Bytes) : Outcome Nat := do
  let src ← (pixfmt f).elim (.abort "format") .ok
  let b ← toCpixel demoXrgb src 4 [px]
  .ok ((drm (.four .w8 .argb false) .r).get (clientPixel demoXrgb b))

/-- **C47 does not hold**: full red of XRGB4444 becomes about an eighth of it, because its maxima are
given as 127 rather than 15 (pixels.c 382-385), and what is marked as big endian is read as little
endian -/
theorem c47_pixels_violated :
    (sentRed ⟨.four .w4 .argb false, false⟩ [0x00, 0x0f] = .ok 30 ∧
      (drm (.four .w4 .argb false) .r).get (drmPixel ⟨.four .w4 .argb false, false⟩ [0x00, 0x0f]) = 15 ∧
      rescale 15 4 8 = 240) ∧
    (sentRed ⟨.four .w8 .argb false, true⟩ [0x00, 0xff, 0x00, 0x00] = .ok 0 ∧
      (drm (.four .w8 .argb false) .r).get
        (drmPixel ⟨.four .w8 .argb false, true⟩ [0x00, 0xff, 0x00, 0x00]) = 255) := by
  decide +kernel

/-! ## Formats that clients ask for -/

theorem chan_ok {px ss smax dmax ds : Nat} (h1 : ss < 32) (h2 : smax < 65536) (h3 : dmax < 65536) (h4 : ds < 32) :
    ∃ v, chan px ss smax dmax ds = .ok v := by
  unfold chan shr shl
  have := popcount_lt h2
  have := popcount_lt h3
  rw [if_pos h1, Outcome.bind_ok, if_pos (by omega), Outcome.bind_ok, if_pos (by omega), Outcome.bind_ok, if_pos h4]
  exact ⟨_, rfl⟩

theorem chan_ok_shift {px ss smax dmax ds v : Nat} (h : chan px ss smax dmax ds = .ok v) : ds < 32 := by
  unfold chan at h
  obtain ⟨_, -, h⟩ := Outcome.bind_eq_ok.1 h
  obtain ⟨_, -, h⟩ := Outcome.bind_eq_ok.1 h
  obtain ⟨_, -, h⟩ := Outcome.bind_eq_ok.1 h
  unfold shl at h
  rcases ite_cases h with ⟨h, -⟩ | ⟨-, h⟩
  · exact h
  · cases h

theorem convert_ok_iff {dst src : PixFmt} (px : Nat) (hs : src.rshift < 32 ∧ src.gshift < 32 ∧ src.bshift < 32)
    (hm : src.rmax < 65536 ∧ src.gmax < 65536 ∧ src.bmax < 65536)
    (hd : dst.rmax < 65536 ∧ dst.gmax < 65536 ∧ dst.bmax < 65536) :
    (∃ v, convert dst src px = .ok v) ↔ dst.rshift < 32 ∧ dst.gshift < 32 ∧ dst.bshift < 32 := by
  unfold convert
  constructor
  · rintro ⟨v, h⟩
    obtain ⟨_, h1, h⟩ := Outcome.bind_eq_ok.1 h
    obtain ⟨_, h2, h⟩ := Outcome.bind_eq_ok.1 h
    obtain ⟨_, h3, -⟩ := Outcome.bind_eq_ok.1 h
    exact ⟨chan_ok_shift h1, chan_ok_shift h2, chan_ok_shift h3⟩
  · rintro ⟨h1, h2, h3⟩
    obtain ⟨r, hr⟩ := chan_ok (px := px) hs.1 hm.1 hd.1 h1
    obtain ⟨g, hg⟩ := chan_ok (px := px) hs.2.1 hm.2.1 hd.2.1 h2
    obtain ⟨b, hb⟩ := chan_ok (px := px) hs.2.2 hm.2.2 hd.2.2 h3
    rw [hr, hg, hb]
    exact ⟨_, rfl⟩

theorem convertAll_ok {dst src : PixFmt} {bpc : Nat} (h : ∀ px, ∃ v, convert dst src px = .ok v) :
    ∀ pxs, ∃ b, convertAll dst src bpc pxs = .ok b
  | [] => ⟨_, rfl⟩
  | px :: pxs => by
    obtain ⟨v, e⟩ := h (leNat px)
    obtain ⟨b, e2⟩ := convertAll_ok h pxs
    rw [convertAll, e, Outcome.bind_ok, e2]
    exact ⟨_, rfl⟩

theorem table_small {f : Fourcc} {src : PixFmt} (h : pixfmt f = some src) :
    src.trueColour = 1 ∧ src.depth ≤ 32 ∧ (src.rshift < 32 ∧ src.gshift < 32 ∧ src.bshift < 32) ∧
    src.rmax < 65536 ∧ src.gmax < 65536 ∧ src.bmax < 65536 := by
  rcases f with ⟨c, big⟩
  rcases c with ⟨w, o, a⟩ | _ | _ | _
  · cases w <;> cases o <;> cases big <;> cases a <;> cases h <;> decide
  · cases big <;> cases h <;> decide
  · cases big <;> cases h <;> decide
  · cases h

/-- **C48** (part): the pixels of a frame can be converted to raw pixels of the client's format
exactly if that has true colours, from 8 to 32 bits per pixel, a depth of at most 32, and shifts below
32; nothing else about it matters, and the maxima can be anything.

What is missing: the server takes any format (`c48_formats_violated`). -/
theorem c48_formats_partial {f : Fourcc} {src : PixFmt} (hf : pixfmt f = some src) {dst : PixFmt}
    (hm : dst.rmax < 65536 ∧ dst.gmax < 65536 ∧ dst.bmax < 65536) {pxs : List Bytes} (hp : pxs ≠ []) :
    (∃ b, toCpixel dst src (dst.bpp / 8) pxs = .ok b) ↔
      dst.trueColour ≠ 0 ∧ 8 ≤ dst.bpp ∧ dst.bpp ≤ 32 ∧ dst.depth ≤ 32 ∧
      dst.rshift < 32 ∧ dst.gshift < 32 ∧ dst.bshift < 32 := by
  obtain ⟨h1, h2, h3, h4⟩ := table_small hf
  have hc : compact dst (dst.bpp / 8) = dst := by
    unfold compact
    rw [if_neg (by omega)]
  unfold toCpixel
  rw [h1, if_neg (by decide), if_neg (by omega), hc]
  constructor
  · rintro ⟨b, h⟩
    rcases ite_cases h with ⟨-, h⟩ | ⟨g1, h⟩
    · cases h
    rcases ite_cases h with ⟨-, h⟩ | ⟨g2, h⟩
    · cases h
    rcases ite_cases h with ⟨-, h⟩ | ⟨g3, h⟩
    · cases h
    rcases ite_cases h with ⟨-, h⟩ | ⟨g4, h⟩
    · cases h
    refine ⟨g1, by omega, by omega, by omega, ?_⟩
    obtain ⟨px, pxs, rfl⟩ := List.exists_cons_of_ne_nil hp
    rw [convertAll] at h
    obtain ⟨v, e, -⟩ := Outcome.bind_eq_ok.1 h
    exact (convert_ok_iff _ h3 h4 hm).1 ⟨v, e⟩
  · rintro ⟨g1, g2, g3, g4, g5⟩
    rw [if_neg g1, if_neg (by omega), if_neg (by omega), if_neg (by omega)]
    exact convertAll_ok (fun px => (convert_ok_iff px h3 h4 hm).2 g5) pxs

/-- the formats in `c48_formats_partial` are those of messages -/
example : ∃ b, toCpixel demo565 demoXrgb (demo565.bpp / 8) [[1, 2, 3, 4], [5, 6, 7, 8]] = .ok b :=
  (c48_formats_partial (f := ⟨.four .w8 .argb false, false⟩) (by decide) (by decide) (by simp)).2 (by decide)

/-- a format with a red shift of 40, and one without bits -/
def demoShift : PixFmt := { demoXrgb with rshift := 40 }
def demoEmpty : PixFmt := { demoXrgb with bpp := 0 }

/-- **C48 does not hold**: a client in any ready state may set a format with a red shift of 40 or with
zero bits per pixel.  Any pixel that is then converted is shifted by 40 bits, or fails the assertion on
the number of bytes. -/
theorem c48_formats_violated :
    (∀ {env table r s p} (rest : Bytes), s.cl.st = .ready → ∀ f ∈ [demoShift, demoEmpty],
      tryRead env table r s ((Msg.setPixelFormat p f).wire ++ rest) =
        .ok (emit (.pixFmt f) (s.upd fun k => { k with pix := f, formatsChanged := true }), 20)) ∧
    (∀ src px pxs, pixfmt ⟨.four .w8 .argb false, false⟩ = some src →
      toCpixel demoShift src (demoShift.bpp / 8) (px :: pxs) = .ub "shift too far") ∧
    (∀ src pxs, pixfmt ⟨.four .w8 .argb false, false⟩ = some src →
      toCpixel demoEmpty src (demoEmpty.bpp / 8) pxs = .abort "bytes_per_cpixel") := by
  refine ⟨fun rest hr f hf => ?_, fun src px pxs h => ?_, fun src pxs h => ?_⟩
  · refine msg_pixfmt hr ?_ ?_ rest
    · unfold PixFmt.Fits; revert f; decide
    · revert f; decide
  · cases h
    rfl
  · cases h
    rfl

/-! ## Colour maps -/

def part (b : Bytes) (off n : Nat) : Bytes := (b.drop off).take n

/-- the entry of a SetColourMapEntries message for a pixel value: its first colour, the number of
colours, then six bytes for each of them (RFC 6143, 7.6.2) -/
def mapEntry (msg : Bytes) (i : Nat) : Option (Ch → Nat) :=
  let first := beNat (part msg 2 2)
  let n := beNat (part msg 4 2)
  if msg.length = 6 + 6 * n ∧ msg.head? = some 1 ∧ first ≤ i ∧ i < first + n then
    some fun
      | .r => beNat (part msg (6 + 6 * (i - first)) 2)
      | .g => beNat (part msg (8 + 6 * (i - first)) 2)
      | .b => beNat (part msg (10 + 6 * (i - first)) 2)
  else none

/-- `e` is the 16 bit intensity nearest to `v` out of `max` -/
def Nearest (e v max : Nat) : Prop := 2 * (max * e) ≤ 2 * (65535 * v) + max ∧ 2 * (65535 * v) ≤ 2 * (max * e) + max

instance (e v max : Nat) : Decidable (Nearest e v max) := by unfold Nearest; exact inferInstance

def lay332 : Layout
  | .r => ⟨5, 3⟩
  | .g => ⟨2, 3⟩
  | .b => ⟨0, 2⟩

theorem sane332 : Sane cookedFmt lay332 := by
  refine ⟨⟨⟨rfl, rfl⟩, ⟨rfl, rfl⟩, ⟨rfl, rfl⟩⟩, by decide, by decide, by decide, ?_, ?_, ?_⟩
  · intro c; cases c <;> decide
  · intro c; cases c <;> decide
  · intro c d h
    unfold Field.apart
    cases c <;> cases d <;> first | exact absurd rfl h | decide

theorem map_entries : ∀ i, i < 256 → ∃ e, mapEntry rgb332Map i = some e ∧
    ∀ c, Nearest (e c) ((lay332 c).get i) (2 ^ (lay332 c).bits - 1) := by
  have h : ∀ i : Fin 256, (mapEntry rgb332Map i.val).isSome ∧ ∀ e ∈ mapEntry rgb332Map i.val,
      Nearest (e .r) ((lay332 .r).get i) 7 ∧ Nearest (e .g) ((lay332 .g).get i) 7 ∧
        Nearest (e .b) ((lay332 .b).get i) 3 := by decide +kernel
  intro i hi
  obtain ⟨h1, h2⟩ := h ⟨i, hi⟩
  obtain ⟨e, he⟩ := Option.isSome_iff_exists.1 h1
  obtain ⟨g1, g2, g3⟩ := h2 e he
  refine ⟨e, he, fun c => ?_⟩
  cases c
  · exact g1
  · exact g2
  · exact g3

/-- the model of `double` arithmetic: what `Dbl.near` gives is nearest to the quotient -/
theorem near_nearest {n d : Nat} (hd : 0 < d) :
    2 * ((Dbl.near n d).m * d) ≤ 2 * (n * 2 ^ (Dbl.near n d).k) + d ∧
      2 * (n * 2 ^ (Dbl.near n d).k) ≤ 2 * ((Dbl.near n d).m * d) + d := by
  have key : ∀ a, 2 * (nearestEven a d * d) ≤ 2 * a + d ∧ 2 * a ≤ 2 * (nearestEven a d * d) + d := by
    intro a
    have h1 := Nat.div_add_mod a d
    have h2 := Nat.mod_lt a hd
    unfold nearestEven
    split
    · rw [Nat.mul_comm (a / d) d]; omega
    · split
      · rw [Nat.add_mul, Nat.one_mul, Nat.mul_comm (a / d) d]; omega
      · rcases Nat.mod_two_eq_zero_or_one (a / d) with h | h <;> rw [h, Nat.add_mul, Nat.mul_comm (a / d) d] <;> omega
  unfold Dbl.near
  split
  · rename_i h; subst h; simp
  · exact key _

/-- and the values it is used with here have 53 bits -/
example : ∀ i : Fin 8, ((Dbl.near 65535 7).times i).m < 2 ^ 53 ∧ (i.val ≠ 0 → 2 ^ 52 ≤ ((Dbl.near 65535 7).times i).m) ∧
    (Dbl.near 65535 7) = ⟨5146892466164297, 39⟩ := by decide +kernel

/-- **C49** (part): a client that asks for a colour map is sent one that describes all of its pixel values;
from then on each pixel it is sent, of one byte, has in the map the colour of the source's pixel: the
channel's three (or two) most significant bits as a 16 bit intensity, rounded to the nearest.

What is missing: the source formats that are converted wrongly, see `c47_pixels_violated`. -/
theorem c49_colour_map_partial {f : Fourcc} (hf : Plain f) :
    (∀ {env table r s p} {fmt : PixFmt} (rest : Bytes), s.cl.st = .ready → s.cl.closed = false →
      fmt.trueColour = 0 → ∃ s', tryRead env table r s ((Msg.setPixelFormat p fmt).wire ++ rest) = .ok (s', 20) ∧
        s'.log = s.log ++ [.pixFmt cookedFmt, .send s.cl.chan .colourMap rgb332Map] ∧ s'.cl.pix = cookedFmt) ∧
    ∃ src, pixfmt f = some src ∧ ∃ one : Bytes → UInt8,
      (∀ pxs, toCpixel cookedFmt src (cookedFmt.bpp / 8) pxs = .ok (pxs.map one)) ∧
      ∀ px, ∃ e, mapEntry rgb332Map (one px).toNat = some e ∧
        (∀ c, Nearest (e c) (rescale ((drm f.code c).get (drmPixel f px)) (drm f.code c).bits (lay332 c).bits)
          (2 ^ (lay332 c).bits - 1)) := by
  refine ⟨fun rest hr hc ht => ⟨_, msg_pixmap hr ht rest, ?_, ?_⟩, ?_⟩
  · simp [hc]
  · simp
  · obtain ⟨src, h1, one, h2, h3⟩ := c47_pixels_partial hf sane332
    have h4 : ∀ px, ∃ b, one px = [b] := by
      intro px
      have := (h3 px).1
      match one px, this with
      | [b], _ => exact ⟨b, rfl⟩
    refine ⟨src, h1, fun px => (h4 px).choose, fun pxs => ?_, fun px => ?_⟩
    · rw [h2]
      congr 1
      induction pxs with
      | nil => rfl
      | cons px pxs ih => rw [List.flatMap_cons, ih, (h4 px).choose_spec]; rfl
    · obtain ⟨e, h5, h6⟩ := map_entries (h4 px).choose.toNat (UInt8.toNat_lt _)
      refine ⟨e, h5, fun c => ?_⟩
      have h7 := (h3 px).2.1 c
      rw [(h4 px).choose_spec] at h7
      have h8 : clientPixel cookedFmt [(h4 px).choose] = (h4 px).choose.toNat := by
        unfold clientPixel
        rw [if_neg (by decide)]
        simp [leNat]
      rw [h8] at h7
      show Nearest _ ((fun c => rescale ((drm f.code c).get (drmPixel f px)) (drm f.code c).bits (lay332 c).bits) c) _
      rw [← h7]
      exact h6 c

/-- an orange pixel -/
example : (toCpixel cookedFmt demoXrgb 1 [[0x10, 0x80, 0xf0, 0]]) = .ok [0xf0] ∧
    (mapEntry rgb332Map 0xf0).map (fun e => (e .r, e .g, e .b)) = some (65535, 37449, 0) := by
  decide +kernel

end Verif.Pixels
