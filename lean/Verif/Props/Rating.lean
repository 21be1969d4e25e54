import Verif.Model.Rating
import Verif.Props.Pixels

/-!
# C58 and C68: the rating of pixel formats
-/

namespace Verif.Rating
open Verif.Server (PixFmt)
open Verif.Pixels

/-! ## What is meant -/

/-- how many bits of colour a format has -/
def bits : Code → Nat
  | .four .w10 _ _ => 3 * 10
  | .four .w8 _ _ => 3 * 8
  | .four .w4 _ _ => 3 * 4
  | .rgb888 => 3 * 8
  | .bgr888 => 3 * 8
  | .other => 0

/-- a client's pixels have `d` bits of colour -/
def Wide (p : PixFmt) (d : Nat) : Prop :=
  ∃ r g b, r ≤ 16 ∧ g ≤ 16 ∧ b ≤ 16 ∧ p.rmax = 2 ^ r - 1 ∧ p.gmax = 2 ^ g - 1 ∧ p.bmax = 2 ^ b - 1 ∧ d = r + g + b

/-- the deepest client has `d` bits of colour; without clients that is taken to be 24 -/
def Deepest (clients : List PixFmt) (d : Nat) : Prop :=
  (clients = [] ∧ d = 24) ∨
    (0 < d ∧ (∃ p ∈ clients, Wide p d) ∧ ∀ p ∈ clients, ∃ d', d' ≤ d ∧ Wide p d')

/-- a modifier that encoders can read: linear, Intel's X, Y and Yf tiling, and AMD's without compression -/
inductive Allowed : Nat → Prop where
  | linear : Allowed 0
  | intel {k} (h : k = 1 ∨ k = 2 ∨ k = 3) : Allowed (1 * 2 ^ 56 + k)
  | amd {k} (h : k < 2 ^ 56) (h1 : k / 2 ^ 13 % 2 = 0) (h2 : k / 2 ^ 14 % 2 = 0) : Allowed (2 * 2 ^ 56 + k)

/-- a format has alpha; those of the other byte order do not count -/
def HasAlpha (f : Fourcc) : Prop := (∃ w o, f.code = .four w o true) ∧ f.big = false

/-! ## Proofs -/

theorem hasAlpha_iff (f : Fourcc) : hasAlpha f = true ↔ HasAlpha f := by
  obtain ⟨c, big⟩ := f
  unfold hasAlpha HasAlpha
  cases c with
  | four w o a => cases a <;> simp
  | _ => simp

theorem formatDepth_eq (f : Fourcc) : formatDepth f = bits f.code := by
  obtain ⟨c, big⟩ := f
  unfold formatDepth pixfmt bits
  cases c with
  | four w o a => cases w <;> rfl
  | _ => rfl

theorem bits_le (c : Code) : bits c ≤ 30 ∧ (bits c = 0 ↔ c = .other) ∧ (bits c ≠ 0 → 12 ≤ bits c) := by
  unfold bits
  cases c with
  | four w o a => cases w <;> simp
  | _ => simp

theorem clientDepth_eq {p : PixFmt} {d : Nat} (h : Wide p d) : clientDepth p = d := by
  obtain ⟨r, g, b, h1, h2, h3, h4, h5, h6, rfl⟩ := h
  unfold clientDepth
  rw [h4, h5, h6, popcount_max _ (by omega), popcount_max _ (by omega), popcount_max _ (by omega)]

theorem deepest_eq : ∀ (clients : List PixFmt) (b : Nat), b ≤ deepest clients b ∧
    (∀ p ∈ clients, clientDepth p ≤ deepest clients b) ∧
    (deepest clients b = b ∨ ∃ p ∈ clients, clientDepth p = deepest clients b)
  | [], b => ⟨Nat.le_refl _, nofun, .inl rfl⟩
  | p :: ps, b => by
    rw [deepest]
    obtain ⟨h1, h2, h3⟩ := deepest_eq ps (if b < clientDepth p then clientDepth p else b)
    generalize deepest ps (if b < clientDepth p then clientDepth p else b) = m at *
    refine ⟨by split at h1 <;> omega, ?_, ?_⟩
    · intro q hq
      rcases List.mem_cons.mp hq with rfl | hq
      · split at h1 <;> omega
      · exact h2 q hq
    · rcases h3 with h3 | ⟨q, hq, h3⟩
      · split at h3
        · exact .inr ⟨p, List.mem_cons_self, h3.symm⟩
        · exact .inl h3
      · exact .inr ⟨q, List.mem_cons_of_mem _ hq, h3⟩

theorem highestDepth_eq {clients : List PixFmt} {d : Nat} (h : Deepest clients d) : highestDepth clients = d := by
  rcases h with ⟨rfl, rfl⟩ | ⟨h0, ⟨p, hp, hw⟩, ha⟩
  · rfl
  · obtain ⟨-, h2, h3⟩ := deepest_eq clients 0
    have h4 := h2 p hp
    rw [clientDepth_eq hw] at h4
    have h5 : deepest clients 0 ≤ d := by
      rcases h3 with h3 | ⟨q, hq, h3⟩
      · omega
      · obtain ⟨d', hd, hw'⟩ := ha q hq
        rw [← h3, clientDepth_eq hw']
        exact hd
    unfold highestDepth
    rw [if_pos (by omega)]
    omega

theorem highestDepth_pos (clients : List PixFmt) : 0 < highestDepth clients := by
  unfold highestDepth
  split <;> omega

theorem allowed_iff {m : Nat} (hm : m < 2 ^ 64) : modifierAllowed m = true ↔ Allowed m := by
  unfold modifierAllowed
  split
  · rename_i h
    have hk : m = 2 * 2 ^ 56 + (m - 2 * 2 ^ 56) := by omega
    have ha : amdAllowed m = true ↔ (m - 2 * 2 ^ 56) / 2 ^ 13 % 2 = 0 ∧ (m - 2 * 2 ^ 56) / 2 ^ 14 % 2 = 0 := by
      unfold amdAllowed
      rw [Nat.testBit_eq_decide_div_mod_eq, Nat.testBit_eq_decide_div_mod_eq]
      simp only [Bool.and_eq_true, Bool.not_eq_true', decide_eq_false_iff_not]
      omega
    rw [ha]
    constructor
    · intro ⟨h1, h2⟩
      rw [hk]
      exact .amd (by omega) h1 h2
    · intro hA
      generalize hm' : m = m' at hA
      cases hA with
      | linear => omega
      | intel h => omega
      | amd h0 h1 h2 =>
        subst hm'
        rw [Nat.add_sub_cancel_left]
        exact ⟨h1, h2⟩
  · rename_i h
    rw [List.contains_iff_mem]
    constructor
    · intro hc
      simp only [allowList, List.mem_cons, List.not_mem_nil, or_false] at hc
      rcases hc with rfl | rfl | rfl | rfl
      · exact .linear
      · exact .intel (k := 1) (.inl rfl)
      · exact .intel (k := 2) (.inr (.inl rfl))
      · exact .intel (k := 3) (.inr (.inr rfl))
    · intro hA
      cases hA with
      | linear => simp [allowList]
      | intel h' => rcases h' with rfl | rfl | rfl <;> simp [allowList]
      | amd h0 h1 h2 => omega

theorem rateDepth_eq (f : Fourcc) {t : Nat} (ht : 0 < t) :
    (f.code = .other → rateDepth f t = 0) ∧ (f.code ≠ .other → 0 < rateDepth f t) ∧ 0 ≤ rateDepth f t ∧
      rateDepth f t ≤ 30 ∧ (bits f.code = t → rateDepth f t = 30) ∧
      (bits f.code ≠ t → t ≤ 30 → rateDepth f t ≤ 29) := by
  obtain ⟨h1, h2, h3⟩ := bits_le f.code
  unfold rateDepth
  rw [formatDepth_eq]
  simp only
  refine ⟨fun h => by rw [if_pos (h2.mpr h)], fun h => ?_, ?_, ?_, ?_, ?_⟩
  · rw [if_neg (fun h' => h (h2.mp h'))]
    have := h3 fun h' => h (h2.mp h')
    split <;> omega
  all_goals
    split
    · omega
    · split <;> omega

theorem weigh_eq (d : Int) (l a p : Bool) : (weigh d l a p).den = (if p then 3330 else 3030) ∧
    (weigh d l a p).num = 100 * d + (if p ∧ l then 300 else 0) + (if a then 30 else 0) := by
  unfold weigh
  cases l <;> cases a <;> cases p <;> simp <;> omega

/-- every way out of rate_pixel_format -/
theorem rate_cases (f : Fourcc) (m : Nat) (na pl : Bool) (t : Nat) :
    (rate f m na pl t = zero ∧ (rateDepth f t = 0 ∨ modifierAllowed m = false ∨ na = true ∧ hasAlpha f = false)) ∨
    (rateDepth f t ≠ 0 ∧ modifierAllowed m = true ∧ (na = true → hasAlpha f = true) ∧
      rate f m na pl t = weigh (rateDepth f t) (m == 0) (hasAlpha f == na) pl) := by
  unfold rate
  split
  · exact .inl ⟨rfl, .inl (by assumption)⟩
  · rename_i h1
    split
    · exact .inl ⟨rfl, .inr (.inl (by assumption))⟩
    · rename_i h2
      rw [Bool.not_eq_false] at h2
      split
      · rename_i h3
        split
        · exact .inl ⟨rfl, .inr (.inr ⟨h3, by assumption⟩)⟩
        · rename_i h4
          rw [Bool.not_eq_false] at h4
          exact .inr ⟨h1, h2, fun _ => h4, by rw [h3, h4]; rfl⟩
      · rename_i h3
        rw [Bool.not_eq_true] at h3
        refine .inr ⟨h1, h2, fun h => absurd h (by rw [h3]; decide), ?_⟩
        rw [h3]
        cases hasAlpha f <;> rfl

/-- **C58**: a rating is between 0 and 1, for frames and for cursors, with any clients; and the rating is above 0
just for the formats that are known, with a modifier that is allowed, which has to be linear for simple buffers,
and for cursors with alpha. -/
theorem c58_range (clients : List PixFmt) (simple : Bool) (f : Fourcc) {m : Nat} (hm : m < 2 ^ 64) :
    zero.le (ratePixelFormat clients simple f m) ∧ (ratePixelFormat clients simple f m).le ⟨1, 1⟩ ∧
    zero.le (rateCursorFormat clients simple f m) ∧ (rateCursorFormat clients simple f m).le ⟨1, 1⟩ ∧
    (zero.lt (ratePixelFormat clients simple f m) ↔ f.code ≠ .other ∧ Allowed m ∧ (simple = true → m = 0)) ∧
    (zero.lt (rateCursorFormat clients simple f m) ↔
      HasAlpha f ∧ Allowed m ∧ (simple = true → m = 0)) := by
  have ht := highestDepth_pos clients
  obtain ⟨a1, a2, a3, a4, -, -⟩ := rateDepth_eq f ht
  have hA := allowed_iff hm
  have hal := hasAlpha_iff f
  have hz : ¬ zero.lt zero := by unfold Frac.lt zero; decide
  have hz0 : zero.le zero ∧ zero.le ⟨1, 1⟩ := by unfold Frac.le zero; decide
  have key : ∀ na : Bool, zero.le (rate f m na false (highestDepth clients)) ∧
      (rate f m na false (highestDepth clients)).le ⟨1, 1⟩ ∧
      (zero.lt (rate f m na false (highestDepth clients)) ↔ f.code ≠ .other ∧ Allowed m ∧ (na = true → hasAlpha f = true)) := by
    intro na
    rcases rate_cases f m na false (highestDepth clients) with ⟨h1, h2⟩ | ⟨h1, h2, h3, h4⟩
    · rw [h1]
      refine ⟨hz0.1, hz0.2, fun h => absurd h hz, fun ⟨k1, k2, k3⟩ => ?_⟩
      rcases h2 with h2 | h2 | ⟨h2, h2'⟩
      · have := a2 k1
        omega
      · rw [hA.mpr k2] at h2
        cases h2
      · rw [k3 h2] at h2'
        cases h2'
    · rw [h4]
      obtain ⟨w1, w2⟩ := weigh_eq (rateDepth f (highestDepth clients)) (m == 0) (hasAlpha f == na) false
      simp only [Bool.false_eq_true, false_and, if_false] at w1 w2
      unfold Frac.le Frac.lt zero
      simp only
      rw [w1, w2]
      refine ⟨by split <;> omega, by split <;> omega, fun _ => ⟨fun h => h1 (a1 h), hA.mp h2, h3⟩, fun _ => ?_⟩
      split <;> omega
  obtain ⟨k1, k2, k3⟩ := key false
  obtain ⟨c1, c2, c3⟩ := key true
  unfold ratePixelFormat rateCursorFormat
  by_cases hs : (simple = true) ∧ m ≠ 0
  · rw [if_pos hs, if_pos hs]
    exact ⟨hz0.1, hz0.2, hz0.1, hz0.2, ⟨fun h => absurd h hz, fun h => absurd (h.2.2 hs.1) hs.2⟩,
      ⟨fun h => absurd h hz, fun h => absurd (h.2.2 hs.1) hs.2⟩⟩
  · rw [if_neg hs, if_neg hs]
    have hs' : simple = true → m = 0 := by
      intro h
      by_cases hm0 : m = 0
      · exact hm0
      · exact absurd ⟨h, hm0⟩ hs
    refine ⟨k1, k2, c1, c2, ?_, ?_⟩
    · rw [k3]
      exact ⟨fun ⟨x, y, _⟩ => ⟨x, y, hs'⟩, fun ⟨x, y, _⟩ => ⟨x, y, nofun⟩⟩
    · rw [c3]
      constructor
      · intro ⟨_, y, z⟩
        exact ⟨hal.mp (z rfl), y, hs'⟩
      · intro ⟨z1, y, _⟩
        refine ⟨?_, y, fun _ => hal.mpr z1⟩
        obtain ⟨⟨w, o, z⟩, -⟩ := z1
        rw [z]
        nofun

def demo24 : PixFmt := ⟨32, 24, 0, 1, 255, 255, 255, 16, 8, 0⟩
def demo16 : PixFmt := ⟨16, 16, 0, 1, 31, 63, 31, 11, 5, 0⟩
def xrgb (w : Width) : Fourcc := ⟨.four w .argb false, false⟩
def argb (w : Width) : Fourcc := ⟨.four w .argb true, false⟩

example : ratePixelFormat [demo16, demo24] false (xrgb .w8) 0 = ⟨3030, 3030⟩ ∧
    ratePixelFormat [demo16, demo24] false (argb .w8) (2 ^ 56 + 2) = ⟨3000, 3030⟩ ∧
    ratePixelFormat [demo16, demo24] false (xrgb .w10) 0 = ⟨2430, 3030⟩ ∧
    ratePixelFormat [demo16, demo24] false (xrgb .w4) 0 = ⟨1230, 3030⟩ ∧
    ratePixelFormat [] true (xrgb .w8) 0 = ⟨3030, 3030⟩ ∧
    rateCursorFormat [demo16] true (argb .w4) 0 = ⟨1230, 3030⟩ ∧
    ratePixelFormat [demo16, demo24] false (xrgb .w8) (2 * 2 ^ 56 + 2 ^ 13) = zero := by decide +kernel

/-- **C58**: formats with as many bits of colour as the deepest client are rated higher than all others, for
frames and for cursors; and of two with the same number of bits the opaque one is rated higher for frames. -/
theorem c58_deepest {clients : List PixFmt} {d : Nat} (h : Deepest clients d) {f g : Fourcc} {m m' : Nat}
    (hm : m < 2 ^ 64) (ha : Allowed m) (hf : bits f.code = d) (simple simple' : Bool) (hs : simple = true → m = 0) :
    (bits g.code ≠ d → (ratePixelFormat clients simple' g m').lt (ratePixelFormat clients simple f m)) ∧
    (bits g.code ≠ d → HasAlpha f → (rateCursorFormat clients simple' g m').lt (rateCursorFormat clients simple f m)) ∧
    (HasAlpha g → ¬ HasAlpha f →
      (ratePixelFormat clients simple' g m').lt (ratePixelFormat clients simple f m)) := by
  have hd := highestDepth_eq h
  have h0 := highestDepth_pos clients
  rw [hd] at h0
  obtain ⟨-, -, -, -, a5, -⟩ := rateDepth_eq f h0
  obtain ⟨-, -, -, b4, -, b6⟩ := rateDepth_eq g h0
  have hns : ¬ ((simple = true) ∧ m ≠ 0) := fun ⟨x, y⟩ => y (hs x)
  unfold ratePixelFormat rateCursorFormat
  rw [if_neg hns, if_neg hns, hd]
  have hA := (allowed_iff hm).mpr ha
  have hd30 := a5 hf
  have fz : ∀ na : Bool, (na = true → hasAlpha f = true) → rate f m na false d = weigh 30 (m == 0) (hasAlpha f == na) false := by
    intro na hna
    rcases rate_cases f m na false d with ⟨_, k | k | ⟨k, k'⟩⟩ | ⟨-, -, -, k⟩
    · omega
    · rw [hA] at k; cases k
    · rw [hna k] at k'; cases k'
    · rw [k, hd30]
  have gz : ∀ na : Bool, (if (simple' = true) ∧ m' ≠ 0 then zero else rate g m' na false d) = zero ∨
      (if (simple' = true) ∧ m' ≠ 0 then zero else rate g m' na false d) =
        weigh (rateDepth g d) (m' == 0) (hasAlpha g == na) false := by
    intro na
    split
    · exact .inl rfl
    · rcases rate_cases g m' na false d with ⟨k, -⟩ | ⟨-, -, -, k⟩
      · exact .inl k
      · exact .inr k
  rw [fz false nofun]
  obtain ⟨w1, w2⟩ := weigh_eq 30 (m == 0) (hasAlpha f == false) false
  obtain ⟨v1, v2⟩ := weigh_eq (rateDepth g d) (m' == 0) (hasAlpha g == false) false
  simp only [Bool.false_eq_true, false_and, if_false] at w1 w2 v1 v2
  refine ⟨fun hg => ?_, fun hg hfa => ?_, fun hga hfa => ?_⟩
  · have := b6 hg (by have := (bits_le f.code).1; omega)
    rcases gz false with k | k
    · rw [k]
      unfold Frac.lt zero
      simp only
      rw [w1, w2]
      split <;> omega
    · rw [k]
      unfold Frac.lt
      rw [w1, w2, v1, v2]
      split <;> split <;> omega
  · have := b6 hg (by have := (bits_le f.code).1; omega)
    rw [fz true fun _ => (hasAlpha_iff f).mpr hfa]
    obtain ⟨w1, w2⟩ := weigh_eq 30 (m == 0) (hasAlpha f == true) false
    obtain ⟨v1, v2⟩ := weigh_eq (rateDepth g d) (m' == 0) (hasAlpha g == true) false
    simp only [Bool.false_eq_true, false_and, if_false] at w1 w2 v1 v2
    rcases gz true with k | k
    · rw [k]
      unfold Frac.lt zero
      simp only
      rw [w1, w2]
      split <;> omega
    · rw [k]
      unfold Frac.lt
      rw [w1, w2, v1, v2]
      split <;> split <;> omega
  · rw [← hasAlpha_iff] at hga hfa
    rw [Bool.not_eq_true] at hfa
    rw [hfa] at w1 w2 ⊢
    have hg := gz false
    rw [hga] at v1 v2 hg
    rcases hg with k | k
    · rw [k]
      unfold Frac.lt zero
      simp only
      rw [w1, w2]
      decide
    · rw [k]
      unfold Frac.lt
      rw [w1, w2, v1, v2]
      rw [if_neg (by decide), if_pos (by decide)]
      omega

example : Deepest [demo16, demo24] 24 := by
  refine .inr ⟨by decide, ⟨demo24, by simp, 8, 8, 8, by decide, by decide, by decide, rfl, rfl, rfl, rfl⟩, ?_⟩
  intro p hp
  simp only [List.mem_cons, List.not_mem_nil, or_false] at hp
  rcases hp with rfl | rfl
  · exact ⟨16, by decide, 5, 6, 5, by decide, by decide, by decide, rfl, rfl, rfl, rfl⟩
  · exact ⟨24, by decide, 8, 8, 8, by decide, by decide, by decide, rfl, rfl, rfl, rfl⟩

/-! ## C68 -/

/-- **C68** (part): frames in a format that is rated above 0 can be encoded: there is a pixel format for it, and its
pixels are as large as that says.  Of the formats whose components are not in little endian byte order, those of 8
bits, and those with red or blue last, can be transformed.  A cursor in a format that is rated above 0 has a mask.

What is missing: the other formats cannot be transformed, see `c68_transform_violated` and `c68_big_violated`. -/
theorem c68_usable_partial {clients : List PixFmt} {simple : Bool} {f : Fourcc} {m : Nat} (hm : m < 2 ^ 64) :
    (zero.lt (ratePixelFormat clients simple f m) →
      (∃ p, pixfmt f = some p ∧ p.bpp = 8 * pixelSize f ∧ p.depth ≤ p.bpp ∧ 0 < pixelSize f) ∧
      (f.big = false → (∀ w o a, f.code = .four w o a → w = .w8 ∨ o = .argb ∨ o = .abgr) → resampleFormat f = .ok ())) ∧
    (zero.lt (rateCursorFormat clients simple f m) → ∃ a, Enc.alphaOf f = some a ∧ a.size = pixelSize f ∧ 0 < a.max) := by
  obtain ⟨-, -, -, -, h1, h2⟩ := c58_range clients simple f hm
  constructor
  · intro h
    obtain ⟨h3, -, -⟩ := h1.mp h
    clear h1 h2 h
    obtain ⟨c, big⟩ := f
    cases c with
    | four w o a =>
      refine ⟨by cases w <;> exact ⟨_, rfl, rfl, by simp, by simp [pixelSize]⟩, fun hb hw => ?_⟩
      have hw' := hw w o a rfl
      clear hw
      simp only at hb
      subst hb
      cases w <;> cases o <;> first | rfl | simp at hw'
    | rgb888 => exact ⟨⟨_, rfl, rfl, by simp, by simp [pixelSize]⟩, fun hb _ => by simp only at hb; subst hb; rfl⟩
    | bgr888 => exact ⟨⟨_, rfl, rfl, by simp, by simp [pixelSize]⟩, fun hb _ => by simp only at hb; subst hb; rfl⟩
    | other => exact absurd rfl h3
  · intro h
    obtain ⟨⟨⟨w, o, h3⟩, -⟩, -⟩ := h2.mp h
    clear h1 h2 h
    obtain ⟨c, big⟩ := f
    simp only at h3
    subst h3
    cases w <;> cases o <;> exact ⟨_, rfl, rfl, by decide⟩

/-- C68 is violated by formats with 10 or 4 bits and the fourth component last: they are rated above 0, and the server
aborts when they are transformed -/
theorem c68_transform_violated : zero.lt (ratePixelFormat [demo24] true ⟨.four .w10 .rgba false, false⟩ 0) ∧
    resampleFormat ⟨.four .w10 .rgba false, false⟩ = .abort "assert(ok)" := by decide +kernel

/-- C68 is violated by big endian formats -/
theorem c68_big_violated : zero.lt (ratePixelFormat [demo24] true ⟨.four .w8 .argb false, true⟩ 0) ∧
    resampleFormat ⟨.four .w8 .argb false, true⟩ = .abort "DRM_FORMAT_BIG_ENDIAN" := by decide +kernel

end Verif.Rating
