import Verif.Model.Labels

/-! # C112: what the log calls encodings and pixel formats -/

namespace Verif.Labels
open Verif.Server Verif.Pixels

/-- texts with commas between them -/
def joined : List Bytes → Bytes
  | [] => []
  | t :: ts => t ++ ts.flatMap fun u => 44 :: u

/-- a C string -/
def cstr (b : Bytes) : Bytes := b.takeWhile (· ≠ 0)

/-- the encodings that have names -/
def known : List Int := [encRaw, encCopyRect, encRre, encHextile, encTight, encTrle, encZrle, encH264, encCursor,
  encDesktopSize, encExtDesktopSize, encQemuKey, encQemuLed, encVmwareLed, encExtClipboard, encPts, encNtp,
  encContUpdates, encFence]

theorem encoding_unknown {e : Int} (h : e ∉ known) : encoding e = "UNKNOWN" := by
  simp only [known, List.mem_cons, List.not_mem_nil, or_false, not_or] at h
  obtain ⟨h1, h2, h3, h4, h5, h6, h7, h8, h9, h10, h11, h12, h13, h14, h15, h16, h17, h18, h19⟩ := h
  unfold encoding
  rw [if_neg h1, if_neg h2, if_neg h3, if_neg h4, if_neg h5, if_neg h6, if_neg h7, if_neg h8, if_neg h9,
    if_neg h10, if_neg h11, if_neg h12, if_neg h13, if_neg h14, if_neg h15, if_neg h16, if_neg h17, if_neg h18,
    if_neg h19]

theorem encoding_nonzero (e : Int) : 0 ∉ str (encoding e) := by
  by_cases h : e ∈ known
  · have t : ∀ e ∈ known, 0 ∉ str (encoding e) := by decide +kernel
    exact t e h
  · rw [encoding_unknown h]
    decide +kernel

theorem cstr_take {b t : Bytes} {n : Nat} (h : b.take (n + 1) = t ++ [0]) (ht : 0 ∉ t) :
    cstr b = t := by
  unfold cstr
  have e : b = t ++ 0 :: b.drop (n + 1) := by
    conv => lhs; rw [← List.take_append_drop (n + 1) b, h]
    simp
  rw [e]
  clear e h
  induction t with
  | nil => rfl
  | cons x t ih =>
    simp only [List.mem_cons, not_or] at ht
    rw [List.cons_append, List.takeWhile_cons_of_pos (by simpa using fun h => ht.1 h.symm), ih ht.2]

/-- what is in the buffer: a text, or as much of it as there is room for, and a zero -/
def Holds (len : Nat) (dst text : Bytes) : Prop :=
  dst.length = len ∧ dst.take (min text.length (len - 1) + 1) = text.take (len - 1) ++ [0]

theorem write_spec {dst : Bytes} {off : Nat} {b : Bytes} (h : off + b.length ≤ dst.length) :
    ∃ d, writeAt dst off b = .ok d ∧ d.length = dst.length ∧
      d.take (off + b.length) = dst.take off ++ b := by
  refine ⟨dst.take off ++ b ++ dst.drop (off + b.length), ?_, ?_, ?_⟩
  · unfold writeAt
    rw [if_pos h]
  · simp only [List.length_append, List.length_take, List.length_drop]
    omega
  · have : (dst.take off ++ b).length = off + b.length := by
      simp only [List.length_append, List.length_take]
      omega
    rw [← this, List.take_left]

theorem snprintf_spec {len : Nat} {dst have_ text : Bytes} (hd : dst.length = len) (hl : have_.length < len)
    (hp : dst.take have_.length = have_) :
    ∃ d, snprintf dst have_.length (len - have_.length) text = .ok (d, text.length) ∧ Holds len d (have_ ++ text) := by
  unfold snprintf
  rw [if_neg (by omega)]
  obtain ⟨d, h1, h2, h3⟩ := write_spec (dst := dst) (off := have_.length)
    (b := text.take (len - have_.length - 1) ++ [0]) (by
      simp only [List.length_append, List.length_take, List.length_cons, List.length_nil]; omega)
  refine ⟨d, by rw [h1]; rfl, by omega, ?_⟩
  rw [hp] at h3
  have e : (have_ ++ text).take (len - 1) = have_ ++ text.take (len - have_.length - 1) := by
    rw [List.take_append, List.take_of_length_le (by omega)]
    congr 2
    omega
  rw [e, List.append_assoc, ← h3]
  congr 1
  simp only [List.length_append, List.length_take, List.length_cons, List.length_nil]
  omega

theorem holds_more {len : Nat} {dst text more : Bytes} (h : Holds len dst text) (hl : len ≤ text.length) :
    Holds len dst (text ++ more) := by
  refine ⟨h.1, ?_⟩
  have := h.2
  rw [List.take_append_of_le_length (by omega), List.length_append]
  rw [← this]
  congr 1
  omega

theorem listRest_spec (len : Nat) : ∀ (es : List Int) (dst text : Bytes), 0 < len → Holds len dst text →
    ∃ d, listRest len es dst text.length = .ok d ∧
      Holds len d (text ++ es.flatMap fun e => 44 :: str (encoding e)) := by
  intro es
  induction es with
  | nil => intro dst text _ h; exact ⟨dst, rfl, by simpa using h⟩
  | cons e es ih =>
    intro dst text hpos h
    rw [listRest]
    by_cases hl : text.length < len
    · rw [if_pos hl]
      have hp : dst.take text.length = text := by
        have h2 := h.2
        rw [Nat.min_eq_left (by omega), List.take_of_length_le (l := text) (by omega)] at h2
        have := congrArg (List.take text.length) h2
        rwa [List.take_take, Nat.min_eq_left (by omega), List.take_left] at this
      obtain ⟨d, h1, h2⟩ := snprintf_spec (text := str "," ++ str (encoding e)) h.1 hl hp
      rw [h1, Outcome.bind_ok]
      dsimp only
      obtain ⟨d', h3, h4⟩ := ih d (text ++ (str "," ++ str (encoding e))) hpos h2
      rw [List.length_append] at h3
      refine ⟨d', h3, ?_⟩
      rw [List.append_assoc] at h4
      exact h4
    · rw [if_neg hl]
      exact ⟨dst, rfl, holds_more h (by omega)⟩

/-- The list of encodings in the log is written within its buffer, whatever their number, and is their names
with commas between them, as far as there is room. An empty list leaves the buffer as it was. -/
theorem c112_encodings (es : List Int) (dst : Bytes) (hpos : 0 < dst.length) :
    ∃ d, list dst.length es dst = .ok d ∧ d.length = dst.length ∧
      (es = [] → d = dst) ∧
      (es ≠ [] → cstr d = (joined (es.map fun e => str (encoding e))).take (dst.length - 1)) := by
  cases es with
  | nil => exact ⟨dst, rfl, rfl, fun _ => rfl, fun h => absurd rfl h⟩
  | cons e es =>
    obtain ⟨d, h1, h2⟩ := snprintf_spec (len := dst.length) (dst := dst) (have_ := []) (text := str (encoding e)) rfl hpos rfl
    obtain ⟨d', h3, h4⟩ := listRest_spec dst.length es d (str (encoding e)) hpos h2
    refine ⟨d', ?_, h4.1, (fun h => by cases h), fun _ => ?_⟩
    · unfold list
      dsimp only
      rw [show snprintf dst 0 dst.length (str (encoding e)) = .ok (d, (str (encoding e)).length) from h1, Outcome.bind_ok]
      exact h3
    · have hj : joined ((e :: es).map fun e => str (encoding e)) =
          str (encoding e) ++ es.flatMap fun e => 44 :: str (encoding e) := by
        simp [joined, List.flatMap_map]
      rw [hj]
      refine cstr_take h4.2 ?_
      intro h0
      rcases List.mem_append.mp (List.mem_of_mem_take h0) with h | h
      · exact encoding_nonzero e h
      · obtain ⟨x, -, hx⟩ := List.mem_flatMap.mp h
        rcases List.mem_cons.mp hx with hx | hx
        · cases hx
        · exact encoding_nonzero x hx

example : list 16 [7, 16, -239, 999] (List.replicate 16 0) = .ok (str "tight,zrle,curs" ++ [0]) := by decide +kernel

/-- the numbers of the protocol and what they are called -/
def registered : List (Int × String) := [(0, "raw"), (1, "copyrect"), (2, "rre"), (5, "hextile"), (7, "tight"),
  (15, "trle"), (16, "zrle"), (50, "open-h264"), (-239, "cursor"), (-223, "desktop-size"),
  (-308, "extended-desktop-size"), (-258, "qemu-extended-key-event"), (-261, "qemu-led-state"),
  (0x574d5668, "vmware-led-state"), (0xc0a1e5ce - 0x100000000, "extended-clipboard"), (-1000, "pts"), (-1001, "ntp"),
  (-313, "continuous-updates"), (-312, "fence")]

/-- An encoding is called what the protocol calls its number, and a number the server does not know UNKNOWN. -/
theorem c112_names (e : Int) : encoding e = (registered.lookup e).getD "UNKNOWN" := by
  by_cases h : e ∈ known
  · have t : ∀ e ∈ known, encoding e = (registered.lookup e).getD "UNKNOWN" := by decide +kernel
    exact t e h
  · rw [encoding_unknown h]
    have t : ∀ r ∈ registered, r.1 ∈ known := by decide +kernel
    have n : registered.lookup e = none := by
      rw [List.lookup_eq_none_iff]
      intro r hr
      have : e ≠ r.1 := fun he => h (he ▸ t r hr)
      simpa using this
    rw [n]
    rfl

example : encoding (-1063131698) = "extended-clipboard" ∧ encoding 6 = "UNKNOWN" := by decide +kernel

/-- Every encoding that the server knows of has a name of its own, and no other number has it. -/
theorem c112_distinct (a b : Int) (ha : a ∈ known) (h : encoding a = encoding b) : a = b := by
  have t : ∀ a ∈ known, encoding a ≠ "UNKNOWN" ∧ ∀ b ∈ known, encoding a = encoding b → a = b := by decide +kernel
  by_cases hb : b ∈ known
  · exact (t a ha).2 b hb h
  · rw [encoding_unknown hb] at h
    exact absurd h (t a ha).1

example : encoding encExtClipboard ≠ encoding encVmwareLed := by decide

/-- the name of a format without alpha, from its components and widths -/
def written : Width → Order → String
  | .w10, .rgba => "RGBX1010102" | .w10, .bgra => "BGRX1010102"
  | .w10, .argb => "XRGB2101010" | .w10, .abgr => "XBGR2101010"
  | .w8, .rgba => "RGBX8888" | .w8, .bgra => "BGRX8888" | .w8, .argb => "XRGB8888" | .w8, .abgr => "XBGR8888"
  | .w4, .rgba => "RGBX4444" | .w4, .bgra => "BGRX4444" | .w4, .argb => "XRGB4444" | .w4, .abgr => "XBGR4444"

/-- A pixel format with four components that comes from a framebuffer's is called by its name, with X for the
fourth, but for one. -/
theorem c112_formats_partial (w : Width) (o : Order) (alpha big : Bool) (h : (w, o) ≠ (.w10, .rgba)) :
    ∃ p, pixfmt ⟨.four w o alpha, big⟩ = some p ∧ pixfmtName p = written w o := by
  cases w <;> cases o <;> first | exact absurd rfl h | exact ⟨_, rfl, rfl⟩

example : ∃ p, pixfmt ⟨.four .w10 .bgra true, false⟩ = some p ∧ pixfmtName p = "BGRX1010102" := ⟨_, rfl, rfl⟩

/-- Formats of three bytes are called as those of four with the same order. -/
theorem c112_three (big : Bool) :
    (∃ p, pixfmt ⟨.rgb888, big⟩ = some p ∧ pixfmtName p = "XRGB8888") ∧
      ∃ p, pixfmt ⟨.bgr888, big⟩ = some p ∧ pixfmtName p = "XBGR8888" :=
  ⟨⟨_, rfl, rfl⟩, ⟨_, rfl, rfl⟩⟩

/-- RGBX1010102 has no name, and BGR233 and RGB332 have the same. -/
theorem c112_formats_violated :
    (∀ alpha big, ∃ p, pixfmt ⟨.four .w10 .rgba alpha, big⟩ = some p ∧ pixfmtName p = "UNKNOWN") ∧
      ∃ p q : PixFmt, p.rshift ≠ q.rshift ∧ p.bshift ≠ q.bshift ∧ pixfmtName p = pixfmtName q ∧
        pixfmtName p ≠ "UNKNOWN" :=
  ⟨fun _ _ => ⟨_, rfl, rfl⟩, ⟨8, 8, 0, 1, 7, 7, 3, 5, 2, 0⟩, ⟨8, 8, 0, 1, 7, 7, 3, 0, 2, 5⟩, by decide, by decide,
    by decide, by decide⟩

end Verif.Labels
