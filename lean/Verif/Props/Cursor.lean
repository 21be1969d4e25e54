import Verif.Spec.Cursor
import Verif.Props.Raw

/-!
# Cursors (C50)
-/

namespace Verif.Enc
open Verif.Server (PixFmt be32i)
open Verif.Pixels
open Verif.Vec (Heap Vec Ok reserve_ok step_ok write_end bytes_length sizeT reserve)

theorem rowLen_eq (w : Nat) : (w + 7) / 8 = rowLen w := by
  unfold rowLen
  split <;> omega

/-- writing at a place where everything before is known -/
theorem write_at {data b : Bytes} {p cap : Nat} (h : data.length = cap) (hp : p + b.length ≤ cap) :
    ∃ d, writeAt data p b = .ok d ∧ d.length = cap ∧ d.take (p + b.length) = data.take p ++ b :=
  write_end (v := { data := data, len := p, cap := cap }) ⟨h, by simp only; omega⟩ (by exact hp)

/-! ## The mask of a row -/

theorem set_bit {d : Bytes} {i : Nat} {b : UInt8} {k : Nat} (hk : k = 0 ∨ k = 1) (hb : d[i / 8]? = some b) (j : Nat) :
    maskBit (d.set (i / 8) (b ||| UInt8.ofNat (k <<< (7 - i % 8)))) j =
      (maskBit d j || decide (j = i ∧ k = 1)) := by
  have hi : i / 8 < d.length := by
    rcases Nat.lt_or_ge (i / 8) d.length with h | h
    · exact h
    · rw [List.getElem?_eq_none h] at hb; cases hb
  unfold maskBit
  by_cases hj : j / 8 = i / 8
  · rw [hj]
    simp only [List.getD_eq_getElem?_getD, List.getElem?_set_self hi, hb, Option.getD_some]
    rw [UInt8.toNat_or, Nat.testBit_or, UInt8.toNat_ofNat']
    congr 1
    rw [Nat.testBit_mod_two_pow, Nat.shiftLeft_eq]
    rcases hk with rfl | rfl
    · simp
    · rw [Nat.one_mul, Nat.testBit_two_pow]
      rw [Bool.eq_iff_iff]
      simp only [Bool.and_eq_true, decide_eq_true_eq, and_true]
      omega
  · rw [show decide (j = i ∧ k = 1) = false from decide_eq_false (by rintro ⟨rfl, -⟩; exact hj rfl), Bool.or_false]
    simp only [List.getD_eq_getElem?_getD]
    rw [List.getElem?_set_ne (fun h => hj h.symm)]

theorem maskLoop_eq {a : Alpha} {mem : Bytes} {off n : Nat} {op : Nat → Bool}
    (hm : off + n * a.size ≤ mem.length)
    (ho : ∀ i, i < n → decide (a.max / 2 < (leNat ((mem.drop (off + i * a.size)).take a.size) >>> a.shift) &&& a.max) = op i) :
    ∀ k i d, i + k = n → d.length = (n + 7) / 8 → (∀ j, maskBit d j = (decide (j < i) && op j)) →
      ∃ d', maskLoop a mem off k i d = .ok d' ∧ d'.length = (n + 7) / 8 ∧
        ∀ j, maskBit d' j = (decide (j < n) && op j) := by
  intro k
  induction k with
  | zero =>
    intro i d hi hd hb
    have : i = n := by omega
    subst this
    exact ⟨d, rfl, hd, hb⟩
  | succ k ih =>
    intro i d hi hd hb
    have hsz : (i + 1) * a.size ≤ n * a.size := Nat.mul_le_mul_right _ (by omega)
    rw [Nat.succ_mul] at hsz
    have hlt : i / 8 < d.length := by omega
    have hget : d[i / 8]? = some d[i / 8] := List.getElem?_eq_getElem hlt
    rw [maskLoop, readAt_ok (by omega), Outcome.bind_ok]
    simp only [hget]
    have hoi := ho i (by omega)
    refine ih (i + 1) _ (by omega) (by rw [List.length_set]; exact hd) (fun j => ?_)
    rw [set_bit (by split <;> simp) hget, hb j]
    by_cases hop : op i = true
    · rw [hop] at hoi
      rw [if_pos (of_decide_eq_true hoi), Bool.eq_iff_iff]
      simp only [Bool.or_eq_true, Bool.and_eq_true, decide_eq_true_eq, and_true]
      constructor
      · rintro (⟨h1, h2⟩ | rfl)
        · exact ⟨by omega, h2⟩
        · exact ⟨by omega, hop⟩
      · rintro ⟨h1, h2⟩
        by_cases h3 : j = i
        · exact .inr h3
        · exact .inl ⟨by omega, h2⟩
    · rw [Bool.not_eq_true] at hop
      rw [hop] at hoi
      rw [if_neg (of_decide_eq_false hoi), Bool.eq_iff_iff]
      simp only [Bool.or_eq_true, Bool.and_eq_true, decide_eq_true_eq, Nat.zero_ne_one, and_false, or_false]
      constructor
      · rintro ⟨h1, h2⟩; exact ⟨by omega, h2⟩
      · rintro ⟨h1, h2⟩
        refine ⟨?_, h2⟩
        rcases Nat.lt_or_ge j i with h3 | h3
        · exact h3
        · have : j = i := by omega
          subst this; rw [hop] at h2; cases h2

/-- the table of alphas -/
theorem alpha_table {f : Fourcc} (hf : Plain f) (ha : hasAlpha f = true) :
    ∃ a, alphaOf f = some a ∧ a.size = 4 ∧ pixelSize f = 4 ∧ a.shift = (drmAlpha f.code).shift ∧
      a.max = 2 ^ (drmAlpha f.code).bits - 1 ∧ 0 < (drmAlpha f.code).bits := by
  rcases f with ⟨c, big⟩
  obtain ⟨rfl, h⟩ := hf
  rcases c with ⟨w, o, a⟩ | _ | _ | _
  · cases ha
    cases w
    · cases o <;> exact ⟨_, rfl, rfl, rfl, rfl, rfl, by decide⟩
    · cases o <;> exact ⟨_, rfl, rfl, rfl, rfl, rfl, by decide⟩
    · exact h.elim
  all_goals cases ha

/-- one row of a mask -/
theorem alphaMask_eq {fb : Fb} {w y : Nat} (hok : fb.Ok) (hf : Plain fb.f) (ha : hasAlpha fb.f = true)
    (hw : w ≤ fb.width) (hy : y < fb.height) :
    ∃ d, alphaMask fb.f fb.mem (4 * (y * fb.stride)) w = .ok (d, true) ∧ d.length = rowLen w ∧
      ∀ j, maskBit d j = (decide (j < w) && fb.opaque j y) := by
  obtain ⟨a, h1, h2, h3, h4, h5, h6⟩ := alpha_table hf ha
  have hst := hok.stride
  have hmem := hok.mem
  rw [h3] at hmem
  have hrow : (y + 1) * fb.stride ≤ fb.height * fb.stride := Nat.mul_le_mul_right _ (by omega)
  rw [Nat.succ_mul] at hrow
  obtain ⟨d, e, g1, g2⟩ := maskLoop_eq (a := a) (mem := fb.mem) (off := 4 * (y * fb.stride)) (n := w)
    (op := fun x => fb.opaque x y) (by rw [h2]; omega) (fun i hi => by
      unfold Fb.opaque
      simp only
      have hp : drmPixel fb.f (fb.pixel i y) = leNat ((fb.mem.drop (4 * (y * fb.stride) + i * a.size)).take a.size) := by
        unfold drmPixel Fb.pixel
        rw [hf.1, h2, h3]
        simp only [Bool.false_eq_true, if_false]
        congr 3
        omega
      rw [hp, h5, h4, Nat.shiftRight_eq_div_pow, Nat.and_two_pow_sub_one_eq_mod]
      unfold Field.get
      rw [decide_eq_decide]
      have : 2 ^ (drmAlpha fb.f.code).bits = 2 * 2 ^ ((drmAlpha fb.f.code).bits - 1) := by
        rw [← Nat.pow_succ']
        congr 1
        omega
      omega) w 0 (List.replicate ((w + 7) / 8) 0) (by omega) (by simp) (fun j => by
        unfold maskBit
        rw [show decide (j < 0) = false from rfl, Bool.false_and]
        have : (List.replicate ((w + 7) / 8) (0 : UInt8)).getD (j / 8) 0 = 0 := by
          rw [List.getD_eq_getElem?_getD, List.getElem?_replicate]
          split <;> rfl
        rw [this]
        simp)
  refine ⟨d, ?_, by rw [g1, rowLen_eq], g2⟩
  unfold alphaMask
  rw [h1]
  simp only
  rw [e]
  rfl

/-! ## The message -/

/-- the pixels, row by row -/
theorem cursorRows_eq {dst src : PixFmt} {fb : Fb} {one : Bytes → Bytes} {w : Nat} (hf : fb.Ok)
    (hs : src.bpp = 8 * pixelSize fb.f)
    (h : ∀ pxs, toCpixel dst src (dst.bpp / 8) pxs = .ok (pxs.flatMap one))
    (h1 : ∀ px, (one px).length = dst.bpp / 8) (hx : w ≤ fb.width) :
    ∀ n y v, v.data.length = v.cap → y + n ≤ fb.height →
      v.len + (y + n) * (w * (dst.bpp / 8)) ≤ v.cap →
      ∃ d, cursorRows dst src fb w y n v = .ok { v with data := d } ∧ d.length = v.cap ∧
        d.take (v.len + (y + n) * (w * (dst.bpp / 8))) = v.data.take (v.len + y * (w * (dst.bpp / 8))) ++
          (List.range n).flatMap fun j => (List.range w).flatMap fun i => one (fb.pixel i (y + j)) := by
  have hs8 : src.bpp / 8 = pixelSize fb.f := by omega
  intro n
  induction n with
  | zero => intro y v hv _ _; exact ⟨v.data, rfl, hv, by simp⟩
  | succ n ih =>
    intro y v hv hy hc
    have hst := hf.stride
    have hrow : (y * fb.stride + w) * pixelSize fb.f ≤ fb.height * fb.stride * pixelSize fb.f := by
      apply Nat.mul_le_mul_right
      have : (y + 1) * fb.stride ≤ fb.height * fb.stride := Nat.mul_le_mul_right _ (by omega)
      rw [Nat.succ_mul] at this
      omega
    have hmem := hf.mem
    have hoff : y * (fb.stride * pixelSize fb.f) = y * fb.stride * pixelSize fb.f := by rw [Nat.mul_assoc]
    rw [Nat.add_mul] at hrow
    obtain ⟨row, hrw⟩ : ∃ row, row = (List.range w).flatMap fun i => one (fb.pixel i y) := ⟨_, rfl⟩
    have hlen : row.length = w * (dst.bpp / 8) := by
      rw [hrw, flatMap_length (fun i => h1 _), List.length_range]
    have hpos : v.len + y * (dst.bpp / 8) * w = v.len + y * (w * (dst.bpp / 8)) := by
      rw [Nat.mul_assoc, Nat.mul_comm w]
    have hsum : (y + (n + 1)) * (w * (dst.bpp / 8)) = (y + 1 + n) * (w * (dst.bpp / 8)) := by
      congr 1; omega
    have hone : (y + 1) * (w * (dst.bpp / 8)) = y * (w * (dst.bpp / 8)) + w * (dst.bpp / 8) := Nat.succ_mul _ _
    have hle : (y + 1) * (w * (dst.bpp / 8)) ≤ (y + (n + 1)) * (w * (dst.bpp / 8)) :=
      Nat.mul_le_mul_right _ (by omega)
    obtain ⟨d, w1, w2, w3⟩ := write_at (p := v.len + y * (w * (dst.bpp / 8))) (b := row) hv (by omega)
    obtain ⟨d', e, g1, g2⟩ := ih (y + 1) { v with data := d } w2 (by omega) (by simp only; omega)
    refine ⟨d', ?_, g1, ?_⟩
    · rw [cursorRows, hs8, hoff, convertRow_eq h (by rw [hs8]; omega), Outcome.bind_ok]
      have hb : ((List.range w).flatMap fun i => one ((fb.mem.drop (y * fb.stride * pixelSize fb.f +
          i * (src.bpp / 8))).take (src.bpp / 8))) = row := by
        rw [hrw]
        congr 1
        funext i
        unfold Fb.pixel
        rw [hs8, ← Nat.add_mul]
      rw [hb, hpos, w1, Outcome.bind_ok]
      exact e
    · rw [hsum, g2]
      simp only
      rw [hlen] at w3
      rw [hone, ← Nat.add_assoc, w3, hrw, List.append_assoc]
      congr 1
      rw [List.range_succ_eq_map, List.flatMap_cons, List.flatMap_map]
      congr 2
      funext j
      rw [show y + 1 + j = y + j.succ by omega]

/-- without padding, all pixels are one row -/
theorem cursorAll_eq {dst src : PixFmt} {fb : Fb} {one : Bytes → Bytes} {w h : Nat} (hf : fb.Ok)
    (hs : src.bpp = 8 * pixelSize fb.f)
    (hc : ∀ pxs, toCpixel dst src (dst.bpp / 8) pxs = .ok (pxs.flatMap one))
    (hw : w = fb.stride) (hh : h ≤ fb.height) :
    convertRow dst src (dst.bpp / 8) fb.mem 0 (w * h) =
      .ok ((List.range h).flatMap fun j => (List.range w).flatMap fun i => one (fb.pixel i j)) := by
  have hs8 : src.bpp / 8 = pixelSize fb.f := by omega
  have hmem := hf.mem
  have hle : h * w ≤ fb.height * fb.stride := Nat.mul_le_mul hh (by omega)
  have hle2 := Nat.mul_le_mul_right (pixelSize fb.f) hle
  rw [convertRow_eq hc (by rw [hs8, Nat.mul_comm w]; omega)]
  congr 1
  clear hle hle2 hh
  induction h with
  | zero => simp
  | succ h ih =>
    rw [Nat.mul_succ, List.range_add, List.flatMap_append, ih, List.range_succ, List.flatMap_append,
      List.flatMap_singleton, List.flatMap_map]
    congr 2
    funext i
    unfold Fb.pixel
    rw [hs8, hw, Nat.zero_add, Nat.mul_comm fb.stride]

/-- the mask is written row by row, until it does not fit any more -/
theorem maskRows_eq {fb : Fb} {w h base : Nat} {row : Nat → Bytes}
    (hr : ∀ y, y < h → alphaMask fb.f fb.mem (4 * (y * fb.stride)) w = .ok (row y, true) ∧ (row y).length = rowLen w) :
    ∀ n y v, v.data.length = v.cap → y + n = h → v.len = base + y * rowLen w →
      (base + h * rowLen w ≤ v.cap → ∃ d, maskRows fb w base y n v =
          .ok ({ data := d, len := base + h * rowLen w, cap := v.cap }, true) ∧ d.length = v.cap ∧
        d.take (base + h * rowLen w) = v.data.take (base + y * rowLen w) ++
          (List.range' y n).flatMap row) ∧
      (0 < n → ¬ base + h * rowLen w ≤ v.cap → maskRows fb w base y n v = .ub "write out of bounds") := by
  intro n
  induction n with
  | zero =>
    intro y v hv hy hl
    have : y = h := by omega
    subst this
    refine ⟨fun _ => ⟨v.data, ?_, hv, by simp⟩, fun h0 => absurd h0 (by omega)⟩
    rw [maskRows, ← hl]
  | succ n ih =>
    intro y v hv hy hl
    obtain ⟨e, hlen⟩ := hr y (by omega)
    have hone : (y + 1) * rowLen w = y * rowLen w + rowLen w := Nat.succ_mul _ _
    have hle : (y + 1) * rowLen w ≤ h * rowLen w := Nat.mul_le_mul_right _ (by omega)
    have hstep : maskRows fb w base y (n + 1) v = (do
        let d ← writeAt v.data (base + y * rowLen w) (row y)
        maskRows fb w base (y + 1) n { v with data := d, len := v.len + rowLen w }) := by
      rw [maskRows, e, Outcome.bind_ok, rowLen_eq]
      rfl
    by_cases hfit : base + y * rowLen w + rowLen w ≤ v.cap
    · obtain ⟨d, w1, w2, w3⟩ := write_at (p := base + y * rowLen w) (b := row y) hv (by omega)
      obtain ⟨i1, i2⟩ := ih (y + 1) { v with data := d, len := v.len + rowLen w } w2 (by omega) (by simp only; omega)
      rw [hstep, w1, Outcome.bind_ok]
      constructor
      · intro hc
        obtain ⟨d', e', g1, g2⟩ := i1 hc
        refine ⟨d', e', g1, ?_⟩
        rw [g2]
        simp only
        rw [hlen] at w3
        rw [hone, ← Nat.add_assoc, w3, List.append_assoc, List.range'_succ, List.flatMap_cons]
      · intro _ hc
        rcases Nat.eq_zero_or_pos n with rfl | hn
        · have : y + 1 = h := by omega
          subst this
          exact absurd (by omega) hc
        · exact i2 hn hc
    · constructor
      · intro hc; omega
      · intro _ _
        rw [hstep]
        unfold writeAt
        rw [if_neg (by omega)]
        rfl

theorem flatMap_getD {row : Nat → Bytes} {L : Nat} : ∀ {n h y i : Nat}, (∀ y, y < h → (row y).length = L) → n = h → y < n →
    i < L → ((List.range n).flatMap row).getD (L * y + i) 0 = (row y).getD i 0 := by
  intro n
  induction n with
  | zero => intro h y i _ _ hy; omega
  | succ n ih =>
    intro h y i hr hn hy hi
    have hlen : ∀ k, k ≤ h → ((List.range k).flatMap row).length = k * L := by
      intro k
      induction k with
      | zero => intro _; simp
      | succ k ihk =>
        intro hk
        rw [List.range_succ, List.flatMap_append, List.length_append, ihk (by omega), List.flatMap_singleton,
          hr k (by omega), Nat.succ_mul]
    rw [List.range_succ, List.flatMap_append, List.flatMap_singleton, List.getD_eq_getElem?_getD,
      List.getD_eq_getElem?_getD]
    by_cases hyn : y = n
    · subst hyn
      have := hlen y (by omega)
      rw [List.getElem?_append_right (by rw [this, Nat.mul_comm]; omega), this, Nat.mul_comm, Nat.add_sub_cancel_left]
    · have h2 := hlen n (by omega)
      have h3 : L * y + i < n * L := by
        have : (y + 1) * L ≤ n * L := Nat.mul_le_mul_right _ (by omega)
        rw [Nat.succ_mul, Nat.mul_comm y] at this
        omega
      rw [List.getElem?_append_left (by omega), ← List.getD_eq_getElem?_getD, ← List.getD_eq_getElem?_getD]
      exact ih (h := n) (fun y hy => hr y (by omega)) rfl (by omega) hi

theorem flatMap_bit {row : Nat → Bytes} {L h y j : Nat} (hr : ∀ y, y < h → (row y).length = L) (hy : y < h)
    (hj : j < 8 * L) : maskBit ((List.range h).flatMap row) (8 * L * y + j) = maskBit (row y) j := by
  unfold maskBit
  have h1 : (8 * L * y + j) / 8 = L * y + j / 8 := by rw [Nat.mul_assoc]; omega
  have h2 : (8 * L * y + j) % 8 = j % 8 := by rw [Nat.mul_assoc]; omega
  rw [h1, h2, flatMap_getD hr rfl hy (by omega)]

theorem reserve_cap {m : Heap} {n : Nat} {v v' : Vec} (e : reserve m n v = (v', true)) : v'.cap = max v.cap n := by
  unfold reserve at e
  split at e
  · cases e; omega
  · split at e
    · cases e
    · cases e; simp only; omega

/-- something is added to a vector with room for it -/
theorem append_room {m : Heap} {b : Bytes} {v : Vec} (hv : Ok v) (hb : v.len + b.length < v.cap) (hc : v.cap < sizeT) :
    ∃ d, Vec.step (.append m b) v = .ok ({ data := d, len := v.len + b.length, cap := v.cap }, true) ∧
      d.length = v.cap ∧ d.take (v.len + b.length) = v.bytes ++ b := by
  obtain ⟨d, w1, w2, w3⟩ := write_end hv (b := b) (by omega)
  refine ⟨d, ?_, w2, w3⟩
  have hm : (v.len + b.length) % sizeT = v.len + b.length := Nat.mod_eq_of_lt (by omega)
  have hg : Vec.grow m b.length v = (v, true) := by
    unfold Vec.grow
    rw [hm, if_pos hb]
  simp only [Vec.step, hg, w1, Outcome.bind_ok, hm]

/-- the bytes that a cursor takes up in its message, and those that are reserved -/
def needs (bpp w h : Nat) : Nat := 16 + w * h * bpp + h * rowLen w
def reserves (bpp w h : Nat) : Nat := max 4096 (16 + w * h * bpp + (w * h + 7) / 8)

theorem sendCursor_eq {m0 m m' m'' : Heap} (hm0 : Plenty m0) (hm' : Plenty m') {fb : Fb} (hf : fb.Ok) (hp : Plain fb.f)
    (ha : hasAlpha fb.f = true) {dst : PixFmt} {l : Layout} (hd : Sane dst l) {w h hx hy : Nat}
    (hw : w ≤ fb.width) (hh : h ≤ fb.height) :
    (needs (dst.bpp / 8) w h ≤ reserves (dst.bpp / 8) w h →
      ∃ pix mask : Bytes, sendCursor m0 m m' m'' dst (some fb) w h hx hy = .ok (some
          ([0, 0, 0, 1] ++ be16 hx ++ be16 hy ++ be16 w ++ be16 h ++ be32i (-239) ++ pix ++ mask)) ∧
        (∃ one, pix = (Box.cells ⟨0, 0, w, h⟩).flatMap one ∧
          ∀ x y, SameColour fb.f dst l (fb.pixel x y) (one (x, y))) ∧
        mask.length = h * rowLen w ∧
        ∀ y j, y < h → j < 8 * rowLen w → maskBit mask (8 * rowLen w * y + j) = (decide (j < w) && fb.opaque j y)) ∧
    (¬ needs (dst.bpp / 8) w h ≤ reserves (dst.bpp / 8) w h →
      sendCursor m0 m m' m'' dst (some fb) w h hx hy = .ub "write out of bounds") := by
  obtain ⟨src, h1, one, h2, h3⟩ := c47_pixels_partial hp hd
  obtain ⟨src', h1', -, -, -, -, hs⟩ := plain_table hp
  rw [h1] at h1'
  cases h1'
  have hb8 := hd.bpp
  -- the rows of the mask
  obtain ⟨row, hrow⟩ : ∃ row : Nat → Bytes, ∀ y, y < h →
      alphaMask fb.f fb.mem (4 * (y * fb.stride)) w = .ok (row y, true) ∧ (row y).length = rowLen w ∧
        ∀ j, maskBit (row y) j = (decide (j < w) && fb.opaque j y) := by
    refine ⟨fun y => if hy : y < h then (alphaMask_eq hf hp ha hw (y := y) (by omega)).choose else [], fun y hy => ?_⟩
    simp only [dif_pos hy]
    exact (alphaMask_eq hf hp ha hw (y := y) (by omega)).choose_spec
  -- the first bytes
  generalize e0 : Vec.init m0 4096 = q
  obtain ⟨v0, r⟩ := q
  have hz : Ok { data := [], len := 0, cap := 0 } := ⟨rfl, Nat.le_refl _⟩
  obtain ⟨k1, k2, k3, -, k4, k5⟩ := reserve_ok hz e0
  have hr : r = true := by
    cases r with
    | true => rfl
    | false => have := hm0 4096; rw [k5 rfl] at this; cases this
  subst hr
  have c0 : v0.cap = 4096 := by rw [reserve_cap e0]; rfl
  have l0 : v0.len = 0 := k2
  obtain ⟨d1, e1, g1, g2⟩ := append_room (m := m'') (b := [0, 0, 0, 1]) k1 (by rw [l0, c0]; decide)
    (by rw [c0]; decide)
  have hbz : v0.bytes = [] := k3
  rw [l0, hbz] at g2
  rw [l0, c0] at e1
  rw [c0] at g1
  have g2 : d1.take 4 = [0, 0, 0, 1] := g2
  have e1 : Vec.step (.append m'' [0, 0, 0, 1]) v0 = .ok ({ data := d1, len := 4, cap := 4096 }, true) := e1
  have o1 : Ok { data := d1, len := 4, cap := 4096 } := ⟨g1, by simp⟩
  obtain ⟨head, hhead⟩ : ∃ head, head = rectHead Server.encCursor hx hy w h := ⟨_, rfl⟩
  have hhl : head.length = 12 := by rw [hhead]; rfl
  obtain ⟨d2, e2, g3, g4⟩ := append_room (m := m) (b := head) o1 (by rw [hhl]; simp) (by show 4096 < _; decide)
  rw [hhl] at e2 g4
  have g3 : d2.length = 4096 := g3
  have e2 : Vec.step (.append m head) { data := d1, len := 4, cap := 4096 } =
    .ok ({ data := d2, len := 16, cap := 4096 }, true) := e2
  have g4 : d2.take 16 = [0, 0, 0, 1] ++ head := by rw [← g2]; exact g4
  have o2 : Ok { data := d2, len := 16, cap := 4096 } := ⟨g3, by simp⟩
  -- room for the rest
  have hst := hf.stride
  have hprod : w * h ≤ fb.height * fb.stride := by
    rw [Nat.mul_comm]
    exact Nat.mul_le_mul hh (by omega)
  have hsize : (w * h) % 4294967296 = w * h := Nat.mod_eq_of_lt (by have := hf.small; omega)
  generalize e3 : reserve m' (16 + w * h * (dst.bpp / 8) + (w * h + 7) / 8) { data := d2, len := 16, cap := 4096 } = q
  obtain ⟨v3, r⟩ := q
  obtain ⟨j1, j2, j3, -, j4, j5⟩ := reserve_ok o2 e3
  have hr : r = true := by
    cases r with
    | true => rfl
    | false => have := hm' (16 + w * h * (dst.bpp / 8) + (w * h + 7) / 8); rw [j5 rfl] at this; cases this
  subst hr
  have c3 : v3.cap = reserves (dst.bpp / 8) w h := reserve_cap e3
  have j2 : v3.len = 16 := j2
  have j3 : v3.data.take 16 = [0, 0, 0, 1] ++ head := by
    rw [← g4]
    have : v3.data.take v3.len = d2.take 16 := j3
    rw [← this, j2]
  -- the pixels
  obtain ⟨pix, hpix⟩ : ∃ pix, pix = (List.range h).flatMap fun j => (List.range w).flatMap fun i => one (fb.pixel i j) :=
    ⟨_, rfl⟩
  have hpl : pix.length = w * h * (dst.bpp / 8) := by
    rw [hpix, flatMap_length (k := w * (dst.bpp / 8))]
    · rw [List.length_range, ← Nat.mul_assoc, Nat.mul_comm h]
    · intro j
      rw [flatMap_length (fun i => (h3 _).1), List.length_range]
  have hroom : 16 + w * h * (dst.bpp / 8) ≤ v3.cap := by rw [c3]; unfold reserves; omega
  have hmul : h * (w * (dst.bpp / 8)) = w * h * (dst.bpp / 8) := by rw [← Nat.mul_assoc, Nat.mul_comm h]
  obtain ⟨d4, e4, g5, g6⟩ : ∃ d4, cursorPixels dst src fb w h v3 = .ok { v3 with data := d4 } ∧ d4.length = v3.cap ∧
      d4.take (16 + w * h * (dst.bpp / 8)) = [0, 0, 0, 1] ++ head ++ pix := by
    unfold cursorPixels
    rw [hsize]
    by_cases hws : w = fb.stride
    · rw [if_pos hws, cursorAll_eq hf hs h2 hws hh, Outcome.bind_ok, ← hpix]
      obtain ⟨d4, w1, w2, w3⟩ := write_at (p := v3.len) (b := pix) j1.mem (by omega)
      refine ⟨d4, by rw [w1]; rfl, w2, ?_⟩
      rw [← hpl, ← j3, ← j2]
      exact w3
    · rw [if_neg hws]
      obtain ⟨d4, w1, w2, w3⟩ := cursorRows_eq hf hs h2 (fun px => (h3 px).1) hw h 0 v3 j1.mem (by omega)
        (by rw [Nat.zero_add, hmul]; omega)
      refine ⟨d4, w1, w2, ?_⟩
      simp only [Nat.zero_add, Nat.zero_mul, Nat.add_zero] at w3
      rw [hmul, j2, j3] at w3
      rw [w3, hpix]
  -- the mask
  obtain ⟨m1, m2⟩ := maskRows_eq (base := 16 + w * h * (dst.bpp / 8)) (fun y hy => ⟨(hrow y hy).1, (hrow y hy).2.1⟩) h 0
    { data := d4, len := 16 + w * h * (dst.bpp / 8), cap := v3.cap } g5 (by omega) (by simp)
  have hneeds : needs (dst.bpp / 8) w h = 16 + w * h * (dst.bpp / 8) + h * rowLen w := rfl
  have hrun : sendCursor m0 m m' m'' dst (some fb) w h hx hy = (do
      let (v, _) ← maskRows fb w (16 + w * h * (dst.bpp / 8)) 0 h
        { data := d4, len := 16 + w * h * (dst.bpp / 8), cap := v3.cap }
      .ok (some v.bytes)) := by
    unfold sendCursor
    rw [e0, Outcome.bind_ok]
    simp only
    rw [e1, Outcome.bind_ok]
    simp only
    unfold cursorEncode
    simp only
    rw [if_neg (by omega), if_neg (by omega), h1]
    simp only
    rw [← hhead, e2, Outcome.bind_ok]
    simp only [Bool.true_eq_false, if_false]
    rw [hsize, e3]
    simp only
    rw [e4, Outcome.bind_ok]
    simp only [j2]
    cases maskRows fb w (16 + w * h * (dst.bpp / 8)) 0 h
        { data := d4, len := 16 + w * h * (dst.bpp / 8), cap := v3.cap } with
    | ok q => rfl
    | ub _ => rfl
    | abort _ => rfl
  rw [hrun]
  constructor
  · intro hfit
    rw [hneeds] at hfit
    obtain ⟨d5, e5, g7, g8⟩ := m1 (by simp only; omega)
    rw [e5, Outcome.bind_ok]
    simp only [Nat.zero_mul, Nat.add_zero, g6, ← List.range_eq_range'] at g8
    refine ⟨pix, (List.range h).flatMap row, ?_, ⟨fun p => one (fb.pixel p.1 p.2), ?_, fun x y => h3 _⟩, ?_, ?_⟩
    · unfold Vec.bytes
      simp only
      rw [g8, hhead]
      unfold rectHead Server.encCursor
      simp only [List.append_assoc]
    · rw [hpix, cells_flatMap]
      simp only [Box.h, Box.w, Nat.sub_zero, Nat.zero_add]
    · have := congrArg List.length g8
      simp only [List.length_append, List.length_take, hhl, hpl, List.length_cons, List.length_nil] at this
      have g7 : d5.length = v3.cap := g7
      omega
    · intro y j hy hj
      rw [flatMap_bit (fun y hy => (hrow y hy).2.1) hy hj, (hrow y hy).2.2]
  · intro hfit
    rw [hneeds] at hfit
    have hpos : 0 < h := by
      rcases Nat.eq_zero_or_pos h with rfl | h0
      · unfold reserves at hfit; omega
      · exact h0
    rw [m2 hpos (by simp only; omega)]
    rfl

/-- **C50** (part): a cursor that has an alpha channel is sent as a rectangle at the hotspot, its pixels
with the image's colours, and a bitmask.  Its rows are padded to bytes, and a bit is set exactly if it
stands for a pixel that is more than half opaque.

What is missing: the width has to be a multiple of eight, or the message has to be small, or else the
mask is written outside of the memory that was reserved for it (`c50_cursor_violated`); images with 16
bits per pixel, or without alpha, or with a transform. -/
theorem c50_cursor_partial {m0 m m' m'' : Heap} (hm0 : Plenty m0) (hm' : Plenty m') {fb : Fb} (hf : fb.Ok)
    (hp : Plain fb.f) (ha : hasAlpha fb.f = true) {dst : PixFmt} {l : Layout} (hd : Sane dst l) {w h hx hy : Nat}
    (hw : w ≤ fb.width) (hh : h ≤ fb.height)
    (hfit : w % 8 = 0 ∨ 16 + w * h * (dst.bpp / 8) + h * rowLen w ≤ 4096) :
    ∃ pix mask : Bytes, sendCursor m0 m m' m'' dst (some fb) w h hx hy = .ok (some
        ([0, 0, 0, 1] ++ be16 hx ++ be16 hy ++ be16 w ++ be16 h ++ be32i (-239) ++ pix ++ mask)) ∧
      (∃ one, pix = (Box.cells ⟨0, 0, w, h⟩).flatMap one ∧
        ∀ x y, SameColour fb.f dst l (fb.pixel x y) (one (x, y))) ∧
      mask.length = h * rowLen w ∧
      ∀ y j, y < h → j < 8 * rowLen w →
        maskBit mask (8 * rowLen w * y + j) = (decide (j < w) && fb.opaque j y) := by
  refine (sendCursor_eq hm0 hm' hf hp ha hd hw hh).1 ?_
  unfold needs reserves
  rcases hfit with h8 | h8
  · obtain ⟨k, rfl⟩ : ∃ k, w = 8 * k := ⟨w / 8, by omega⟩
    have h1 : rowLen (8 * k) = k := by unfold rowLen; rw [if_pos (by omega)]; omega
    have h2 : (8 * k * h + 7) / 8 = h * k := by rw [Nat.mul_assoc, Nat.mul_comm h]; omega
    rw [h1, h2]
    omega
  · omega

/-- no image, no cursor -/
theorem c50_no_cursor {m0 m m' m'' : Heap} (hm0 : Plenty m0) (dst : PixFmt) (w h hx hy : Nat) :
    sendCursor m0 m m' m'' dst none w h hx hy =
      .ok (some ([0, 0, 0, 1] ++ [0, 0, 0, 0, 0, 0, 0, 0] ++ be32i (-239))) := by
  generalize e0 : Vec.init m0 4096 = q
  obtain ⟨v0, r⟩ := q
  have hz : Ok { data := [], len := 0, cap := 0 } := ⟨rfl, Nat.le_refl _⟩
  obtain ⟨k1, k2, k3, -, k4, k5⟩ := reserve_ok hz e0
  have hr : r = true := by
    cases r with
    | true => rfl
    | false => have := hm0 4096; rw [k5 rfl] at this; cases this
  subst hr
  have c0 : v0.cap = 4096 := by rw [reserve_cap e0]; rfl
  have l0 : v0.len = 0 := k2
  obtain ⟨d1, e1, g1, g2⟩ := append_room (m := m'') (b := [0, 0, 0, 1]) k1 (by rw [l0, c0]; decide)
    (by rw [c0]; decide)
  have hbz : v0.bytes = [] := k3
  rw [l0, hbz] at g2
  rw [l0, c0] at e1
  rw [c0] at g1
  have e1 : Vec.step (.append m'' [0, 0, 0, 1]) v0 = .ok ({ data := d1, len := 4, cap := 4096 }, true) := e1
  have o1 : Ok { data := d1, len := 4, cap := 4096 } := ⟨g1, by simp⟩
  obtain ⟨d2, e2, g3, g4⟩ := append_room (m := m) (b := rectHead Server.encCursor 0 0 0 0) o1 (by show 4 + 12 < 4096; decide)
    (by show 4096 < _; decide)
  unfold sendCursor
  rw [e0, Outcome.bind_ok]
  simp only
  rw [e1, Outcome.bind_ok]
  simp only [cursorEncode]
  rw [e2, Outcome.bind_ok]
  simp only [Bool.true_eq_false, if_false]
  unfold Vec.bytes
  simp only
  rw [g4]
  congr 2
  show List.take 4 d1 ++ _ = _
  rw [show d1.take 4 = [0, 0, 0, 1] from g2]
  decide

/-- an image without padding, with alpha from 0 to 255 -/
def demoCursor (w h : Nat) (alpha : Bool) : Fb :=
  { f := ⟨.four .w8 .argb alpha, false⟩, width := w, height := h, stride := w,
    mem := (List.range (w * h * 4)).map fun i => UInt8.ofNat (50 * i) }

def demoHeap : Heap := fun _ => some fun _ => 0xaa

example : sendCursor demoHeap demoHeap demoHeap demoHeap demo565 (some (demoCursor 3 2 true)) 3 2 1 1 =
    .ok (some ([0, 0, 0, 1] ++ [0, 1, 0, 1, 0, 3, 0, 2] ++ [0xff, 0xff, 0xff, 0x11] ++
      [97, 128, 47, 217, 246, 18, 188, 75, 130, 132, 72, 221] ++ [0x80, 0xc0])) := by
  decide +kernel

example : (demoCursor 3 2 true).Ok := ⟨by decide, by decide, by decide⟩

/-- **C50 does not hold**: the mask of a cursor of 33 times 33 pixels is written outside of the memory that
was reserved for it, whatever its pixels are; and the message for an image without alpha ends where the
mask should begin. -/
theorem c50_cursor_violated :
    (∀ fb : Fb, fb.Ok → fb.width = 33 → fb.height = 33 → fb.f = ⟨.four .w8 .argb true, false⟩ → ∀ hx hy,
      sendCursor demoHeap demoHeap demoHeap demoHeap demoXrgb (some fb) 33 33 hx hy = .ub "write out of bounds") ∧
    sendCursor demoHeap demoHeap demoHeap demoHeap demo565 (some (demoCursor 2 1 false)) 2 1 0 0 =
      .ok (some ([0, 0, 0, 1] ++ [0, 0, 0, 0, 0, 2, 0, 1] ++ [0xff, 0xff, 0xff, 0x11] ++
        [0x61, 0x80, 0x2f, 0xd9])) := by
  refine ⟨fun fb hf hw hh h1 hx hy => ?_, by decide +kernel⟩
  exact (sendCursor_eq (fun _ => rfl) (fun _ => rfl) hf (by rw [h1]; decide) (by rw [h1]; rfl) saneXrgb
    (by omega) (by omega)).2 (by decide)

/-! ## Images of 16 bits -/

theorem maskLoop_reads {a : Alpha} {mem : Bytes} {off : Nat} : ∀ {k i : Nat} {d d' : Bytes},
    maskLoop a mem off k i d = .ok d' → 0 < k → off + (i + k) * a.size ≤ mem.length := by
  intro k
  induction k with
  | zero => intro i d d' _ h; omega
  | succ k ih =>
    intro i d d' h _
    rw [maskLoop] at h
    obtain ⟨px, h1, h2⟩ := Outcome.bind_eq_ok.mp h
    have hle : off + i * a.size + a.size ≤ mem.length := by
      unfold readAt slice at h1
      split at h1
      · rename_i hq
        split at hq
        · assumption
        · cases hq
      · cases h1
    dsimp only at h2
    split at h2
    · cases h2
    · rcases Nat.eq_zero_or_pos k with rfl | hk
      · rw [Nat.zero_add, Nat.succ_mul]
        omega
      · have := ih h2 hk
        rw [show i + (k + 1) = i + 1 + k by omega]
        exact this

theorem maskRows_reads {fb : Fb} {a : Alpha} (ha : alphaOf fb.f = some a) {w base : Nat} (hw : 0 < w) :
    ∀ {n y : Nat} {v v' : Vec} {r : Bool}, maskRows fb w base y n v = .ok (v', r) → 0 < n →
      4 * ((y + n - 1) * fb.stride) + w * a.size ≤ fb.mem.length := by
  intro n
  induction n with
  | zero => intro y v v' r _ h; omega
  | succ n ih =>
    intro y v v' r h _
    rw [maskRows] at h
    obtain ⟨⟨b, q⟩, h1, h2⟩ := Outcome.bind_eq_ok.mp h
    unfold alphaMask at h1
    rw [ha] at h1
    dsimp only at h1
    obtain ⟨d, h3, h4⟩ := Outcome.bind_eq_ok.mp h1
    have hrd := maskLoop_reads h3 hw
    rcases Nat.eq_zero_or_pos n with rfl | hn
    · rw [Nat.zero_add] at hrd
      simpa using hrd
    · obtain ⟨rfl, rfl⟩ := Prod.mk.inj (Outcome.ok.inj h4)
      dsimp only at h2
      obtain ⟨d', h5, h6⟩ := Outcome.bind_eq_ok.mp h2
      rw [if_neg (by decide)] at h6
      have := ih h6 hn
      rwa [show y + 1 + n - 1 = y + (n + 1) - 1 by omega] at this

/-- **C50 does not hold** for images of 16 bits with alpha: for none of two rows or more whose memory ends
with its last row can a message be made. The mask is read beyond the image. -/
theorem c50_16bit_violated {fb : Fb} {o : Order} (hf : fb.f = ⟨.four .w4 o true, false⟩)
    (hm : fb.mem.length = fb.height * fb.stride * 2) {w h : Nat} (hw : 0 < w) (hh : h = fb.height) (h2 : 2 ≤ h)
    (m0 m m' m'' : Heap) (dst : PixFmt) (hx hy : Nat) (b : Bytes) :
    sendCursor m0 m m' m'' dst (some fb) w h hx hy ≠ .ok (some b) := by
  intro he
  have hal : ∃ a, alphaOf fb.f = some a ∧ a.size = 2 := by
    rw [hf]
    cases o <;> exact ⟨_, rfl, rfl⟩
  obtain ⟨a, ha, hs⟩ := hal
  unfold sendCursor at he
  obtain ⟨q0, -, he⟩ := Outcome.bind_eq_ok.mp he
  obtain ⟨q1, -, he⟩ := Outcome.bind_eq_ok.mp he
  obtain ⟨⟨v, r⟩, h1, he⟩ := Outcome.bind_eq_ok.mp he
  dsimp only at he
  split at he
  · cases he
  · rename_i hr
    unfold cursorEncode at h1
    dsimp only at h1
    split at h1
    · cases h1
    · split at h1
      · cases h1
      · split at h1
        · cases h1; exact hr rfl
        · obtain ⟨q2, -, h1⟩ := Outcome.bind_eq_ok.mp h1
          split at h1
          · cases h1; exact hr rfl
          · split at h1
            · cases h1; exact hr rfl
            · obtain ⟨q3, -, h1⟩ := Outcome.bind_eq_ok.mp h1
              obtain ⟨⟨q4, q5⟩, h3, -⟩ := Outcome.bind_eq_ok.mp h1
              have := maskRows_reads ha hw h3 (by omega)
              rw [hs, hm, ← hh, Nat.zero_add] at this
              have e : h * fb.stride ≤ (h - 1) * fb.stride * 2 := by
                rw [Nat.mul_assoc, Nat.mul_comm fb.stride, ← Nat.mul_assoc]
                exact Nat.mul_le_mul_right _ (by omega)
              omega

/-- two by two pixels -/
def demo16 : Fb :=
  { f := ⟨.four .w4 .argb true, false⟩, width := 2, height := 2, stride := 2,
    mem := (List.range 8).map fun i => UInt8.ofNat (50 * i) }

example : sendCursor demoHeap demoHeap demoHeap demoHeap demo565 (some demo16) 2 2 0 0 = .ub "read out of bounds" := by
  decide +kernel

end Verif.Enc
