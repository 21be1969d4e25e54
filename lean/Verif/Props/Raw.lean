import Verif.Spec.Raw
import Verif.Props.Pixels
import Verif.Props.Vec

/-!
# The raw encoder (C46)
-/

namespace Verif.Enc
open Verif.Server (PixFmt be32i)
open Verif.Pixels
open Verif.Vec (Heap Vec Ok reserve_ok step_ok write_end bytes_length sizeT reserve)

theorem load_eq {size : Nat} {mem : Bytes} : ∀ {n off : Nat}, off + n * size ≤ mem.length →
    load size mem off n = .ok ((List.range n).map fun i => (mem.drop (off + i * size)).take size)
  | 0, _, _ => rfl
  | n + 1, off, h => by
    rw [Nat.succ_mul] at h
    rw [load, readAt_ok (by omega), Outcome.bind_ok, load_eq (by omega), Outcome.bind_ok,
      List.range_succ_eq_map]
    simp only [List.map_cons, List.map_map, Nat.zero_mul, Nat.add_zero]
    congr 3
    funext i
    simp only [Function.comp, Nat.succ_mul]
    congr 2
    omega

theorem convertRow_eq {dst src : PixFmt} {bpc off n : Nat} {mem : Bytes} {one : Bytes → Bytes}
    (h : ∀ pxs, toCpixel dst src bpc pxs = .ok (pxs.flatMap one)) (hm : off + n * (src.bpp / 8) ≤ mem.length) :
    convertRow dst src bpc mem off n =
      .ok ((List.range n).flatMap fun i => one ((mem.drop (off + i * (src.bpp / 8))).take (src.bpp / 8))) := by
  unfold convertRow
  rw [h, Outcome.bind_ok, load_eq hm, Outcome.bind_ok, h, List.flatMap_map]

theorem flatMap_length {α} {f : α → Bytes} {k : Nat} (h : ∀ a, (f a).length = k) (l : List α) :
    (l.flatMap f).length = l.length * k := by
  induction l with
  | nil => simp
  | cons a l ih => rw [List.flatMap_cons, List.length_append, h, ih, List.length_cons, Nat.succ_mul]; omega

/-- the rows of one box -/
theorem rawRows_eq {dst src : PixFmt} {fb : Fb} {one : Bytes → Bytes} {x w : Nat} (hf : fb.Ok)
    (hs : src.bpp = 8 * pixelSize fb.f)
    (h : ∀ pxs, toCpixel dst src (dst.bpp / 8) pxs = .ok (pxs.flatMap one))
    (h1 : ∀ px, (one px).length = dst.bpp / 8) (hx : x + w ≤ fb.width) (hp : pixelSize fb.f ≤ 4) :
    ∀ n y v, Ok v → y + n ≤ fb.height → v.len + n * (w * (dst.bpp / 8)) ≤ v.cap →
      ∃ v', rawRows dst src fb x w y n v = .ok v' ∧ Ok v' ∧ v'.len = v.len + n * (w * (dst.bpp / 8)) ∧
        v'.bytes = v.bytes ++ (List.range n).flatMap fun j => (List.range w).flatMap fun i =>
          one (fb.pixel (x + i) (y + j)) := by
  have hs8 : src.bpp / 8 = pixelSize fb.f := by omega
  intro n
  induction n with
  | zero => intro y v hv _ _; exact ⟨v, rfl, hv, by simp, by simp⟩
  | succ n ih =>
    intro y v hv hy hc
    have hst := hf.stride
    -- the row is inside the memory
    have hrow : (y * fb.stride + x + w) * pixelSize fb.f ≤ fb.height * fb.stride * pixelSize fb.f := by
      apply Nat.mul_le_mul_right
      have : (y + 1) * fb.stride ≤ fb.height * fb.stride := Nat.mul_le_mul_right _ (by omega)
      rw [Nat.succ_mul] at this
      omega
    have hmem := hf.mem
    have hoff : x * pixelSize fb.f + y * (fb.stride * pixelSize fb.f) = (y * fb.stride + x) * pixelSize fb.f := by
      rw [Nat.add_mul, Nat.mul_assoc]; omega
    have hsplit : (y * fb.stride + x + w) * pixelSize fb.f =
        (y * fb.stride + x) * pixelSize fb.f + w * pixelSize fb.f := Nat.add_mul _ _ _
    have hint : fb.height * fb.stride * pixelSize fb.f ≤ fb.height * fb.stride * 4 := Nat.mul_le_mul_left _ hp
    have hsm := hf.small
    obtain ⟨row, hrw⟩ : ∃ row, row = (List.range w).flatMap fun i => one (fb.pixel (x + i) y) := ⟨_, rfl⟩
    have hlen : row.length = w * (dst.bpp / 8) := by
      rw [hrw, flatMap_length (fun i => h1 _), List.length_range]
    rw [Nat.succ_mul] at hc
    obtain ⟨d, w1, w2, w3⟩ := write_end hv (b := row) (by omega)
    have hv' : Ok { v with data := d, len := v.len + w * (dst.bpp / 8) } := ⟨w2, by simp only; omega⟩
    obtain ⟨v', e, g1, g2, g3⟩ := ih (y + 1) _ hv' (by omega) (by simp only; omega)
    refine ⟨v', ?_, g1, ?_, ?_⟩
    · rw [rawRows, hs8, hoff]
      have : int ((y * fb.stride + x) * pixelSize fb.f) = .ok ((y * fb.stride + x) * pixelSize fb.f) :=
        if_pos (by omega)
      rw [this, Outcome.bind_ok, convertRow_eq h (by rw [hs8]; omega), Outcome.bind_ok]
      have hb : ((List.range w).flatMap fun i => one ((fb.mem.drop ((y * fb.stride + x) * pixelSize fb.f +
          i * (src.bpp / 8))).take (src.bpp / 8))) = row := by
        rw [hrw]
        congr 1
        funext i
        unfold Fb.pixel
        rw [hs8, ← Nat.add_mul, Nat.add_assoc]
      rw [hb, w1, Outcome.bind_ok]
      exact e
    · rw [g2]; simp only; rw [Nat.succ_mul]; omega
    · rw [g3, List.range_succ_eq_map]
      have : Vec.bytes { v with data := d, len := v.len + w * (dst.bpp / 8) } = v.bytes ++ row := by
        rw [← w3, hlen]; rfl
      rw [this, hrw, List.flatMap_cons, List.append_assoc, List.flatMap_map]
      congr 2
      congr 1
      funext j
      rw [show y + 1 + j = y + j.succ by omega]

theorem cells_flatMap (b : Box) (pix : Nat × Nat → Bytes) : b.cells.flatMap pix =
    (List.range b.h).flatMap fun j => (List.range b.w).flatMap fun i => pix (b.x1 + i, b.y1 + j) := by
  unfold Box.cells
  rw [List.flatMap_assoc]
  simp only [List.flatMap_map]

theorem be32i_zero : be32i 0 = [0, 0, 0, 0] := by decide

/-- one box -/
theorem rawBox_eq {m m' : Heap} {xpos ypos : Nat} {dst src : PixFmt} {fb : Fb} {one : Bytes → Bytes} {b : Box}
    {v : Vec} (hm : Plenty m) (hm' : Plenty m') (hf : fb.Ok)
    (hs : src.bpp = 8 * pixelSize fb.f) (hd : dst.bpp ≤ 32)
    (h : ∀ pxs, toCpixel dst src (dst.bpp / 8) pxs = .ok (pxs.flatMap one))
    (h1 : ∀ px, (one px).length = dst.bpp / 8) (hp : pixelSize fb.f ≤ 4) (hb : b.In fb) (hv : Ok v)
    (hl : v.len + 12 < sizeT / 2) :
    ∃ v', rawBox m m' xpos ypos dst src fb b v = .ok (v', true) ∧ Ok v' ∧
      v'.len ≤ v.len + 12 + 2147483648 ∧
      v'.bytes = v.bytes ++ rawRect xpos ypos (fun p => one (fb.pixel p.1 p.2)) b := by
  obtain ⟨hb1, hb2, hb3, hb4⟩ := hb
  have hst := hf.stride
  -- the size of the pixels is an int
  have hsz : b.w * b.h * (dst.bpp / 8) < 2147483648 := by
    have h2 : b.w * b.h ≤ fb.height * fb.stride := by
      rw [Nat.mul_comm]
      exact Nat.mul_le_mul (by unfold Box.h; omega) (by unfold Box.w; omega)
    have h3 : b.w * b.h * (dst.bpp / 8) ≤ fb.height * fb.stride * 4 := Nat.mul_le_mul h2 (by omega)
    have := hf.small
    omega
  have hhead : (rectHead 0 (xpos + b.x1) (ypos + b.y1) b.w b.h).length = 12 := rfl
  rcases step_ok (o := .append m (rectHead 0 (xpos + b.x1) (ypos + b.y1) b.w b.h)) hv (by
    show v.len + _ < _; rw [Vec.Op.size, hhead]; exact hl) with ⟨_, h0, -⟩ | ⟨v1, r, e1, g1, g2, g3, g4⟩
  · cases h0
  have hr : r = true := g4 hm
  subst hr
  generalize e2 : reserve m' (b.w * b.h * (dst.bpp / 8) + v1.len) v1 = q
  obtain ⟨v2, r⟩ := q
  obtain ⟨k1, k2, k3, -, k4, k5⟩ := reserve_ok g1 e2
  have hr : r = true := by
    cases r with
    | true => rfl
    | false => have := hm' (b.w * b.h * (dst.bpp / 8) + v1.len); rw [k5 rfl] at this; cases this
  subst hr
  have hmul : b.h * (b.w * (dst.bpp / 8)) = b.w * b.h * (dst.bpp / 8) := by
    rw [← Nat.mul_assoc, Nat.mul_comm b.h]
  have hcap : b.w * b.h * (dst.bpp / 8) + v1.len ≤ v2.cap := k4 rfl
  obtain ⟨v3, e3, j1, j2, j3⟩ := rawRows_eq (x := b.x1) (w := b.w) hf hs h h1 (by unfold Box.w; omega) hp
    b.h b.y1 v2 k1 (by unfold Box.h; omega) (by rw [hmul]; omega)
  refine ⟨v3, ?_, j1, ?_, ?_⟩
  · unfold rawBox
    rw [e1, Outcome.bind_ok]
    simp only [Bool.true_eq_false, if_false]
    have : int (b.w * b.h * (dst.bpp / 8)) = .ok (b.w * b.h * (dst.bpp / 8)) := if_pos (by omega)
    rw [this, Outcome.bind_ok, e2]
    simp only
    rw [e3]
    rfl
  · rw [j2, hmul]
    have : v1.len ≤ v.len + 12 := g3
    omega
  · rw [j3, k3, g2]
    show v.bytes ++ rectHead 0 _ _ _ _ ++ _ = _
    rw [List.append_assoc]
    congr 1
    unfold rectHead rawRect
    rw [be32i_zero, cells_flatMap]

/-- all boxes -/
theorem rawBoxes_eq {m : Nat → Heap} {xpos ypos : Nat} {dst src : PixFmt} {fb : Fb} {one : Bytes → Bytes}
    (hm : ∀ i, Plenty (m i)) (hf : fb.Ok)
    (hs : src.bpp = 8 * pixelSize fb.f) (hd : dst.bpp ≤ 32)
    (h : ∀ pxs, toCpixel dst src (dst.bpp / 8) pxs = .ok (pxs.flatMap one))
    (h1 : ∀ px, (one px).length = dst.bpp / 8) (hp : pixelSize fb.f ≤ 4) :
    ∀ (bs : List Box) (i : Nat) (v : Vec), (∀ b ∈ bs, b.In fb) → Ok v →
      v.len + bs.length * 2147483660 < sizeT / 2 →
      ∃ v', rawBoxes m xpos ypos dst src fb i bs v = .ok (v', true) ∧ Ok v' ∧
        v'.bytes = v.bytes ++ bs.flatMap (rawRect xpos ypos fun p => one (fb.pixel p.1 p.2)) := by
  intro bs
  induction bs with
  | nil => intro i v _ hv _; exact ⟨v, rfl, hv, by simp⟩
  | cons b bs ih =>
    intro i v hb hv hl
    rw [List.length_cons, Nat.succ_mul] at hl
    obtain ⟨v1, e1, g1, g2, g3⟩ := rawBox_eq (xpos := xpos) (ypos := ypos) (hm (2 * i)) (hm (2 * i + 1)) hf hs hd h h1 hp
      (hb b (by simp)) hv (by omega)
    obtain ⟨v2, e2, k1, k2⟩ := ih (i + 1) v1 (fun b' hb' => hb b' (by simp [hb'])) g1 (by omega)
    refine ⟨v2, ?_, k1, ?_⟩
    · rw [rawBoxes, e1, Outcome.bind_ok]
      simp only [Bool.true_eq_false, if_false]
      exact e2
    · rw [k2, g3, List.flatMap_cons, List.append_assoc]

theorem area_ok {fb : Fb} (hf : fb.Ok) : ∀ bs : List Box, (∀ b ∈ bs, b.In fb) → ∃ a, area bs = .ok a ∧ a < 4294967296
  | [], _ => ⟨0, rfl, by decide⟩
  | b :: bs, h => by
    obtain ⟨a, e, _⟩ := area_ok hf bs fun b' hb' => h b' (by simp [hb'])
    obtain ⟨h1, h2, h3, h4⟩ := h b (by simp)
    have hst := hf.stride
    have hsz : b.w * b.h < 2147483648 := by
      have h2 : b.w * b.h ≤ fb.height * fb.stride := by
        rw [Nat.mul_comm]
        exact Nat.mul_le_mul (by unfold Box.h; omega) (by unfold Box.w; omega)
      have := hf.small
      omega
    refine ⟨(b.w * b.h + a) % 4294967296, ?_, Nat.mod_lt _ (by decide)⟩
    rw [area]
    have : int (b.w * b.h) = .ok (b.w * b.h) := if_pos hsz
    rw [this, Outcome.bind_ok, e, Outcome.bind_ok]

/-- the extents are around every box, and inside of what all of them are inside of -/
theorem extents_has : ∀ (bs : List Box) (b : Box), b ∈ bs → ∀ x y, b.has x y → (extents bs).has x y
  | [], _, h, _, _, _ => by cases h
  | [b], b', h, x, y, hx => by
    have : b' = b := by simpa using h
    subst this; exact hx
  | b :: c :: bs, b', h, x, y, hx => by
    unfold Box.has at *
    have e : extents (b :: c :: bs) = ⟨min b.x1 (extents (c :: bs)).x1, min b.y1 (extents (c :: bs)).y1,
      max b.x2 (extents (c :: bs)).x2, max b.y2 (extents (c :: bs)).y2⟩ := rfl
    rw [e]
    simp only
    rcases List.mem_cons.1 h with rfl | h
    · omega
    · have := extents_has (c :: bs) b' h x y hx
      unfold Box.has at this
      omega

theorem extents_in {fb : Fb} : ∀ bs : List Box, bs ≠ [] → (∀ b ∈ bs, b.In fb) → (extents bs).In fb
  | [], h, _ => absurd rfl h
  | [b], _, h => h b (by simp)
  | b :: c :: bs, _, h => by
    have h1 := h b (by simp)
    have h2 := extents_in (c :: bs) (by simp) fun b' hb' => h b' (List.mem_cons_of_mem _ hb')
    have e : extents (b :: c :: bs) = ⟨min b.x1 (extents (c :: bs)).x1, min b.y1 (extents (c :: bs)).y1,
      max b.x2 (extents (c :: bs)).x2, max b.y2 (extents (c :: bs)).y2⟩ := rfl
    unfold Box.In at *
    rw [e]
    simp only
    omega

theorem pick_in {fb : Fb} {bs : List Box} (h : ∀ b ∈ bs, b.In fb) : ∀ b ∈ pick bs, b.In fb := by
  unfold pick
  split
  · rename_i hl
    intro b hb
    rw [List.mem_singleton] at hb
    subst hb
    exact extents_in bs (by rintro rfl; simp at hl) h
  · exact h

theorem pick_has {bs : List Box} {b : Box} (h : b ∈ bs) {x y : Nat} (hx : b.has x y) : ∃ b' ∈ pick bs, b'.has x y := by
  unfold pick
  split
  · exact ⟨_, by simp, extents_has bs b h x y hx⟩
  · exact ⟨b, h, hx⟩

theorem pick_length (bs : List Box) : (pick bs).length ≤ 65535 := by
  unfold pick
  split
  · simp
  · omega

theorem pixelSize_le (f : Fourcc) : pixelSize f ≤ 4 := by
  rcases f with ⟨c, _⟩
  unfold pixelSize
  rcases c with ⟨w, o, a⟩ | _ | _ | _
  · cases w <;> simp
  all_goals simp

/-- **C46** (part): the raw encoder's frame is, for each rectangle of the damage, or one around all of
them if there are more than a message can have, the rectangle's header and its pixels row by row, each
with the colours of the framebuffer at that place; the number of rectangles is announced, and every
damaged pixel is in one of them.

What is missing: formats that are converted wrongly (C47), those that clients should not ask for (C48),
and framebuffers of 2 GB and more (`c46_large_violated`). -/
theorem c46_raw_partial {m0 : Heap} {m : Nat → Heap} (hm0 : Plenty m0) (hm : ∀ i, Plenty (m i)) {xpos ypos : Nat}
    {fb : Fb} (hf : fb.Ok) (hp : Plain fb.f) {dst : PixFmt} {l : Layout} (hd : Sane dst l)
    {bs : List Box} (hb : ∀ b ∈ bs, b.In fb) :
    ∃ pix : Nat × Nat → Bytes, (∀ x y, SameColour fb.f dst l (fb.pixel x y) (pix (x, y))) ∧
      ∃ rects : List Box, (∀ b ∈ rects, b.In fb) ∧ rects.length < 65536 ∧
        (bs.length < 65536 → rects = bs) ∧
        (∀ b ∈ bs, ∀ x y, b.has x y → ∃ r ∈ rects, r.has x y) ∧
        rawWork m0 m xpos ypos dst fb bs = .ok (rects.flatMap (rawRect xpos ypos pix), rects.length) := by
  obtain ⟨src, h1, one, h2, h3⟩ := c47_pixels_partial hp hd
  obtain ⟨src', h1', -, -, -, -, hs⟩ := plain_table hp
  rw [h1] at h1'
  cases h1'
  refine ⟨fun p => one (fb.pixel p.1 p.2), fun x y => h3 _, pick bs, pick_in hb, by have := pick_length bs; omega,
    fun hl => if_neg (by omega), fun b hb' x y hx => pick_has hb' hx, ?_⟩
  obtain ⟨a, ha, ha'⟩ := area_ok hf bs hb
  have hb8 := hd.bpp
  unfold rawWork
  rw [ha, Outcome.bind_ok]
  simp only
  generalize e : Vec.init m0 (a * (dst.bpp / 8) + (if 65535 < bs.length then 1 else bs.length) * 12) = q
  obtain ⟨v, r⟩ := q
  have hz : Ok { data := [], len := 0, cap := 0 } := ⟨rfl, Nat.le_refl _⟩
  obtain ⟨k1, k2, k3, -, k4, k5⟩ := reserve_ok hz e
  cases r with
  | false => have := hm0 (a * (dst.bpp / 8) + (if 65535 < bs.length then 1 else bs.length) * 12); rw [k5 rfl] at this; cases this
  | true =>
    have hlen : v.len = 0 := k2
    obtain ⟨v', e', g1, g2⟩ := rawBoxes_eq (xpos := xpos) (ypos := ypos) hm hf hs (by omega) h2 (fun px => (h3 px).1)
      (pixelSize_le _) (pick bs) 0 v (pick_in hb) k1 (by
        have := pick_length bs
        have h5 : (pick bs).length * 2147483660 ≤ 65535 * 2147483660 := Nat.mul_le_mul_right _ this
        unfold sizeT; omega)
    simp only [h1]
    rw [e', Outcome.bind_ok]
    simp only [Bool.true_eq_false, if_false]
    rw [g2, k3]
    rfl

/-- two rectangles of a framebuffer with some padding at the end of each row -/
def demoFb : Fb :=
  { f := ⟨.four .w8 .argb false, false⟩, width := 3, height := 2, stride := 4,
    mem := (List.range 32).map fun i => UInt8.ofNat (8 * i) }

theorem demoFb_ok : demoFb.Ok := ⟨by decide, by decide, by decide⟩

instance (b : Box) (fb : Fb) : Decidable (b.In fb) := by unfold Box.In; exact inferInstance

example := c46_raw_partial (m0 := fun _ => some fun _ => 0) (m := fun _ _ => some fun _ => 0) (fun _ => rfl)
  (fun _ _ => rfl) (xpos := 5) (ypos := 7) demoFb_ok (by decide) sane565
  (bs := [⟨0, 0, 2, 1⟩, ⟨2, 0, 3, 2⟩]) (by decide)

example : rawWork (fun _ => some fun _ => 0) (fun _ _ => some fun _ => 0) 5 7 demo565 demoFb
    [⟨0, 0, 2, 1⟩, ⟨2, 0, 3, 2⟩] =
    .ok ([0, 5, 0, 7, 0, 2, 0, 1, 0, 0, 0, 0] ++ [0x10, 0x40, 0x31, 0x44] ++
      [0, 7, 0, 7, 0, 1, 0, 2, 0, 0, 0, 0] ++ [0x52, 0x48, 0xd6, 0x58], 2) := by
  decide +kernel

/-! ## Framebuffers of 2 GB and more -/

theorem int_ok {n k : Nat} (h : int n = .ok k) : n < 2147483648 := by
  unfold int at h
  split at h
  · assumption
  · cases h

theorem rawRows_small {dst src : PixFmt} {fb : Fb} {x w : Nat} : ∀ (n y : Nat) (v v' : Vec),
    rawRows dst src fb x w y n v = .ok v' → ∀ k, y ≤ k → k < y + n →
      k * (fb.stride * (src.bpp / 8)) < 2147483648
  | 0, _, _, _, _, k, h1, h2 => by omega
  | n + 1, y, v, v', e, k, h1, h2 => by
    rw [rawRows] at e
    obtain ⟨off, eo, e⟩ := Outcome.bind_eq_ok.1 e
    obtain ⟨b, eb, e⟩ := Outcome.bind_eq_ok.1 e
    obtain ⟨d, ed, e⟩ := Outcome.bind_eq_ok.1 e
    by_cases hk : k = y
    · subst hk
      have := int_ok eo
      omega
    · exact rawRows_small n (y + 1) _ v' e k (by omega) (by omega)

theorem rawBox_small {m m' : Heap} {xpos ypos : Nat} {dst src : PixFmt} {fb : Fb} {b : Box} {v v' : Vec}
    (e : rawBox m m' xpos ypos dst src fb b v = .ok (v', true)) (k : Nat) (h1 : b.y1 ≤ k) (h2 : k < b.y2) :
    k * (fb.stride * (src.bpp / 8)) < 2147483648 := by
  unfold rawBox at e
  obtain ⟨⟨v1, r⟩, -, e⟩ := Outcome.bind_eq_ok.1 e
  dsimp only at e
  split at e
  · cases e
  · obtain ⟨size, -, e⟩ := Outcome.bind_eq_ok.1 e
    split at e
    · cases e
    · obtain ⟨v2, er, e⟩ := Outcome.bind_eq_ok.1 e
      exact rawRows_small _ _ _ _ er k h1 (by unfold Box.h; omega)

theorem rawBoxes_small {m : Nat → Heap} {xpos ypos : Nat} {dst src : PixFmt} {fb : Fb} :
    ∀ (bs : List Box) (i : Nat) (v v' : Vec), rawBoxes m xpos ypos dst src fb i bs v = .ok (v', true) →
      ∀ b ∈ bs, ∀ k, b.y1 ≤ k → k < b.y2 → k * (fb.stride * (src.bpp / 8)) < 2147483648
  | [], _, _, _, _, b, hb, _, _, _ => by simp at hb
  | c :: bs, i, v, v', e, b, hb, k, h1, h2 => by
    rw [rawBoxes] at e
    obtain ⟨⟨v1, r⟩, ec, e⟩ := Outcome.bind_eq_ok.1 e
    cases r with
    | false => simp at e
    | true =>
      rcases List.mem_cons.mp hb with rfl | hb
      · exact rawBox_small ec k h1 h2
      · exact rawBoxes_small bs (i + 1) v1 v' (by simpa using e) b hb k h1 h2

/-- **C46, violated.** No frame is made of damage that lies 2 GB or more behind the beginning of the framebuffer,
whatever the memory: the offset of the row is computed with 32 bits. -/
theorem c46_large_violated {m0 : Heap} {m : Nat → Heap} {xpos ypos : Nat} {fb : Fb} {dst src : PixFmt}
    (hs : pixfmt fb.f = some src) {bs : List Box} {b : Box} (hb : b ∈ bs) {x y : Nat} (hx : b.has x y)
    (hl : 2147483648 ≤ y * (fb.stride * (src.bpp / 8))) (r : Bytes × Nat) :
    rawWork m0 m xpos ypos dst fb bs ≠ .ok r := by
  intro e
  unfold rawWork at e
  obtain ⟨a, -, e⟩ := Outcome.bind_eq_ok.1 e
  dsimp only at e
  split at e
  · cases e
  · rw [hs] at e
    dsimp only at e
    obtain ⟨⟨v1, r1⟩, e1, e⟩ := Outcome.bind_eq_ok.1 e
    cases r1 with
    | false => simp at e
    | true =>
      obtain ⟨c, hc, hcx⟩ := pick_has hb hx
      have := rawBoxes_small _ _ _ _ e1 c hc y (by unfold Box.has at hcx; omega) (by unfold Box.has at hcx; omega)
      omega

-- 20000 by 30000 pixels, of which one at the lower end is damaged; one of the same column half way down is not
-- concerned.
example : pixfmt ⟨.four .w8 .argb false, false⟩ = some ((pixfmt ⟨.four .w8 .argb false, false⟩).getD demo565) ∧
    (⟨0, 29999, 1, 30000⟩ : Box).has 0 29999 ∧
    2147483648 ≤ 29999 * (20000 * (((pixfmt ⟨.four .w8 .argb false, false⟩).getD demo565).bpp / 8)) ∧
    ¬ 2147483648 ≤ 15000 * (20000 * (((pixfmt ⟨.four .w8 .argb false, false⟩).getD demo565).bpp / 8)) := by
  unfold Box.has
  decide +kernel

end Verif.Enc
