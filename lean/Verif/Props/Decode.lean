import Verif.Props.Canvas

/-!
# C99: what the encoders write is decoded to what they were given
-/

namespace Verif.Wire

open Verif.Server Verif.Enc Verif.Pixels Verif.Vec

variable {α : Type} {k : Codec}

/-! ## Tiles -/

theorem rows_get {β : Type} {f : Nat → List β} {w : Nat} (hf : ∀ j, (f j).length = w) {i j : Nat} (hi : i < w) :
    ∀ {n : Nat}, j < n → ((List.range n).flatMap f)[j * w + i]? = (f j)[i]?
  | 0, h => by omega
  | n + 1, h => by
    have hl : ((List.range n).flatMap f).length = n * w := by
      rw [List.length_flatMap]
      simp only [hf, List.map_const', List.sum_replicate_nat, List.length_range]
    rw [List.range_succ, List.flatMap_append]
    by_cases hj : j < n
    · have : j * w + w ≤ n * w := by
        have := Nat.mul_le_mul_right w (show j + 1 ≤ n from hj)
        rwa [Nat.add_mul, Nat.one_mul] at this
      rw [List.getElem?_append_left (by omega)]
      exact rows_get hf hi hj
    · have : j = n := by omega
      subst this
      rw [List.getElem?_append_right (by omega), hl, Nat.add_sub_cancel_left]
      simp

theorem cells_get {β : Type} {φ : Nat × Nat → β} {t : Box} {x y : Nat} (h : t.has x y) :
    (t.cells.map φ)[(y - t.y1) * t.w + (x - t.x1)]? = some (φ (x, y)) := by
  obtain ⟨h1, h2, h3, h4⟩ := h
  have hi : x - t.x1 < t.w := by unfold Box.w; omega
  have hj : y - t.y1 < t.h := by unfold Box.h; omega
  rw [map_cells, rows_get (fun j => by rw [List.length_map, List.length_range]) hi hj]
  rw [List.getElem?_map, List.getElem?_range hi]
  simp only [Option.map_some]
  rw [show t.x1 + (x - t.x1) = x by omega, show t.y1 + (y - t.y1) = y by omega]

theorem zip_map {β γ : Type} (f : β → γ) : ∀ l : List β, l.zip (l.map f) = l.map fun a => (a, f a)
  | [] => rfl
  | a :: l => by rw [List.map_cons, List.zip_cons_cons, zip_map f l]; rfl

/-- the pixel at a place is the one that was put there -/
theorem pixelAt_eq {φ : Nat × Nat → Bytes} {w h x y : Nat} (hx : x < w) (hy : y < h) :
    pixelAt ((rfcTiles w h).zip ((rfcTiles w h).map fun t => t.cells.map φ)) x y = φ (x, y) := by
  rw [zip_map]
  unfold pixelAt
  generalize hr : List.find? _ _ = r
  cases r with
  | none =>
    obtain ⟨t, ht, hh, -⟩ := c42_partition w h x y hx hy
    have := List.find?_eq_none.1 hr _ (List.mem_map.2 ⟨t, ht, rfl⟩)
    exact absurd (decide_eq_true (show t.x1 ≤ x ∧ x < t.x2 ∧ t.y1 ≤ y ∧ y < t.y2 from hh)) this
  | some q =>
    obtain ⟨t, ht, rfl⟩ := List.mem_map.1 (List.mem_of_find?_eq_some hr)
    have hs := List.find?_some hr
    have hh : t.has x y := of_decide_eq_true (p := t.x1 ≤ x ∧ x < t.x2 ∧ t.y1 ≤ y ∧ y < t.y2) hs
    dsimp only
    rw [List.getD_eq_getElem?_getD, cells_get hh]
    rfl

/-! ## Frames -/

/-- a frame draws a picture in all of its rectangles if they have the right pixels and cover the region -/
theorem draws_wide {dec : Decoder (Ch → Nat)} {f : Frame} {r : Region} {p : Pic (Ch → Nat)} {e : Int}
    {past qs : List RectMsg} (he : isPixels e = true)
    (h1 : readRects k.sizes f.nRects f.payload = some (qs, [])) (h0 : ∀ q ∈ qs, q.enc = e)
    (h2 : ∀ a q b, qs = a ++ q :: b → ∀ px py, q.Has px py → dec (past ++ a) q px py = p px py)
    (h3 : ∀ px py, r.Has px py → ∃ q ∈ qs, q.Has px py) :
    Draws k.sizes dec e past f (r ++ k.wide f) p := by
  have hw : k.wide f = qs.map fun q => ⟨q.x, q.y, q.w, q.h⟩ := by
    unfold Codec.wide rectsOf
    rw [h1]
  refine draws_of he h1 h0 (fun a q b hq px py hh => ⟨?_, h2 a q b hq px py hh⟩) fun px py hr => ?_
  · rw [hw]
    exact ⟨_, List.mem_append_right _ (List.mem_map.2 ⟨q, by rw [hq]; simp, rfl⟩), hh⟩
  · obtain ⟨q, hq, hh⟩ := hr
    rcases List.mem_append.1 hq with hq | hq
    · exact h3 px py ⟨q, hq, hh⟩
    · rw [hw] at hq
      obtain ⟨q', hq', rfl⟩ := List.mem_map.1 hq
      exact ⟨q', hq', hh⟩

theorem rectsOf_eq {z : Sizes} {f : Frame} {qs rest : _} (h : readRects z f.nRects f.payload = some (qs, rest)) :
    rectsOf z f = qs := by
  unfold rectsOf
  rw [h]

theorem has_box {b : Box} {e : Int} {body : Bytes} {px py : Nat} :
    (⟨0 + b.x1, 0 + b.y1, b.w, b.h, e, body⟩ : RectMsg).Has px py ↔ b.has px py := by
  unfold RectMsg.Has Box.w Box.h Box.has
  dsimp only
  omega

/-! ## ZRLE -/

theorem zrleStream_append (a b : List RectMsg) : zrleStream (a ++ b) = zrleStream a ++ zrleStream b := by
  unfold zrleStream
  rw [List.flatMap_append]

/-- the streams and pixels of a frame in ZRLE -/
theorem zrle_read {z : Sizes} {size : Nat} {one : Bytes → Bytes} {fb : Enc.Fb} {inflate : Bytes → Bytes} {val : Bytes → α} :
    ∀ {bs : List Box} {s s' : Zs} {p : Bytes}, (∀ b ∈ bs, Small 0 0 b) → ZrleFrame size one fb 0 0 bs s p s' →
      (∀ q ∈ s'.flushed, inflate q.2 = q.1) → inflate s.out = s.inp →
      ∃ qs, readRects z bs.length p = some (qs, []) ∧ (∀ q ∈ qs, q.enc = 16) ∧
        (∀ q ∈ s.flushed, q ∈ s'.flushed) ∧ inflate s'.out = s'.inp ∧ s'.out = s.out ++ zrleStream qs ∧
        (∀ b ∈ bs, ∃ q ∈ qs, ∀ px py, b.has px py → q.Has px py) ∧
        ∀ past, zrleStream past = s.out → ∀ a q b, qs = a ++ q :: b →
          ∃ bx ∈ bs, ∀ px py, q.Has px py → bx.has px py ∧
            zrleDec inflate size val (past ++ a) q px py = val (one (fb.pixel px py))
  | [], s, s', p, _, h, hf, hi => by
    obtain ⟨rfl, rfl⟩ := h
    exact ⟨[], rfl, by simp, fun _ h => h, hi, by simp [zrleStream], by simp, fun _ _ a q b h => by simp at h⟩
  | b :: bs, s, s', p, hs, ⟨u, c, rest, e1, e2, e3, e4⟩, hf, hi => by
    have hmono : ∀ {bs : List Box} {s s' : Zs} {p : Bytes}, ZrleFrame size one fb 0 0 bs s p s' →
        ∀ q ∈ s.flushed, q ∈ s'.flushed := by
      intro bs
      induction bs with
      | nil => intro s s' p h q hq; rw [h.2]; exact hq
      | cons b bs ih =>
        rintro s s' p ⟨u, c, rest, -, -, -, h⟩ q hq
        exact ih h q (List.mem_append_left _ hq)
    have hput : inflate (s.out ++ c) = s.inp ++ u :=
      hf (s.inp ++ u, s.out ++ c) (hmono e4 _ (List.mem_append_right _ (by simp)))
    obtain ⟨qs, h1, h2, h3, h4, h5, h6, h7⟩ := zrle_read (z := z) (inflate := inflate) (val := val)
      (fun b hb => hs b (by simp [hb])) e4 hf hput
    have hst : zrleStream [⟨0 + b.x1, 0 + b.y1, b.w, b.h, 16, be32 c.length ++ c⟩] = c := by
      have : (be32 c.length ++ c).drop 4 = c := by
        rw [← be32_length c.length, List.drop_left]
      simp [zrleStream, this]
    refine ⟨⟨0 + b.x1, 0 + b.y1, b.w, b.h, 16, be32 c.length ++ c⟩ :: qs, ?_, ?_, ?_, h4, ?_, ?_, ?_⟩
    · rw [e1]
      exact readRects_cons (read_zrle (hs b (by simp)) e2) h1
    · intro q hq
      rcases List.mem_cons.1 hq with rfl | hq
      · rfl
      · exact h2 q hq
    · exact fun q hq => h3 q (List.mem_append_left _ hq)
    · rw [h5, ← List.singleton_append (l := qs), zrleStream_append, hst, ← List.append_assoc]
      rfl
    · intro b' hb'
      rcases List.mem_cons.1 hb' with rfl | hb'
      · exact ⟨_, List.mem_cons_self, fun px py hh => has_box.2 hh⟩
      · obtain ⟨q, hq, hh⟩ := h6 b' hb'
        exact ⟨q, List.mem_cons_of_mem _ hq, hh⟩
    · intro past hp a q b' he
      cases a with
      | nil =>
        rw [List.nil_append, List.cons.injEq] at he
        obtain ⟨rfl, -⟩ := he
        refine ⟨b, by simp, fun px py hh => ?_⟩
        have hb := has_box.1 hh
        refine ⟨hb, ?_⟩
        unfold zrleDec inflateNext
        dsimp only
        have hd : (be32 c.length ++ c).drop 4 = c := by
          rw [← be32_length c.length, List.drop_left]
        rw [List.append_nil, hp, hd, hput, hi, List.drop_left, e3]
        dsimp only
        obtain ⟨a1, a2, a3, a4⟩ := hb
        have : ((rfcTiles b.w b.h).map fun t => (tilePixels fb b t).map one) =
            (rfcTiles b.w b.h).map fun t => t.cells.map fun q => one (fb.pixel (b.x1 + q.1) (b.y1 + q.2)) := by
          unfold tilePixels
          simp only [List.map_map, Function.comp_def]
        rw [this, pixelAt_eq (by unfold Box.w; omega) (by unfold Box.h; omega)]
        dsimp only
        rw [show b.x1 + (px - (0 + b.x1)) = px by omega, show b.y1 + (py - (0 + b.y1)) = py by omega]
      | cons q0 a =>
        rw [List.cons_append, List.cons.injEq] at he
        obtain ⟨rfl, he⟩ := he
        obtain ⟨bx, hbx, hh⟩ := h7 (past ++ [⟨0 + b.x1, 0 + b.y1, b.w, b.h, 16, be32 c.length ++ c⟩])
          (by rw [zrleStream_append, hp, hst]; rfl) a q b' he
        refine ⟨bx, List.mem_cons_of_mem _ hbx, ?_⟩
        rw [List.append_assoc] at hh
        exact hh

/-- C99, the ZRLE encoder: what it writes for a region of a framebuffer draws the framebuffer's colours there, and
nothing outside of the rectangles it has, on the screen of a client that has the stream so far; and then the client
has the stream. -/
theorem c99_zrle_partial (hd : Sane k.dst k.l) (hc : CpixelOk k.dst k.l) {fb : Enc.Fb} {bs : List Box} {r : Region}
    {p : Pic (Ch → Nat)} (hg : Given k fb bs r p)
    (hpal : cpixelSize k.dst k.l = 4 → ∀ b ∈ bs, ∀ t ∈ rfcTiles b.w b.h, ∀ n, Colours (tilePixels fb b t) n → n ≤ 12 ∨ 16 < n)
    {m0 : Heap} {m : Nat → Nat → Heap} (hm : ∀ i j, Plenty (m i j)) {as : List Ans}
    (has : (as.map fun a => a.give.length).sum < 4294967296) {s s' : Zs} {f : Frame}
    (e : zrleWork m0 m 0 0 k.dst fb bs s as = .ok (f.payload, f.nRects, s'))
    (hf : ∀ q ∈ s'.flushed, k.inflate q.2 = q.1) {past : List RectMsg} (hp : zrleStream past = s.out)
    (hi : k.inflate s.out = s.inp) :
    Draws k.sizes k.dec 16 past f (r ++ k.wide f) p ∧ (∀ q ∈ rectsOf k.sizes f, q.enc = 16) ∧
      zrleStream (past ++ rectsOf k.sizes f) = s'.out ∧ k.inflate s'.out = s'.inp := by
  obtain ⟨one, h1, rects, h2, h3, -, h4, -, h5⟩ := (c42_zrle_partial hm hg.ok hg.plain hd hc hg.boxes
    (fun h => ⟨hg.few, hpal h⟩) has).2 _ _ _ e
  cases h4 hg.few
  have hw := hg.width
  have hh := hg.height
  obtain ⟨qs, a1, a2, -, a4, a5, a6, a7⟩ := zrle_read (z := k.sizes) (inflate := k.inflate)
    (val := cpixVal k.dst k.l) (fun b hb => small_in (by omega) (by omega) (h2 b hb)) h5 hf hi
  rw [h3] at a1
  rw [rectsOf_eq a1]
  refine ⟨draws_wide rfl a1 a2 (fun a q b hq px py hh => ?_) fun px py hr => ?_, a2, ?_, a4⟩
  · obtain ⟨bx, hbx, hx⟩ := a7 past hp a q b hq
    obtain ⟨hb, hv⟩ := hx px py hh
    have hq : q.enc = 16 := a2 q (by rw [hq]; simp)
    simp only [Codec.dec, hq]
    obtain ⟨b1, b2, b3, b4⟩ := hb
    obtain ⟨i1, i2, i3, i4⟩ := hg.boxes bx hbx
    rw [hv, hg.pic px py (by omega) (by omega)]
    funext ch
    exact (h1 _).2.1 ch
  · obtain ⟨b, hb, hh⟩ := (hg.region px py).1 hr
    obtain ⟨q, hq, hx⟩ := a6 b hb
    exact ⟨q, hq, hx px py hh⟩
  · rw [zrleStream_append, hp, a5]

/-! ## Tight -/

theorem tightStream_snoc (tp s : Nat) (a : List RectMsg) (q : RectMsg) :
    tightStream tp s (a ++ [q]) = tightFeed tp s (tightStream tp s a) q := by
  unfold tightStream
  rw [List.foldl_append]
  rfl

theorem no_reset (s j : Fin 4) : (UInt8.ofNat (16 * s)).toNat / 2 ^ j.val % 2 ≠ 1 := by
  revert s j; decide

theorem ctl_stream (s : Fin 4) : (UInt8.ofNat (16 * s)).toNat / 16 = s := by
  revert s; decide

theorem data_pixel {one : Bytes → Bytes} {tp : Nat} (ho : ∀ px, (one px).length = tp) {fb : Enc.Fb} {b : Box}
    {px py : Nat} (h : b.has px py) {e : Int} {body : Bytes} {q : RectMsg}
    (hq : q = ⟨0 + b.x1, 0 + b.y1, b.w, b.h, e, body⟩) :
    ((tightData one fb b).drop (((py - q.y) * q.w + (px - q.x)) * tp)).take tp = one (fb.pixel px py) := by
  obtain ⟨a1, a2, a3, a4⟩ := h
  have := cell_bytes (pix := fun p => one (fb.pixel p.1 p.2)) (fun a => ho _) (b := b) (i := px - b.x1) (j := py - b.y1)
    (by unfold Box.w; omega) (by unfold Box.h; omega)
  rw [show b.x1 + (px - b.x1) = px by omega, show b.y1 + (py - b.y1) = py by omega] at this
  subst hq
  unfold tightData
  dsimp only
  rw [Nat.zero_add, Nat.zero_add]
  exact this

theorem tightFrame_mono {one : Bytes → Bytes} {fb : Enc.Fb} : ∀ {bs : List Box} {s s' : Fin 4 → Zs} {p : Bytes},
    TightFrame one fb 0 0 bs s p s' → ∀ j, ∀ q ∈ (s j).flushed, q ∈ (s' j).flushed
  | [], _, _, _, h, _, q, hq => by rw [h.2]; exact hq
  | b :: bs, s, s', p, h, j, q, hq => by
    unfold TightFrame at h
    split at h
    · obtain ⟨_, _, -, h⟩ := h
      exact tightFrame_mono h j q hq
    · obtain ⟨i, _, c, _, -, -, h⟩ := h
      refine tightFrame_mono h j q ?_
      split
      · rename_i hj
        subst hj
        exact List.mem_append_left _ hq
      · exact hq

/-- the streams and pixels of a frame in Tight -/
theorem tight_read {z : Sizes} {one : Bytes → Bytes} (ho : ∀ px, (one px).length = z.tpixel) {fb : Enc.Fb}
    {inflate : Bytes → Bytes} {val : Bytes → α} :
    ∀ {bs : List Box} {s s' : Fin 4 → Zs} {p : Bytes}, (∀ b ∈ bs, Small 0 0 b) → TightFrame one fb 0 0 bs s p s' →
      (∀ j, ∀ q ∈ (s' j).flushed, inflate q.2 = q.1) → (∀ j, inflate (s j).out = (s j).inp) →
      ∃ qs, readRects z bs.length p = some (qs, []) ∧ (∀ q ∈ qs, q.enc = 7) ∧
        (∀ j, inflate (s' j).out = (s' j).inp) ∧
        (∀ b ∈ bs, ∃ q ∈ qs, ∀ px py, b.has px py → q.Has px py) ∧
        ∀ past, (∀ j : Fin 4, tightStream z.tpixel j past = (s j).out) →
          (∀ j : Fin 4, tightStream z.tpixel j (past ++ qs) = (s' j).out) ∧
          ∀ a q b, qs = a ++ q :: b → ∃ bx ∈ bs, ∀ px py, q.Has px py → bx.has px py ∧
            tightDec inflate z.tpixel val (past ++ a) q px py = val (one (fb.pixel px py))
  | [], s, s', p, _, h, hf, hi => by
    obtain ⟨rfl, rfl⟩ := h
    exact ⟨[], rfl, by simp, hi, by simp, fun past hp => ⟨by simpa using hp, fun a q b h => by simp at h⟩⟩
  | b :: bs, s, s', p, hs, h, hf, hi => by
    have hlen : (tightData one fb b).length = b.w * b.h * z.tpixel := by
      unfold tightData
      rw [flatMap_length (fun a => ho _), cells_length]
    have key : ∀ (q0 : RectMsg) (s1 : Fin 4 → Zs) (b0 rest : Bytes), p = b0 ++ rest →
        readRect z b0 = some (q0, []) → q0.enc = 7 → (∀ px py, q0.Has px py ↔ b.has px py) →
        TightFrame one fb 0 0 bs s1 rest s' → (∀ j, inflate (s1 j).out = (s1 j).inp) →
        (∀ past, (∀ j : Fin 4, tightStream z.tpixel j past = (s j).out) →
          (∀ j : Fin 4, tightStream z.tpixel j (past ++ [q0]) = (s1 j).out) ∧
          ∀ px py, b.has px py → tightDec inflate z.tpixel val past q0 px py = val (one (fb.pixel px py))) →
        ∃ qs, readRects z (b :: bs).length p = some (qs, []) ∧ (∀ q ∈ qs, q.enc = 7) ∧
        (∀ j, inflate (s' j).out = (s' j).inp) ∧
        (∀ b' ∈ b :: bs, ∃ q ∈ qs, ∀ px py, b'.has px py → q.Has px py) ∧
        ∀ past, (∀ j : Fin 4, tightStream z.tpixel j past = (s j).out) →
          (∀ j : Fin 4, tightStream z.tpixel j (past ++ qs) = (s' j).out) ∧
          ∀ a q b', qs = a ++ q :: b' → ∃ bx ∈ b :: bs, ∀ px py, q.Has px py → bx.has px py ∧
            tightDec inflate z.tpixel val (past ++ a) q px py = val (one (fb.pixel px py)) := by
      intro q0 s1 b0 rest e1 e2 e3 e4 e5 e6 e7
      obtain ⟨qs, h1, h2, h4, h6, h7⟩ := tight_read ho (inflate := inflate) (val := val)
        (fun b hb => hs b (by simp [hb])) e5 hf e6
      refine ⟨q0 :: qs, ?_, ?_, h4, ?_, fun past hp => ⟨?_, ?_⟩⟩
      · rw [e1]
        exact readRects_cons e2 h1
      · intro q hq
        rcases List.mem_cons.1 hq with rfl | hq
        · exact e3
        · exact h2 q hq
      · intro b' hb'
        rcases List.mem_cons.1 hb' with rfl | hb'
        · exact ⟨_, List.mem_cons_self, fun px py hh => (e4 px py).2 hh⟩
        · obtain ⟨q, hq, hh⟩ := h6 b' hb'
          exact ⟨q, List.mem_cons_of_mem _ hq, hh⟩
      · intro j
        have := (h7 (past ++ [q0]) (e7 past hp).1).1 j
        rw [List.append_assoc] at this
        exact this
      · intro a q b' he
        cases a with
        | nil =>
          rw [List.nil_append, List.cons.injEq] at he
          obtain ⟨rfl, -⟩ := he
          rw [List.append_nil]
          exact ⟨b, by simp, fun px py hh => ⟨(e4 px py).1 hh, (e7 past hp).2 px py ((e4 px py).1 hh)⟩⟩
        | cons q1 a =>
          rw [List.cons_append, List.cons.injEq] at he
          obtain ⟨rfl, he⟩ := he
          obtain ⟨bx, hbx, hh⟩ := (h7 (past ++ [q0]) (e7 past hp).1).2 a q b' he
          refine ⟨bx, List.mem_cons_of_mem _ hbx, ?_⟩
          rw [List.append_assoc] at hh
          exact hh
    unfold TightFrame at h
    split at h
    · rename_i h12
      obtain ⟨i, rest, e1, e2⟩ := h
      have hpart : tightPart z.tpixel
          ⟨0 + b.x1, 0 + b.y1, b.w, b.h, 7, UInt8.ofNat (16 * i) :: tightData one fb b⟩ = none := by
        unfold tightPart
        dsimp only
        rw [if_neg (by omega)]
      refine key _ s _ rest e1 (read_tight_small (z := z) (hs b (by simp)) hlen h12 (stream_ctl i)) rfl
        (fun px py => has_box) e2 hi fun past hp => ⟨fun j => ?_, fun px py hh => ?_⟩
      · rw [tightStream_snoc, hp]
        unfold tightFeed
        rw [if_pos rfl, hpart]
        dsimp only
        rw [List.headD_cons, if_neg (no_reset i j), List.append_nil]
      · unfold tightDec
        rw [hpart]
        dsimp only
        rw [List.drop_one, List.tail_cons]
        congr 1
        exact data_pixel (e := 7) (body := []) ho hh rfl
    · rename_i h12
      obtain ⟨i, len, c, rest, e1, e2, e3⟩ := h
      have hpart : tightPart z.tpixel
          ⟨0 + b.x1, 0 + b.y1, b.w, b.h, 7, UInt8.ofNat (16 * i) :: (len ++ c)⟩ = some (i.val, c) := by
        unfold tightPart
        dsimp only
        rw [if_pos ⟨stream_ctl i, by omega⟩, e2, ctl_stream]
        rfl
      have hput : inflate ((s i).out ++ c) = (s i).inp ++ tightData one fb b := by
        have := tightFrame_mono e3 i ((s i).inp ++ tightData one fb b, (s i).out ++ c)
        rw [if_pos rfl] at this
        exact hf i _ (this (List.mem_append_right _ (by simp)))
      refine key _ _ _ rest e1 (read_tight (z := z) (hs b (by simp)) e2 (.inr ⟨stream_ctl i, by omega⟩)) rfl
        (fun px py => has_box) e3 (fun j => ?_) fun past hp => ⟨fun j => ?_, fun px py hh => ?_⟩
      · split
        · exact hput
        · exact hi j
      · rw [tightStream_snoc, hp]
        unfold tightFeed
        rw [if_pos rfl, hpart]
        dsimp only
        rw [List.headD_cons, if_neg (no_reset i j)]
        by_cases hj : j = i
        · subst hj
          rw [if_pos rfl, if_pos rfl]
          rfl
        · rw [if_neg hj, if_neg (fun h => hj (Fin.ext h.symm)), List.append_nil]
      · unfold tightDec
        rw [hpart]
        dsimp only
        rw [List.headD_cons, if_neg (no_reset i i), hp]
        unfold inflateNext
        rw [hput, hi, List.drop_left]
        congr 1
        exact data_pixel (e := 7) (body := []) ho hh rfl

/-- C99, the Tight encoder without JPEG: like ZRLE, with four streams. -/
theorem c99_tight_partial (hd : Sane k.dst k.l) (hc : TpixelOk k.dst) {fb : Enc.Fb} {bs : List Box} {r : Region}
    {p : Pic (Ch → Nat)} (hg : Given k fb bs r p)
    (h12 : ∀ t ∈ rfcTiles fb.width fb.height, Touched bs t → 12 ≤ t.w * t.h * tpixelSize k.dst)
    {m0 : Heap} {m : Nat → Nat → Heap} (hm : ∀ i j, Plenty (m i j)) {cfg : TightCfg}
    (hcfg : cfg.jpeg = false ∨ 10 ≤ cfg.quality) {grid : List Tile}
    (hgr : grid.length = (fb.height + 63) / 64 * ((fb.width + 63) / 64))
    {s s' : Fin 4 → Zs} {ans : Fin 4 → List Ans} {schedule : List (Fin 4)} {f : Frame}
    (e : tightEncode m0 m cfg 0 0 k.dst fb bs grid s ans schedule = .ok (f.payload, f.nRects, s'))
    (hf : ∀ j, ∀ q ∈ (s' j).flushed, k.inflate q.2 = q.1) {past : List RectMsg}
    (hp : ∀ j : Fin 4, tightStream (tpixelSize k.dst) j past = (s j).out)
    (hi : ∀ j, k.inflate (s j).out = (s j).inp) :
    Draws k.sizes k.dec 7 past f (r ++ k.wide f) p ∧ (∀ q ∈ rectsOf k.sizes f, q.enc = 7) ∧
      (∀ j : Fin 4, tightStream (tpixelSize k.dst) j (past ++ rectsOf k.sizes f) = (s' j).out) ∧
      ∀ j, k.inflate (s' j).out = (s' j).inp := by
  obtain ⟨one, h1, rects, h2, h3, h4, h5⟩ := c65_basic_partial hm hcfg hg.ok hg.plain hd hc ⟨hg.width, hg.height⟩
    hg.boxes h12 hgr e
  have hin : ∀ b ∈ rects, b.In fb := fun b hb => tiles_in ((h4 b).1 hb).1
  have hw := hg.width
  have hh := hg.height
  obtain ⟨qs, a1, a2, a4, a6, a7⟩ := tight_read (z := k.sizes) (fun px => (h1 px).1) (inflate := k.inflate)
    (val := tpixelColour k.dst k.l) (fun b hb => small_in (by omega) (by omega) (hin b hb)) h5 hf hi
  rw [h2] at a1
  rw [rectsOf_eq a1]
  obtain ⟨a7, a8⟩ := a7 past hp
  refine ⟨draws_wide rfl a1 a2 (fun a q b hq px py hh => ?_) fun px py hr => ?_, a2, a7, a4⟩
  · obtain ⟨bx, hbx, hx⟩ := a8 a q b hq
    obtain ⟨hb, hv⟩ := hx px py hh
    have hq : q.enc = 7 := a2 q (by rw [hq]; simp)
    simp only [Codec.dec, hq]
    obtain ⟨b1, b2, b3, b4⟩ := hb
    obtain ⟨i1, i2, i3, i4⟩ := hin bx hbx
    refine hv.trans ?_
    rw [hg.pic px py (by omega) (by omega)]
    funext ch
    exact (h1 _).2 ch
  · obtain ⟨b, hb, hh⟩ := (hg.region px py).1 hr
    obtain ⟨i1, i2, i3, i4⟩ := hg.boxes b hb
    have hh' := hh
    obtain ⟨g1, g2, g3, g4⟩ := hh
    obtain ⟨t, ht, ht2, -⟩ := c42_partition fb.width fb.height px py (by omega) (by omega)
    obtain ⟨q, hq, hx⟩ := a6 t ((h4 t).2 ⟨ht, b, hb, px, py, hh', ht2⟩)
    exact ⟨q, hq, hx px py ht2⟩

/-! ## Raw -/

theorem draws_raw (hd : Sane k.dst k.l) {fb : Enc.Fb} {bs : List Box} {r : Region}
    {p : Pic (Ch → Nat)} (hg : Given k fb bs r p) {m0 : Heap} {m : Nat → Heap} (hm0 : Plenty m0)
    (hm : ∀ i, Plenty (m i)) {f : Frame} (e : rawWork m0 m 0 0 k.dst fb bs = .ok (f.payload, f.nRects))
    (past : List RectMsg) :
    Draws k.sizes k.dec 0 past f (r ++ k.wide f) p ∧ ∀ q ∈ rectsOf k.sizes f, q.enc = 0 := by
  obtain ⟨pix, h1, rects, h2, -, h4, -, h3⟩ := c46_raw_partial hm0 hm (xpos := 0) (ypos := 0) hg.ok hg.plain hd hg.boxes
  cases h4 hg.few
  rw [h3] at e
  injection e with e
  rw [Prod.mk.injEq] at e
  have hw := hg.width
  have hh := hg.height
  have hl : ∀ a, (pix a).length = k.sizes.pixel := fun a => (h1 a.1 a.2).1
  have hr := read_raws (z := k.sizes) hl (xpos := 0) (ypos := 0) (bs := bs)
    fun b hb => small_in (by omega) (by omega) (h2 b hb)
  rw [e.1, e.2] at hr
  have h0 : ∀ q ∈ bs.map fun b => (⟨0 + b.x1, 0 + b.y1, b.w, b.h, 0, b.cells.flatMap pix⟩ : RectMsg), q.enc = 0 := by
    intro q hq
    obtain ⟨b, b1, rfl⟩ := List.mem_map.1 hq
    rfl
  rw [rectsOf_eq hr]
  refine ⟨draws_wide rfl hr h0 (fun a q b hq px py hh => ?_) fun px py hr => ?_, h0⟩
  · obtain ⟨b, b1, rfl⟩ := List.mem_map.1 (show q ∈ _ from by rw [hq]; simp)
    have hb := has_box.1 hh
    obtain ⟨a1, a2, a3, a4⟩ := hb
    obtain ⟨i1, i2, i3, i4⟩ := hg.boxes b b1
    have hi : px - b.x1 < b.w := by unfold Box.w; omega
    have hj : py - b.y1 < b.h := by unfold Box.h; omega
    have := cell_bytes hl hi hj
    rw [show b.x1 + (px - b.x1) = px by omega, show b.y1 + (py - b.y1) = py by omega] at this
    rw [hg.pic px py (by omega) (by omega)]
    show rawDec k.sizes.pixel (pixVal k.dst k.l) [] _ px py = _
    unfold rawDec
    dsimp only
    rw [Nat.zero_add, Nat.zero_add, this]
    funext ch
    exact (h1 px py).2.1 ch
  · obtain ⟨b, b1, hb⟩ := (hg.region px py).1 hr
    exact ⟨_, List.mem_map.2 ⟨b, b1, rfl⟩, has_box.2 hb⟩

/-! ## The encoders of a connection -/

theorem zrleStream_other {qs : List RectMsg} {e : Int} (he : e ≠ 16) (h : ∀ q ∈ qs, q.enc = e) : zrleStream qs = [] := by
  unfold zrleStream
  rw [List.flatMap_eq_nil_iff]
  intro q hq
  rw [if_neg (by rw [h q hq]; exact he)]

theorem tightStream_other {tp s : Nat} {past : List RectMsg} {e : Int} (he : e ≠ 7) :
    ∀ {qs : List RectMsg}, (∀ q ∈ qs, q.enc = e) → tightStream tp s (past ++ qs) = tightStream tp s past := by
  intro qs
  induction qs generalizing past with
  | nil => intro _; rw [List.append_nil]
  | cons q qs ih =>
    intro h
    rw [← List.singleton_append, ← List.append_assoc, ih (fun q hq => h q (by simp [hq])), tightStream_snoc]
    unfold tightFeed
    rw [if_neg (by rw [h q (by simp)]; exact he)]

/-- the compressed data in the rectangles an encoder has made are what came out of its streams -/
structure InStep (k : Codec) (made : List RectMsg) (z : Zlibs) : Prop where
  zrle : zrleStream made = z.zrle.out
  tight : ∀ j : Fin 4, tightStream (tpixelSize k.dst) j made = (z.tight j).out
  inflate : k.inflate z.zrle.out = z.zrle.inp
  inflates : ∀ j, k.inflate (z.tight j).out = (z.tight j).inp

/-- an encoder draws what it is given, and remains in step -/
theorem made_draws (hd : Sane k.dst k.l) {e : Int} {z z' : Zlibs} {f : Frame} {r : Region} {p : Pic (Ch → Nat)}
    (h : MadeBy k e z z' f r p) {made : List RectMsg} (hs : InStep k made z) :
    (∀ before, (e = 16 ∨ e = 7 → before = []) →
      Draws k.sizes k.dec e (before ++ made) f (r ++ k.wide f) p) ∧
    InStep k (made ++ rectsOf k.sizes f) z' := by
  obtain ⟨hr, fb, bs, hg, h | h | h⟩ := h
  · obtain ⟨rfl, rfl, m0, m, hm0, hm, h⟩ := h
    refine ⟨fun before _ => (draws_raw hd hg hm0 hm h _).1, ?_⟩
    have h0 := (draws_raw hd hg hm0 hm h []).2
    constructor
    · rw [zrleStream_append, zrleStream_other (by decide) h0, List.append_nil, hs.zrle]
    · intro j
      rw [tightStream_other (by decide) h0, hs.tight]
    · exact hs.inflate
    · exact hs.inflates
  · obtain ⟨rfl, ht, hc, hpal, m0, m, as, hm, has, h⟩ := h
    obtain ⟨h1, h2, h3, h4⟩ := c99_zrle_partial hd hc hg hpal hm has h hr.zrle hs.zrle hs.inflate
    refine ⟨fun before hb => ?_, ?_, ?_, h4, ?_⟩
    · cases hb (.inl rfl)
      exact h1
    · exact h3
    · intro j
      rw [tightStream_other (by decide) h2, hs.tight, ht]
    · rw [ht]; exact hs.inflates
  · obtain ⟨rfl, ht, hc, h12, m0, m, cfg, grid, ans, schedule, hm, hcfg, hgr, h⟩ := h
    obtain ⟨h1, h2, h3, h4⟩ := c99_tight_partial hd hc hg h12 hm hcfg hgr h hr.tight hs.tight hs.inflates
    refine ⟨fun before hb => ?_, ?_, h3, ?_, h4⟩
    · cases hb (.inr rfl)
      exact h1
    · rw [zrleStream_append, zrleStream_other (by decide) h2, List.append_nil, hs.zrle, ht]
    · rw [ht]; exact hs.inflate

theorem see_wide (c : Pic α) (v : Viewer α) (x : Eff) : (v.see c x).wide = v.wide := by
  unfold Viewer.see
  split <;> rfl

theorem sees_wide (c : Pic α) : ∀ (es : List Eff) (v : Viewer α), (es.foldl (Viewer.see c) v).wide = v.wide
  | [], _ => rfl
  | x :: es, v => by rw [List.foldl_cons, sees_wide c es, see_wide]

theorem settle_wide (v : Viewer α) : v.settle.wide = v.wide := rfl

/-- what the encoders make draws what they are given -/
theorem works_faith (hd : Sane k.dst k.l) {c : Pic (Ch → Nat)} : ∀ {es : List Eff} {v : Viewer (Ch → Nat)} {m : Makers}
    {g g' : Nat → Zlibs}, v.wide = k.wide → (∀ i, InStep k (m.made i) (g i)) → Works k c v m g es g' →
    Faith k.sizes k.dec c v m es ∧ ∀ i, InStep k ((es.foldl (Makers.see k.sizes) m).made i) (g' i)
  | [], _, _, _, _, _, hs, h => ⟨trivial, by cases h; exact hs⟩
  | x :: es, v, m, g, g', hw, hs, ⟨g1, h1, h2⟩ => by
    have key : (∀ f r p e i before, x = .encodeDone f → v.frame = some (r, p) → m.cur = some (e, i) →
        (e = 16 ∨ e = 7 → before = []) → Draws k.sizes k.dec e (before ++ m.made i) f (r ++ v.wide f) p) ∧
        ∀ i, InStep k ((m.see k.sizes x).made i) (g1 i) := by
      unfold Fed at h1
      split at h1
      · rename_i f e i hc
        obtain ⟨q, a1, a2, a3⟩ := h1
        obtain ⟨b1, b2⟩ := made_draws hd a2 (hs i)
        constructor
        · intro f' r p e' i' before d1 d2 d3 d4
          cases d1
          rw [hc] at d3
          cases d3
          cases a1 _ d2
          rw [hw]
          exact b1 before d4
        · intro j
          unfold Makers.see
          simp only [hc]
          split
          · rename_i hj
            subst hj
            exact b2
          · rename_i hj
            rw [a3 j hj]
            exact hs j
      · rename_i x _ _ hno
        subst h1
        constructor
        · intro f r p e i before d1 d2 d3
          exact (hno f e i d1 d3).elim
        · intro j
          have : (m.see k.sizes x).made = m.made := by
            cases x with
            | encodeDone f =>
              cases hc : m.cur with
              | none => unfold Makers.see; simp only [hc]
              | some q => exact (hno f q.1 q.2 rfl hc).elim
            | _ => rfl
          rw [this]
          exact hs j
    obtain ⟨k1, k2⟩ := key
    obtain ⟨k3, k4⟩ := works_faith hd (by rw [see_wide]; exact hw) k2 h2
    exact ⟨⟨k1, k3⟩, k4⟩

theorem step_grows {table : List Nat} {o : Server.Op} {env : Env} {net : List Read} {s s' : St} (hb : Base s)
    (e : step table o env net s = .ok s') : Base s' ∧ ∃ es, s'.log = s.log ++ es := by
  refine step_inv (I := fun t => ∃ es, t.log = s.log ++ es) (fun t t' hm _ h => ?_) hb ⟨[], by simp⟩ e
  obtain ⟨es, h⟩ := h
  obtain ⟨fs, hg⟩ := log_grows hm
  exact ⟨es ++ fs, by rw [hg, h, List.append_assoc]⟩

theorem worked_faithful (hd : Sane k.dst k.l) {table : List Nat} :
    ∀ {ops : List ((Server.Op × Env × List Read) × Pic (Ch → Nat))} {s : St} {v : Viewer (Ch → Nat)} {g : Nat → Zlibs},
    Base s → v.wide = k.wide → (∀ i, InStep k ((makers k.sizes s.log).made i) (g i)) → Worked k table ops s v g →
    Faithful k.sizes k.dec table ops s v
  | [], _, _, _, _, _, _, _ => trivial
  | ((o, env, net), c) :: ops, s, v, g, hb, hw, hs, h => by
    intro s' e
    obtain ⟨g', h1, h2⟩ := h s' e
    obtain ⟨hb', es, he⟩ := step_grows hb e
    rw [he, List.drop_left] at h1 h2 ⊢
    obtain ⟨k1, k2⟩ := works_faith hd hw hs h1
    rw [← makers_append, ← he] at k2
    exact ⟨k1, worked_faithful hd hb' (by rw [settle_wide, sees_wide]; exact hw) k2 h2⟩

/-- C99, with the encoders: a client that gets raw, ZRLE and Tight rectangles from the server's encoders, and
decompresses and decodes them, sees the colours that the application displays at its own precision, unless they
are in damage that is still to be sent; and every pixel that it has asked for is there. -/
theorem c99_session_partial (hd : Sane k.dst k.l) (h0 : k.inflate [] = []) {table : List Nat} {srv : Srv}
    {ops : List ((Server.Op × Env × List Read) × Pic (Ch → Nat))} {c₀ : Pic (Ch → Nat)} {s : St}
    {v : Viewer (Ch → Nat)} {px py : Nat}
    (e : watch table ops (start srv) { wide := k.wide } = .ok (s, v)) (hh : Honest c₀ ops)
    (hw : Worked k table ops (start srv) { wide := k.wide } fun _ => {}) (hre : Readable k.sizes s.log)
    (hc : s.cl.closed = false) (hf : s.cl.freed = false) (hl : v.lost = false) (hok : .encodeFail ∉ s.log)
    (hin : Fits s.log px py) (he : s.cl.encoding = false) (hdm : ¬ s.cl.damage.Has px py) {b : Bytes}
    (hb : session s.log = some b) :
    ∃ i ms, readSession k.sizes b = some (i, ms) ∧
      (∀ a, (canvas k.dec ms).pix px py = some a → a = final c₀ ops px py) ∧
      (Asked s.log px py → (canvas k.dec ms).pix px py = some (final c₀ ops px py)) :=
  c99_shown_partial e hh (worked_faithful hd (start_base srv) rfl (fun _ => ⟨rfl, fun _ => rfl, h0, fun _ => h0⟩) hw)
    hre hc hf hl hok hin he hdm hb

/-! ## A session -/

/-- a heap with a lot of memory -/
def lots : Heap := fun _ => some fun _ => 0

/-- how a frame is made -/
inductive Recipe where
  | raw (fb : Enc.Fb)
  | zrle (fb : Enc.Fb) (as : List Ans)
  | tight (fb : Enc.Fb) (ans : Fin 4 → List Ans)

def Recipe.fb : Recipe → Enc.Fb
  | .raw fb => fb
  | .zrle fb _ => fb
  | .tight fb _ => fb

/-- the boxes of a region -/
def boxes (r : Region) : List Box := r.map fun q => ⟨q.x, q.y, q.x + q.w, q.y + q.h⟩

/-- what the encoder makes, with its streams; the framebuffer is one tile -/
def Recipe.cook (k : Codec) (e : Int) (z : Zlibs) (r : Region) : Recipe → Option (Bytes × Nat × Zlibs)
  | .raw fb => if e ≠ 0 then none else match rawWork lots (fun _ => lots) 0 0 k.dst fb (boxes r) with
    | .ok (p, n) => some (p, n, z)
    | _ => none
  | .zrle fb as => if e ≠ 16 ∨ ¬ (as.map fun a => a.give.length).sum < 4294967296 then none
    else match zrleWork lots (fun _ _ => lots) 0 0 k.dst fb (boxes r) z.zrle as with
    | .ok (p, n, z') => some (p, n, { z with zrle := z' })
    | _ => none
  | .tight fb ans => if e ≠ 7 then none
    else match tightEncode lots (fun _ _ => lots) ⟨false, 0, fun _ => none⟩ 0 0 k.dst fb (boxes r) [⟨.ready, 0, []⟩]
        z.tight ans [3, 0, 2, 1] with
    | .ok (p, n, z') => some (p, n, { z with tight := z' })
    | _ => none

def chans : List Ch := [.r, .g, .b]

/-- `MadeBy`, checked -/
def Recipe.make (k : Codec) (e : Int) (z : Zlibs) (f : Frame) (r : Region) (p : Pic (Ch → Nat)) (rc : Recipe) :
    Option Zlibs :=
  match rc.cook k e z r with
  | some (b, n, z') =>
    if b = f.payload ∧ n = f.nRects ∧ (boxes r).length < 65536 ∧ (∀ b ∈ boxes r, b.In rc.fb) ∧
        (∀ x ∈ List.range rc.fb.width, ∀ y ∈ List.range rc.fb.height, ∀ c ∈ chans, p x y c = fbPic rc.fb k.l x y c) ∧
        (∀ q ∈ z'.zrle.flushed, k.inflate q.2 = q.1) ∧ (∀ s, ∀ q ∈ (z'.tight s).flushed, k.inflate q.2 = q.1)
    then some z' else none
  | none => none

/-- a framebuffer of one tile of at least 12 bytes, and a format for all encoders -/
structure Easy (k : Codec) (fb : Enc.Fb) : Prop where
  ok : fb.Ok
  plain : Plain fb.f
  width : fb.width ≤ 64
  height : fb.height ≤ 64
  cpixel : CpixelOk k.dst k.l
  three : cpixelSize k.dst k.l ≠ 4
  tpixel : TpixelOk k.dst
  twelve : 12 ≤ fb.width * fb.height * tpixelSize k.dst

theorem boxes_has {r : Region} {px py : Nat} : r.Has px py ↔ ∃ b ∈ boxes r, b.x1 ≤ px ∧ px < b.x2 ∧ b.y1 ≤ py ∧ py < b.y2 := by
  constructor
  · rintro ⟨q, hq, h⟩
    exact ⟨_, List.mem_map.2 ⟨q, hq, rfl⟩, h⟩
  · rintro ⟨b, hb, h⟩
    obtain ⟨q, hq, rfl⟩ := List.mem_map.1 hb
    exact ⟨q, hq, h⟩

theorem make_ok {e : Int} {z z' : Zlibs} {f : Frame} {r : Region} {p : Pic (Ch → Nat)} {rc : Recipe}
    (he : Easy k rc.fb) (h : rc.make k e z f r p = some z') : MadeBy k e z z' f r p := by
  unfold Recipe.make at h
  split at h
  · rename_i b n z1 hck
    by_cases hh : b = f.payload ∧ n = f.nRects ∧ (boxes r).length < 65536 ∧ (∀ b ∈ boxes r, b.In rc.fb) ∧
        (∀ x ∈ List.range rc.fb.width, ∀ y ∈ List.range rc.fb.height, ∀ c ∈ chans, p x y c = fbPic rc.fb k.l x y c) ∧
        (∀ q ∈ z1.zrle.flushed, k.inflate q.2 = q.1) ∧ (∀ s, ∀ q ∈ (z1.tight s).flushed, k.inflate q.2 = q.1)
    case neg =>
      rw [if_neg hh] at h
      cases h
    rw [if_pos hh] at h
    cases Option.some.inj h
    obtain ⟨rfl, rfl, h3, h4, h5, h6, h7⟩ := hh
    refine ⟨⟨h6, h7⟩, rc.fb, boxes r, ⟨he.ok, he.plain, by have := he.width; omega, by have := he.height; omega, h4, h3,
      fun px py => boxes_has, fun px py hx hy => ?_⟩, ?_⟩
    · funext c
      exact h5 px (List.mem_range.2 hx) py (List.mem_range.2 hy) c (by cases c <;> decide)
    · unfold Recipe.cook at hck
      split at hck
      · rename_i fb
        split at hck
        · cases hck
        · rename_i hne
          split at hck
          · rename_i w
            cases hck
            exact .inl ⟨Decidable.not_not.1 hne, rfl, _, _, fun _ => rfl, fun _ _ => rfl, w⟩
          · cases hck
      · rename_i fb as
        split at hck
        · cases hck
        · rename_i hne
          split at hck
          · rename_i w
            cases hck
            refine .inr (.inl ⟨?_, rfl, he.cpixel, fun h => absurd h he.three, _, _, as, fun _ _ _ => rfl, ?_, w⟩)
            · exact Decidable.not_not.1 fun h => hne (.inl h)
            · exact Decidable.not_not.1 fun h => hne (.inr h)
          · cases hck
      · rename_i fb ans
        split at hck
        · cases hck
        · rename_i hne
          split at hck
          · rename_i w
            cases hck
            have hw := he.width
            have hh := he.height
            have h12 := he.twelve
            dsimp only [Recipe.fb] at hw hh h12 ⊢
            have hwp : 0 < fb.width := Nat.pos_of_ne_zero fun h => by rw [h] at h12; simp at h12
            have hhp : 0 < fb.height := Nat.pos_of_ne_zero fun h => by rw [h] at h12; simp at h12
            have e1 : (fb.width + 63) / 64 = 1 := by omega
            have e2 : (fb.height + 63) / 64 = 1 := by omega
            refine .inr (.inr ⟨Decidable.not_not.1 hne, rfl, he.tpixel, ?_, _, _, _, [⟨.ready, 0, []⟩], ans, [3, 0, 2, 1],
              fun _ _ _ => rfl, .inl rfl, ?_, w⟩)
            · intro t ht _
              unfold rfcTiles at ht
              rw [e1, e2] at ht
              simp only [List.range_one, List.flatMap_cons, List.flatMap_nil, List.map_cons, List.map_nil,
                List.append_nil, List.mem_singleton] at ht
              subst ht
              unfold Box.w Box.h
              dsimp only
              rw [show min fb.width (64 * 0 + 64) - 64 * 0 = fb.width by omega,
                show min fb.height (64 * 0 + 64) - 64 * 0 = fb.height by omega]
              exact h12
            · rw [e1, e2]
              rfl
          · cases hck
  · cases h

/-- `Works`, checked -/
def worksB (k : Codec) (c : Pic (Ch → Nat)) : Viewer (Ch → Nat) → Makers → (Nat → Zlibs) → List Recipe → List Eff →
    Option ((Nat → Zlibs) × List Recipe)
  | _, _, g, rs, [] => some (g, rs)
  | v, m, g, rs, x :: es =>
    match x, m.cur with
    | .encodeDone f, some (e, i) =>
      match rs, v.frame with
      | rc :: rs, some q =>
        match rc.make k e (g i) f q.1 q.2 with
        | some z' => worksB k c (v.see c x) (m.see k.sizes x) (fun j => if j = i then z' else g j) rs es
        | none => none
      | _, _ => none
    | _, _ => worksB k c (v.see c x) (m.see k.sizes x) g rs es

theorem works_check {c : Pic (Ch → Nat)} : ∀ {es : List Eff} {v : Viewer (Ch → Nat)} {m : Makers} {g g' : Nat → Zlibs}
    {rs rs' : List Recipe}, (∀ rc ∈ rs, Easy k rc.fb) → worksB k c v m g rs es = some (g', rs') →
    Works k c v m g es g' ∧ ∀ rc ∈ rs', rc ∈ rs
  | [], _, _, _, _, _, _, _, h => by
    cases h
    exact ⟨rfl, fun _ h => h⟩
  | x :: es, v, m, g, g', rs, rs', hr, h => by
    unfold worksB at h
    split at h
    · rename_i f e i hc
      split at h
      · rename_i rc rs q hv
        split at h
        · rename_i z' hz
          obtain ⟨h1, h2⟩ := works_check (fun rc h => hr rc (by simp [h])) h
          refine ⟨⟨_, ?_, h1⟩, fun rc h => by simp [h2 rc h]⟩
          unfold Fed
          simp only [hc]
          refine ⟨q, fun q' h => ?_, ?_, fun i' hi => if_neg hi⟩
          · rw [hv] at h
            exact (Option.some.inj h).symm
          · rw [if_pos trivial]
            exact make_ok (hr rc (by simp)) hz
        · cases h
      · cases h
    · rename_i _ _ _ hno
      obtain ⟨h1, h2⟩ := works_check hr h
      refine ⟨⟨g, ?_, h1⟩, h2⟩
      unfold Fed
      split
      · rename_i hc
        exact (hno _ _ _ rfl hc).elim
      · rfl

/-- `Worked`, checked -/
def workedB (k : Codec) (table : List Nat) : List ((Server.Op × Env × List Read) × Pic (Ch → Nat)) → St →
    Viewer (Ch → Nat) → (Nat → Zlibs) → List Recipe → Bool
  | [], _, _, _, _ => true
  | ((o, env, net), c) :: ops, s, v, g, rs =>
    match step table o env net s with
    | .ok s' =>
      match worksB k c v (makers k.sizes s.log) g rs (s'.log.drop s.log.length) with
      | some (g', rs') => workedB k table ops s' ((s'.log.drop s.log.length).foldl (Viewer.see c) v).settle g' rs'
      | none => false
    | _ => true

theorem worked_check {table : List Nat} : ∀ {ops : List ((Server.Op × Env × List Read) × Pic (Ch → Nat))} {s : St}
    {v : Viewer (Ch → Nat)} {g : Nat → Zlibs} {rs : List Recipe}, (∀ rc ∈ rs, Easy k rc.fb) →
    workedB k table ops s v g rs = true → Worked k table ops s v g
  | [], _, _, _, _, _, _ => trivial
  | ((o, env, net), c) :: ops, s, v, g, rs, hr, h => by
    intro s' hs
    unfold workedB at h
    rw [hs] at h
    dsimp only at h
    split at h
    · rename_i g' rs' hw
      obtain ⟨h1, h2⟩ := works_check hr hw
      exact ⟨g', h1, worked_check (fun rc h => hr rc (h2 rc h)) h⟩
    · cases h

/-- a sheet of paper of four by three pixels, and a dot of ink on it -/
def paperFb : Enc.Fb :=
  { f := ⟨.four .w8 .argb false, false⟩, width := 4, height := 3, stride := 4, mem := List.replicate 48 5 }
def inkFb : Enc.Fb := { paperFb with mem := List.replicate 36 5 ++ [1, 2, 3, 4] ++ List.replicate 8 5 }

/-- a client with the server's format; the compressed data below, and what is in them -/
def demoCodec : Codec where
  dst := demoXrgb
  l := drm (.four .w8 .argb false)
  inflate b :=
    if b = [1, 2, 3] then [1, 5, 5, 5]
    else if b = [1, 2, 3, 4, 5] then [1, 5, 5, 5, 1, 1, 2, 3]
    else if b = [6, 7, 8, 9] then List.replicate 27 5 ++ [3, 2, 1] ++ List.replicate 6 5
    else []

/-- the pictures -/
def paper : Pic (Ch → Nat) := fun px py => if px < 4 ∧ py < 3 then fbPic paperFb demoCodec.l px py else fun _ => 0
def ink : Pic (Ch → Nat) := fun px py => if px < 4 ∧ py < 3 then fbPic inkFb demoCodec.l px py else fun _ => 0

def inkRecipes : List Recipe :=
  [.zrle paperFb [⟨lots, 4, [1, 2, 3], false⟩], .zrle inkFb [⟨lots, 4, [4, 5], false⟩],
   .tight inkFb fun _ => [⟨lots, 12, [6], false⟩, ⟨lots, 12, [7, 8], false⟩, ⟨lots, 12, [9], false⟩]]

/-- the frames: the whole screen in ZRLE, the dot in ZRLE, and the whole screen in Tight -/
def inkFrame (b : Bytes) : Server.Op := .encoded { demoFrame with nRects := 1, payload := b }
def zrle1 : Bytes := Server.rectHead 0 0 4 3 16 ++ [0, 0, 0, 3, 1, 2, 3]
def zrle2 : Bytes := Server.rectHead 1 2 1 1 16 ++ [0, 0, 0, 2, 4, 5]
def tight1 : Bytes := Server.rectHead 0 0 4 3 7 ++ [0, 4, 6, 7, 8, 9]

/-- a client enters with ZRLE and asks for the screen; while it is encoded, a dot is put on it; the client asks for
more and gets the dot; then it selects Tight and asks for the screen -/
def inkSession : List ((Server.Op × Env × List Read) × Pic (Ch → Nat)) :=
  (enter [16] ++ [reads fullReq]).map (·, paper) ++
  [((.damage [⟨1, 2, 1, 1⟩], cursorEnv, []), ink), ((inkFrame zrle1, cursorEnv, []), ink),
   (reads (Msg.fbRequest 1 ⟨0, 0, 4, 3⟩).wire, ink), ((.written, cursorEnv, []), ink),
   ((inkFrame zrle2, cursorEnv, []), ink), ((.written, cursorEnv, []), ink),
   (reads (Msg.setEncodings 0 [7]).wire, ink), (reads fullReq, ink), ((inkFrame tight1, cursorEnv, []), ink),
   ((.written, cursorEnv, []), ink)]

theorem ink_easy : ∀ rc ∈ inkRecipes, Easy demoCodec rc.fb := by
  have h1 : Easy demoCodec paperFb := ⟨⟨by decide, by decide, by decide⟩, by decide, by decide, by decide, cpixelXrgb,
    by decide, .inr (.inr (by decide)), by decide⟩
  have h2 : Easy demoCodec inkFb := ⟨⟨by decide, by decide, by decide⟩, by decide, by decide, by decide, cpixelXrgb,
    by decide, .inr (.inr (by decide)), by decide⟩
  intro rc h
  unfold inkRecipes at h
  simp only [List.mem_cons, List.not_mem_nil, or_false] at h
  rcases h with rfl | rfl | rfl
  · exact h1
  · exact h2
  · exact h2

theorem ink_worked : Worked demoCodec [] inkSession (start demoSrv) { wide := demoCodec.wide } fun _ => {} :=
  worked_check ink_easy (by decide +kernel)

theorem ink_honest : Honest paper inkSession := by
  unfold inkSession
  refine honest_same ⟨fun px py hn => ?_, ?_⟩
  · refine ⟨_, rfl, _, List.mem_singleton.2 rfl, ?_⟩
    have hb : px < 4 ∧ py < 3 := by
      refine Decidable.byContradiction fun h => hn ?_
      unfold ink paper
      rw [if_neg h, if_neg h]
    have key : ∀ x ∈ List.range 4, ∀ y ∈ List.range 3, (∀ c ∈ chans, ink x y c = paper x y c) ∨ (x = 1 ∧ y = 2) := by
      decide +kernel
    rcases key px (List.mem_range.2 hb.1) py (List.mem_range.2 hb.2) with h | ⟨rfl, rfl⟩
    · refine absurd ?_ hn
      funext c
      exact h c (by cases c <;> decide)
    · decide
  · exact honest_same (c := ink) (ops := [(inkFrame zrle1, cursorEnv, []),
      reads (Msg.fbRequest 1 ⟨0, 0, 4, 3⟩).wire, (.written, cursorEnv, []), (inkFrame zrle2, cursorEnv, []),
      (.written, cursorEnv, []), reads (Msg.setEncodings 0 [7]).wire, reads fullReq, (inkFrame tight1, cursorEnv, []),
      (.written, cursorEnv, [])]) (rest := []) trivial

/-- what the client has at the place of the dot, by the theorem -/
example {s : St} {v : Viewer (Ch → Nat)} (e : watch [] inkSession (start demoSrv) { wide := demoCodec.wide } = .ok (s, v)) :
    ∃ b i ms, session s.log = some b ∧ readSession demoCodec.sizes b = some (i, ms) ∧
      (canvas demoCodec.dec ms).pix 1 2 = some (ink 1 2) := by
  have h : (match watch [] inkSession (start demoSrv) { wide := demoCodec.wide } with
    | .ok (s, v) => readableB demoCodec.sizes s.log && !s.cl.closed && !s.cl.freed && !v.lost &&
      !s.log.contains .encodeFail &&
      !s.cl.encoding && (session s.log).isSome && decide (¬ s.cl.damage.Has 1 2) && decide (Fits s.log 1 2) &&
      decide (Asked s.log 1 2)
    | _ => false) = true := by decide +kernel
  rw [e] at h
  simp only [Bool.and_eq_true, Bool.not_eq_true', decide_eq_true_eq] at h
  obtain ⟨⟨⟨⟨⟨⟨⟨⟨⟨h1, h2⟩, h3⟩, h4⟩, h5⟩, h6⟩, h7⟩, h8⟩, h9⟩, h10⟩ := h
  obtain ⟨b, hb⟩ := Option.isSome_iff_exists.1 h7
  have h5 : Eff.encodeFail ∉ s.log := fun hm => by simp [hm] at h5
  obtain ⟨i, ms, g1, -, g2⟩ := c99_session_partial (k := demoCodec) saneXrgb (by decide) e ink_honest ink_worked
    (readable_of h1) h2 h3 h4 h5 h9 h6 h8 hb
  exact ⟨b, i, ms, hb, g1, g2 h10⟩

/-- and by itself: red 3, green 2, blue 1 -/
example : (match watch [] inkSession (start demoSrv) { wide := demoCodec.wide } with
    | .ok (s, _) => ((session s.log).bind (readSession demoCodec.sizes)).any fun q =>
      ((canvas demoCodec.dec q.2).pix 1 2).map (fun a => chans.map a) == some [3, 2, 1] &&
      ((canvas demoCodec.dec q.2).pix 2 2).map (fun a => chans.map a) == some [5, 5, 5]
    | _ => false) = true := by decide +kernel

/-- the dot alone, as the ZRLE encoder writes it after the whole screen -/
theorem ink_given : Given demoCodec inkFb [⟨1, 2, 2, 3⟩] [⟨1, 2, 1, 1⟩] ink :=
  ⟨⟨by decide, by decide, by decide⟩, by decide, by decide, by decide, by decide, by decide,
    fun px py => boxes_has (r := [⟨1, 2, 1, 1⟩]), fun px py hx hy => if_pos ⟨hx, hy⟩⟩

example {z' : Zs} (h : zrleWork lots (fun _ _ => lots) 0 0 demoXrgb inkFb [⟨1, 2, 2, 3⟩]
      ⟨[1, 5, 5, 5], [1, 2, 3], [([1, 5, 5, 5], [1, 2, 3])]⟩ [⟨lots, 4, [4, 5], false⟩] = .ok (zrle2, 1, z')) :
    Draws demoCodec.sizes demoCodec.dec 16 [⟨0, 0, 4, 3, 16, [0, 0, 0, 3, 1, 2, 3]⟩]
      { demoFrame with nRects := 1, payload := zrle2 } ([⟨1, 2, 1, 1⟩] ++ [⟨1, 2, 1, 1⟩]) ink := by
  have hz : (match zrleWork lots (fun _ _ => lots) 0 0 demoXrgb inkFb [⟨1, 2, 2, 3⟩]
      ⟨[1, 5, 5, 5], [1, 2, 3], [([1, 5, 5, 5], [1, 2, 3])]⟩ [⟨lots, 4, [4, 5], false⟩] with
    | .ok (_, _, z') => z'.flushed.all fun q => demoCodec.inflate q.2 == q.1
    | _ => false) = true := by decide +kernel
  rw [h] at hz
  dsimp only at hz
  have hw : demoCodec.wide { demoFrame with nRects := 1, payload := zrle2 } = [⟨1, 2, 1, 1⟩] := by decide +kernel
  have := (c99_zrle_partial (k := demoCodec) saneXrgb cpixelXrgb ink_given (fun h => absurd h (by decide))
    (fun _ _ _ => rfl) (by decide) (f := { demoFrame with nRects := 1, payload := zrle2 }) h
    (fun q hq => by simpa using List.all_eq_true.1 hz q hq) (past := [⟨0, 0, 4, 3, 16, [0, 0, 0, 3, 1, 2, 3]⟩])
    (by decide) (by decide)).1
  rwa [hw] at this

/-- the dot by the Tight encoder: it writes the whole tile -/
example {z' : Fin 4 → Zs} (h : tightEncode lots (fun _ _ => lots) ⟨false, 0, fun _ => none⟩ 0 0 demoXrgb inkFb
      [⟨1, 2, 2, 3⟩] [⟨.ready, 0, []⟩] (fun _ => ⟨[], [], []⟩)
      (fun _ => [⟨lots, 12, [6], false⟩, ⟨lots, 12, [7, 8], false⟩, ⟨lots, 12, [9], false⟩]) [3, 0, 2, 1] =
        .ok (tight1, 1, z')) :
    Draws demoCodec.sizes demoCodec.dec 7 []
      { demoFrame with nRects := 1, payload := tight1 } ([⟨1, 2, 1, 1⟩] ++ [⟨0, 0, 4, 3⟩]) ink := by
  have hz : (match tightEncode lots (fun _ _ => lots) ⟨false, 0, fun _ => none⟩ 0 0 demoXrgb inkFb
      [⟨1, 2, 2, 3⟩] [⟨.ready, 0, []⟩] (fun _ => ⟨[], [], []⟩)
      (fun _ => [⟨lots, 12, [6], false⟩, ⟨lots, 12, [7, 8], false⟩, ⟨lots, 12, [9], false⟩]) [3, 0, 2, 1] with
    | .ok (_, _, z') => decide (∀ s, ∀ q ∈ (z' s).flushed, demoCodec.inflate q.2 = q.1)
    | _ => false) = true := by decide +kernel
  rw [h] at hz
  dsimp only at hz
  have hw : demoCodec.wide { demoFrame with nRects := 1, payload := tight1 } = [⟨0, 0, 4, 3⟩] := by decide +kernel
  rw [← hw]
  exact (c99_tight_partial (k := demoCodec) saneXrgb (.inr (.inr (by decide))) ink_given
    (fun t ht _ => (by decide : ∀ t ∈ rfcTiles inkFb.width inkFb.height, 12 ≤ t.w * t.h * tpixelSize demoXrgb) t ht)
    (fun _ _ _ => rfl) (.inl rfl) rfl (f := { demoFrame with nRects := 1, payload := tight1 }) h
    (of_decide_eq_true hz) (past := []) (fun _ => rfl) (fun _ => rfl)).1

/-- these are what the encoders write -/
example : (match zrleWork lots (fun _ _ => lots) 0 0 demoXrgb inkFb [⟨1, 2, 2, 3⟩]
      ⟨[1, 5, 5, 5], [1, 2, 3], [([1, 5, 5, 5], [1, 2, 3])]⟩ [⟨lots, 4, [4, 5], false⟩],
    tightEncode lots (fun _ _ => lots) ⟨false, 0, fun _ => none⟩ 0 0 demoXrgb inkFb
      [⟨1, 2, 2, 3⟩] [⟨.ready, 0, []⟩] (fun _ => ⟨[], [], []⟩)
      (fun _ => [⟨lots, 12, [6], false⟩, ⟨lots, 12, [7, 8], false⟩, ⟨lots, 12, [9], false⟩]) [3, 0, 2, 1] with
    | .ok (p, n, _), .ok (p', n', _) => p == zrle2 && n == 1 && p' == tight1 && n' == 1
    | _, _ => false) = true := by decide +kernel

end Verif.Wire
