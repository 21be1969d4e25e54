import Verif.Props.Zrle

/-!
# ZRLE frames (C42)
-/

namespace Verif.Enc
open Verif.Server (PixFmt be32i)
open Verif.Pixels
open Verif.Vec (Heap Vec Ok reserve_ok step_ok write_end bytes_length sizeT reserve)

/-! ## Tiles -/

theorem range_mul {α} (f : Nat → α) (k : Nat) : ∀ n, (List.range (n * k)).map f =
    (List.range n).flatMap fun j => (List.range k).map fun i => f (j * k + i)
  | 0 => by simp
  | n + 1 => by
    rw [Nat.succ_mul, List.range_add, List.map_append, range_mul f k n, List.range_succ, List.flatMap_append,
      List.map_map]
    simp [Function.comp_def]

/-- the encoder's tiles are those of the RFC -/
theorem tiles_eq (w h : Nat) :
    (List.range ((w + 63) / 64 * ((h + 63) / 64))).map (tileBox w h) = rfcTiles w h := by
  rw [Nat.mul_comm, range_mul]
  unfold rfcTiles
  rw [List.flatMap_def, List.flatMap_def]
  congr 1
  apply List.map_congr_left
  intro j hj
  apply List.map_congr_left
  intro i hi
  rw [List.mem_range] at hi hj
  have hm : (j * ((w + 63) / 64) + i) % ((w + 63) / 64) = i := by
    rw [Nat.add_comm, Nat.add_mul_mod_self_right, Nat.mod_eq_of_lt hi]
  have hd : (j * ((w + 63) / 64) + i) / ((w + 63) / 64) = j := by
    rw [Nat.add_comm, Nat.add_mul_div_right _ _ (by omega), Nat.div_eq_of_lt hi, Nat.zero_add]
  unfold tileBox
  simp only [hm, hd]
  congr 1
  · omega
  · omega
  · split <;> omega
  · split <;> omega

theorem rfcTiles_mem {w h : Nat} {t : Box} (ht : t ∈ rfcTiles w h) :
    t.x1 < t.x2 ∧ t.y1 < t.y2 ∧ t.x2 ≤ w ∧ t.y2 ≤ h ∧ t.w ≤ 64 ∧ t.h ≤ 64 := by
  unfold rfcTiles at ht
  rw [List.mem_flatMap] at ht
  obtain ⟨j, hj, ht⟩ := ht
  rw [List.mem_map] at ht
  obtain ⟨i, hi, rfl⟩ := ht
  rw [List.mem_range] at hi hj
  unfold Box.w Box.h
  simp only
  omega

/-- **C42** (part): every pixel of a rectangle is in exactly one of its tiles -/
theorem c42_partition (w h x y : Nat) (hx : x < w) (hy : y < h) :
    ∃ t ∈ rfcTiles w h, t.has x y ∧ ∀ t' ∈ rfcTiles w h, t'.has x y → t' = t := by
  refine ⟨⟨64 * (x / 64), 64 * (y / 64), min w (64 * (x / 64) + 64), min h (64 * (y / 64) + 64)⟩, ?_, ?_, ?_⟩
  · unfold rfcTiles
    rw [List.mem_flatMap]
    refine ⟨y / 64, List.mem_range.2 (by omega), ?_⟩
    rw [List.mem_map]
    exact ⟨x / 64, List.mem_range.2 (by omega), rfl⟩
  · unfold Box.has
    simp only
    omega
  · intro t' ht' hh
    unfold rfcTiles at ht'
    rw [List.mem_flatMap] at ht'
    obtain ⟨j, -, ht'⟩ := ht'
    rw [List.mem_map] at ht'
    obtain ⟨i, -, rfl⟩ := ht'
    unfold Box.has at hh
    simp only at hh
    have hi : i = x / 64 := by omega
    have hj : j = y / 64 := by omega
    rw [hi, hj]

example : (rfcTiles 100 70).length = 4 ∧ (rfcTiles 100 70).getLast? = some ⟨64, 64, 100, 70⟩ := by decide +kernel

theorem copyRows_eq {fb : Fb} {w : Nat} : ∀ (n off : Nat),
    (∀ j, j < n → off + j * (fb.stride * pixelSize fb.f) + w * pixelSize fb.f ≤ fb.mem.length) →
    copyRows (pixelSize fb.f) fb.stride w fb.mem off n = .ok ((List.range n).flatMap fun j => (List.range w).map fun i =>
      (fb.mem.drop (off + j * (fb.stride * pixelSize fb.f) + i * pixelSize fb.f)).take (pixelSize fb.f))
  | 0, _, _ => rfl
  | n + 1, off, h => by
    have h0 := h 0 (by omega)
    rw [copyRows, load_eq (by omega), Outcome.bind_ok, copyRows_eq n _ (fun j hj => by
      have := h (j + 1) (by omega)
      rw [Nat.succ_mul] at this
      omega), Outcome.bind_ok, List.range_succ_eq_map, List.flatMap_cons, List.flatMap_map]
    simp only [Nat.zero_mul, Nat.add_zero, Nat.succ_mul]
    congr 3
    funext j
    congr 1
    funext i
    congr 2
    omega

theorem map_cells {α} (t : Box) (g : Nat × Nat → α) : t.cells.map g =
    (List.range t.h).flatMap fun j => (List.range t.w).map fun i => g (t.x1 + i, t.y1 + j) := by
  unfold Box.cells
  rw [List.map_flatMap]
  simp only [List.map_map, Function.comp_def]

theorem cells_length (t : Box) : t.cells.length = t.w * t.h := by
  unfold Box.cells
  rw [List.length_flatMap]
  simp [List.map_const', Nat.mul_comm]

/-- a tile is copied -/
theorem copyTile_eq {fb : Fb} (hf : fb.Ok) {b t : Box} (hb : b.In fb) (ht : t ∈ rfcTiles b.w b.h) :
    int ((b.x1 + t.x1) * pixelSize fb.f + (b.y1 + t.y1) * fb.stride * pixelSize fb.f) =
      .ok (((b.y1 + t.y1) * fb.stride + (b.x1 + t.x1)) * pixelSize fb.f) ∧
    copyTile (pixelSize fb.f) fb.stride t.w t.h fb.mem (((b.y1 + t.y1) * fb.stride + (b.x1 + t.x1)) * pixelSize fb.f) =
      .ok (tilePixels fb b t) := by
  obtain ⟨t1, t2, t3, t4, t5, t6⟩ := rfcTiles_mem ht
  obtain ⟨b1, b2, b3, b4⟩ := hb
  have hst := hf.stride
  have hmem := hf.mem
  have hsm := hf.small
  have hp := pixelSize_le fb.f
  unfold Box.w at t3 t5
  unfold Box.h at t4 t6
  have hrow : ∀ j, j < t.h → ((b.y1 + t.y1 + j) * fb.stride + (b.x1 + t.x1) + t.w) * pixelSize fb.f ≤
      fb.height * fb.stride * pixelSize fb.f := by
    intro j hj
    unfold Box.h at hj
    apply Nat.mul_le_mul_right
    have : (b.y1 + t.y1 + j + 1) * fb.stride ≤ fb.height * fb.stride := Nat.mul_le_mul_right _ (by omega)
    rw [Nat.succ_mul] at this
    unfold Box.w
    omega
  have hint : fb.height * fb.stride * pixelSize fb.f ≤ fb.height * fb.stride * 4 := Nat.mul_le_mul_left _ hp
  have h0 := hrow 0 (by unfold Box.h; omega)
  rw [Nat.add_zero, Nat.add_mul] at h0
  constructor
  · have e : (b.x1 + t.x1) * pixelSize fb.f + (b.y1 + t.y1) * fb.stride * pixelSize fb.f =
        ((b.y1 + t.y1) * fb.stride + (b.x1 + t.x1)) * pixelSize fb.f := by
      rw [Nat.add_mul ((b.y1 + t.y1) * fb.stride), Nat.add_comm]
    rw [e]
    exact if_pos (by omega)
  · unfold copyTile
    rw [if_neg]
    · rw [copyRows_eq]
      · unfold tilePixels
        rw [map_cells]
        congr 3
        funext j
        congr 1
        funext i
        unfold Fb.pixel
        simp only
        congr 2
        rw [← Nat.mul_assoc, ← Nat.add_mul, ← Nat.add_mul]
        congr 1
        rw [← Nat.add_assoc b.y1, Nat.add_mul _ j]
        omega
      · intro j hj
        have := hrow j hj
        rw [Nat.add_mul] at this
        have e : ((b.y1 + t.y1) * fb.stride + (b.x1 + t.x1)) * pixelSize fb.f + j * (fb.stride * pixelSize fb.f) =
            ((b.y1 + t.y1 + j) * fb.stride + (b.x1 + t.x1)) * pixelSize fb.f := by
          rw [← Nat.mul_assoc, ← Nat.add_mul]
          congr 1
          rw [Nat.add_mul _ j]
          omega
        omega
    · have h1 : t.w * t.h ≤ 64 * 64 := Nat.mul_le_mul (by unfold Box.w; omega) (by unfold Box.h; omega)
      have : t.w * t.h * pixelSize fb.f ≤ 64 * 64 * 4 := Nat.mul_le_mul h1 hp
      omega

/-! ## Compression -/

/-- what will still be given -/
def total (as : List Ans) : Nat := (as.map fun a => a.give.length).sum

/-- everything is taken, and what is given is appended -/
theorem zrleDeflate_eq {flush : Bool} : ∀ (as : List Ans) (inp : Bytes) (v : Vec) (z : Zs), Ok v →
    v.len + total as < sizeT / 4 →
    (∀ why, zrleDeflate flush as inp v z ≠ .ub why) ∧
    ∀ v' z' as' r, zrleDeflate flush as inp v z = .ok (v', z', as', r) →
      Ok v' ∧ v'.len + total as' ≤ v.len + total as ∧ (r = true →
        ∃ c, v'.bytes = v.bytes ++ c ∧ z'.inp = z.inp ++ inp ∧ z'.out = z.out ++ c ∧
          z'.flushed = if flush then z.flushed ++ [(z'.inp, z'.out)] else z.flushed)
  | [], _, _, _, _, _ => by rw [zrleDeflate]; exact ⟨nofun, nofun⟩
  | a :: as, inp, v, z, hv, hl => by
    have ht : total (a :: as) = a.give.length + total as := rfl
    rw [ht] at hl ⊢
    generalize e : (if v.len = v.cap then reserve a.heap ((v.cap * 2) % sizeT) v else (v, true)) = q
    obtain ⟨v1, r1⟩ := q
    have hv1 : Ok v1 ∧ v1.len = v.len ∧ v1.bytes = v.bytes := by
      split at e
      · obtain ⟨g1, g2, g3, -⟩ := reserve_ok hv e
        exact ⟨g1, g2, g3⟩
      · cases e; exact ⟨hv, rfl, rfl⟩
    obtain ⟨o1, l1, y1⟩ := hv1
    rw [zrleDeflate, e]
    simp only
    cases r1 with
    | false =>
      simp only [if_true]
      refine ⟨nofun, fun v' z' as' r h => ?_⟩
      cases h
      exact ⟨o1, by omega, by simp⟩
    | true =>
      simp only [Bool.true_eq_false, if_false]
      split
      · exact ⟨nofun, nofun⟩
      · rename_i hok
        split
        · refine ⟨nofun, fun v' z' as' r h => ?_⟩
          cases h
          exact ⟨o1, by omega, by simp⟩
        · have hlen := o1.len
          obtain ⟨d, w1, w2, w3⟩ := write_end o1 (b := a.give) (by omega)
          rw [w1, Outcome.bind_ok]
          have o2 : Ok { v1 with data := d, len := v1.len + a.give.length } := ⟨w2, by simp only; omega⟩
          have y2 : Vec.bytes { v1 with data := d, len := v1.len + a.give.length } = v.bytes ++ a.give := by
            rw [← y1, ← w3]; rfl
          split
          · rename_i hfull
            obtain ⟨g1, g2⟩ := zrleDeflate_eq (flush := flush) as (inp.drop a.take) _
              (z.after flush (v1.cap - v1.len == a.give.length) (inp.take a.take) a.give) o2 (by simp only; omega)
            refine ⟨g1, fun v' z' as' r h => ?_⟩
            obtain ⟨k1, k2, k3⟩ := g2 v' z' as' r h
            refine ⟨k1, by simp only at k2; omega, fun hr => ?_⟩
            obtain ⟨c, c1, c2, c3, c4⟩ := k3 hr
            refine ⟨a.give ++ c, by rw [c1, y2, List.append_assoc], ?_, by rw [c3, ← List.append_assoc]; rfl, ?_⟩
            · rw [c2]
              unfold Zs.after
              simp only
              rw [List.append_assoc, List.take_append_drop]
            · rw [c4]
              unfold Zs.after
              simp only [hfull, Bool.not_true, Bool.and_false, Bool.false_eq_true, if_false]
          · rename_i hfull
            split
            · rename_i hdrop
              refine ⟨nofun, fun v' z' as' r h => ?_⟩
              cases h
              refine ⟨o2, by simp only; omega, fun _ => ⟨a.give, y2, ?_, rfl, by
                unfold Zs.after
                simp only [hfull, Bool.not_false, Bool.and_true]⟩⟩
              unfold Zs.after
              simp only
              have : inp.take a.take = inp := by
                apply List.take_of_length_le
                rw [List.length_drop] at hdrop
                omega
              rw [this]
            · exact ⟨nofun, nofun⟩

/-! ## Rectangles -/

/-- the palette of each tile fits on the stack -/
def PaletteFits (dst : PixFmt) (fb : Fb) (b : Box) : Prop :=
  ∀ t ∈ rfcTiles b.w b.h, ∀ k, Colours (tilePixels fb b t) k → k ≤ 16 → bytesPerCpixel dst * k ≤ 48

theorem tileBox_mem {w h i : Nat} (hi : i < (w + 63) / 64 * ((h + 63) / 64)) : tileBox w h i ∈ rfcTiles w h := by
  rw [← tiles_eq]
  exact List.mem_map_of_mem (List.mem_range.2 hi)

/-- the tiles of a box one after the other -/
theorem zrleTiles_eq {dst src : PixFmt} {fb : Fb} (hf : fb.Ok) {b : Box} (hb : b.In fb) {one : Bytes → Bytes}
    (hs : src.bpp = 8 * pixelSize fb.f)
    (h3 : ∀ pxs, toCpixel dst src (bytesPerCpixel dst) pxs = .ok (pxs.flatMap one))
    (h4 : ∀ p, (one p).length = bytesPerCpixel dst) (hpal : PaletteFits dst fb b) (m : Nat → Heap) :
    ∀ (n i : Nat) (tile out : Vec) (z : Zs) (as : List Ans), i + n ≤ (b.w + 63) / 64 * ((b.h + 63) / 64) →
      TileVec dst tile → Ok out → out.len + total as < sizeT / 4 →
      (∀ why, zrleTiles m dst src fb b n i tile out z as ≠ .ub why) ∧
      ∀ out' z' as' r, zrleTiles m dst src fb b n i tile out z as = .ok (out', z', as', r) →
        Ok out' ∧ out'.len + total as' ≤ out.len + total as ∧ (r = true →
          ∃ u c, out'.bytes = out.bytes ++ c ∧ z'.inp = z.inp ++ u ∧ z'.out = z.out ++ c ∧
            (0 < n → z'.flushed = z.flushed ++ [(z'.inp, z'.out)]) ∧
            ∀ rest, decodeTiles (bytesPerCpixel dst) ((List.range' i n).map (tileBox b.w b.h)) (u ++ rest) =
              some ((List.range' i n).map fun i => (tilePixels fb b (tileBox b.w b.h i)).map one, rest)) := by
  intro n
  induction n with
  | zero =>
    intro i tile out z as _ _ ho _
    refine ⟨nofun, fun out' z' as' r h => ?_⟩
    cases h
    exact ⟨ho, Nat.le_refl _, fun _ => ⟨[], [], by simp, by simp, by simp, by omega, fun rest => rfl⟩⟩
  | succ n ih =>
    intro i tile out z as hi ht ho hl
    have hmem := tileBox_mem (w := b.w) (h := b.h) (i := i) (by omega)
    obtain ⟨g1, g2⟩ := copyTile_eq hf hb hmem
    obtain ⟨t1, t2, -, -, t5, t6⟩ := rfcTiles_mem hmem
    have hpl : (tilePixels fb b (tileBox b.w b.h i)).length =
        (tileBox b.w b.h i).w * (tileBox b.w b.h i).h := by
      unfold tilePixels; rw [List.length_map, cells_length]
    have hle : (tileBox b.w b.h i).w * (tileBox b.w b.h i).h ≤ 64 * 64 := Nat.mul_le_mul t5 t6
    have hge : 1 * 1 ≤ (tileBox b.w b.h i).w * (tileBox b.w b.h i).h :=
      Nat.mul_le_mul (Nat.sub_pos_of_lt t1) (Nat.sub_pos_of_lt t2)
    have hne : tilePixels fb b (tileBox b.w b.h i) ≠ [] := by
      intro h; rw [h] at hpl; simp at hpl; omega
    obtain ⟨b1, b4, -⟩ := toCpixel_one (fun pxs => ⟨_, h3 pxs⟩)
    have hcap : tile.cap < sizeT := by
      rw [ht.cap]
      unfold tileCap
      have : bytesPerCpixel dst * 64 * 64 ≤ 4 * 64 * 64 := Nat.mul_le_mul_right _ (Nat.mul_le_mul_right _ b4)
      have : sizeT = 18446744073709551616 := rfl
      omega
    obtain ⟨tile', e, o, c, y⟩ := (zrleTile_eq (m := m i) ht.ok h3 h4 ⟨b1, b4⟩ hne (by omega)
      (Nat.le_of_eq ht.cap.symm) hcap).1 (hpal _ hmem)
    have ht' : TileVec dst tile' := ⟨o, by rw [c, ht.cap]⟩
    obtain ⟨d1, d2⟩ := zrleDeflate_eq (flush := n == 0) as tile'.bytes out z ho hl
    have hrun : zrleTiles m dst src fb b (n + 1) i tile out z as = (do
        let (out, z, as, r) ← zrleDeflate (n == 0) as tile'.bytes out z
        if r = false then .ok (out, z, as, false)
        else zrleTiles m dst src fb b n (i + 1) tile' out z as) := by
      rw [zrleTiles]
      simp only
      rw [show src.bpp / 8 = pixelSize fb.f by omega, g1, Outcome.bind_ok, g2, Outcome.bind_ok, e, Outcome.bind_ok]
    rw [hrun]
    cases hd : zrleDeflate (n == 0) as tile'.bytes out z with
    | ub why => exact absurd hd (d1 why)
    | abort why => exact ⟨nofun, nofun⟩
    | ok q =>
      obtain ⟨out1, z1, as1, r1⟩ := q
      obtain ⟨k1, k2, k3⟩ := d2 _ _ _ _ hd
      rw [Outcome.bind_ok]
      simp only
      cases r1 with
      | false =>
        refine ⟨nofun, fun out' z' as' r h => ?_⟩
        cases h
        exact ⟨k1, k2, by simp⟩
      | true =>
        simp only [Bool.true_eq_false, if_false]
        obtain ⟨f1, f2⟩ := ih (i + 1) tile' out1 z1 as1 (by omega) ht' k1 (by omega)
        refine ⟨f1, fun out' z' as' r h => ?_⟩
        obtain ⟨j1, j2, j3⟩ := f2 _ _ _ _ h
        refine ⟨j1, by omega, fun hr => ?_⟩
        obtain ⟨c, c1, c2, c3, c4⟩ := k3 rfl
        obtain ⟨u', c', x1, x2, x3, x4, x5⟩ := j3 hr
        refine ⟨tile'.bytes ++ u', c ++ c', by rw [x1, c1, List.append_assoc], by rw [x2, c2, List.append_assoc],
          by rw [x3, c3, List.append_assoc], fun _ => ?_, fun rest => ?_⟩
        · rcases Nat.eq_zero_or_pos n with h0 | h0
          · subst h0
            cases h
            simpa using c4
          · rw [x4 h0, c4, if_neg (by simp; omega)]
        · rw [List.range'_succ, List.map_cons, List.map_cons, decodeTiles, y, List.append_assoc,
            decodeTile_eq h4 hne hpl.symm]
          simp only [Option.bind_eq_bind, Option.bind_some]
          rw [x5 rest]
          rfl

theorem be32i_zrle : be32i Server.encZrle = [0, 0, 0, 16] := by decide

/-- one rectangle -/
theorem zrleBox_eq {m : Nat → Heap} (hm : ∀ i, Plenty (m i)) {xpos ypos : Nat} {dst src : PixFmt} {fb : Fb} (hf : fb.Ok)
    {b : Box} (hb : b.In fb) {one : Bytes → Bytes} (hs : src.bpp = 8 * pixelSize fb.f)
    (h3 : ∀ pxs, toCpixel dst src (bytesPerCpixel dst) pxs = .ok (pxs.flatMap one))
    (h4 : ∀ p, (one p).length = bytesPerCpixel dst) (hpal : PaletteFits dst fb b)
    {out : Vec} {z : Zs} {as : List Ans} (ho : Ok out) (hl : out.len + 16 + total as < sizeT / 4) :
    (∀ why, zrleBox m xpos ypos dst src fb b out z as ≠ .ub why) ∧
    ∀ out' z' as' r, zrleBox m xpos ypos dst src fb b out z as = .ok (out', z', as', r) →
      Ok out' ∧ out'.len + total as' ≤ out.len + 16 + total as ∧ (r = true →
        ∃ u c, out'.bytes = out.bytes ++ zrleRect xpos ypos b c ∧ c.length ≤ total as ∧
          z' = z.put u c ∧
          decodeTiles (bytesPerCpixel dst) (rfcTiles b.w b.h) u =
            some ((rfcTiles b.w b.h).map fun t => (tilePixels fb b t).map one, [])) := by
  have hsz : sizeT = 18446744073709551616 := rfl
  unfold zrleBox
  generalize e : Vec.init (m 0) (tileCap dst) = q
  obtain ⟨tile, r⟩ := q
  have hz : Ok { data := [], len := 0, cap := 0 } := ⟨rfl, Nat.le_refl _⟩
  obtain ⟨k1, -, -, -, k4, k5⟩ := reserve_ok hz e
  cases r with
  | false =>
    have := hm 0 (tileCap dst)
    rw [k5 rfl] at this
    cases this
  | true =>
    have htile : TileVec dst tile := by
      refine ⟨k1, ?_⟩
      unfold Vec.init reserve at e
      split at e
      · rename_i h0
        have h0 : tileCap dst ≤ 0 := h0
        unfold tileCap at h0
        omega
      · split at e
        · cases e
        · cases e; rfl
    have hhead : (rectHead Server.encZrle (xpos + b.x1) (ypos + b.y1) b.w b.h).length = 12 := rfl
    rcases step_ok (o := .append (m 1) (rectHead Server.encZrle (xpos + b.x1) (ypos + b.y1) b.w b.h)) ho (by
      show out.len + _ < _; rw [Vec.Op.size, hhead]; omega) with ⟨_, h0, -⟩ | ⟨v1, r, e1, g1, g2, g3, g4⟩
    · cases h0
    have hr : r = true := g4 (hm 1)
    subst hr
    have g3 : v1.len ≤ out.len + 12 := g3
    have g2 : v1.bytes = out.bytes ++ rectHead Server.encZrle (xpos + b.x1) (ypos + b.y1) b.w b.h := g2
    rcases step_ok (o := .appendZero (m 2) 4) g1 (by
      show v1.len + 4 < _; omega) with ⟨_, h0, -⟩ | ⟨v2, r, e2, i1, i2, i3, i4⟩
    · cases h0
    have hr : r = true := i4 (hm 2)
    subst hr
    have i3 : v2.len ≤ v1.len + 4 := i3
    have i2 : v2.bytes = v1.bytes ++ List.replicate 4 0 := i2
    have l2 : v2.len = v1.len + 4 := by
      have := Adds.len g1 i1 i2
      simpa using this
    obtain ⟨f1, f2⟩ := zrleTiles_eq hf hb hs h3 h4 hpal (fun i => m (i + 3))
      ((b.w + 63) / 64 * ((b.h + 63) / 64)) 0 tile v2 z as (by omega) htile i1 (by omega)
    simp only
    rw [e1, Outcome.bind_ok]
    simp only [Bool.true_eq_false, if_false]
    rw [e2, Outcome.bind_ok]
    simp only
    cases ht : zrleTiles (fun i => m (i + 3)) dst src fb b ((b.w + 63) / 64 * ((b.h + 63) / 64)) 0 tile v2 z as with
    | ub why => exact absurd ht (f1 why)
    | abort why => exact ⟨nofun, nofun⟩
    | ok q =>
      obtain ⟨v3, z3, as3, r3⟩ := q
      obtain ⟨j1, j2, j3⟩ := f2 _ _ _ _ ht
      rw [Outcome.bind_ok]
      simp only
      cases r3 with
      | false =>
        refine ⟨nofun, fun out' z' as' r h => ?_⟩
        cases h
        exact ⟨j1, by omega, by simp⟩
      | true =>
        simp only [Bool.true_eq_false, if_false]
        obtain ⟨u, c, x1, x2, x3, x4, x5⟩ := j3 rfl
        have l3 := Adds.len i1 j1 x1
        have hlen := j1.len
        have hmem := j1.mem
        -- the length is written into its place
        have hw := writeAt_ok (dst := v3.data) (i := v1.len) (src := be32 (v3.len - v1.len - 4))
          (by show v1.len + 4 ≤ _; omega)
        rw [hw, Outcome.bind_ok]
        refine ⟨nofun, fun out' z' as' r h => ?_⟩
        cases h
        have hn : 0 < (b.w + 63) / 64 * ((b.h + 63) / 64) := by
          obtain ⟨q1, q2, -, -⟩ := hb
          exact Nat.mul_pos (by unfold Box.w; omega) (by unfold Box.h; omega)
        refine ⟨⟨?_, hlen⟩, by simp only; omega, fun _ => ⟨u, c, ?_, ?_, ?_, ?_⟩⟩
        · simp only [List.length_append, List.length_take, List.length_drop]
          have : (be32 (v3.len - v1.len - 4)).length = 4 := rfl
          omega
        · -- the bytes
          have hb3 : v3.bytes = v1.bytes ++ ([0, 0, 0, 0] ++ c) := by rw [x1, i2, List.append_assoc]; rfl
          have l1 := bytes_length g1
          have hd : v3.data = v1.bytes ++ ([0, 0, 0, 0] ++ (c ++ v3.data.drop v3.len)) := by
            have : v3.data = v3.bytes ++ v3.data.drop v3.len := (List.take_append_drop _ _).symm
            rw [hb3] at this
            simpa [List.append_assoc] using this
          show List.take v3.len _ = _
          have h1 : v3.data.take v1.len = v1.bytes := by rw [hd, ← l1, List.take_left]
          have h2 : v3.data.drop (v1.len + 4) = c ++ v3.data.drop v3.len := by
            have := congrArg (List.drop (v1.len + 4)) hd
            rw [this, ← List.drop_drop, ← l1, List.drop_left]
            rfl
          have h4 : (be32 (v3.len - v1.len - 4)).length = 4 := rfl
          rw [h4, h1, h2, show v3.len - v1.len - 4 = c.length by omega]
          have h5 : v1.bytes ++ be32 c.length ++ (c ++ v3.data.drop v3.len) =
              (v1.bytes ++ be32 c.length ++ c) ++ v3.data.drop v3.len := by simp [List.append_assoc]
          rw [h5, show v3.len = (v1.bytes ++ be32 c.length ++ c).length by
            simp only [List.length_append, l1]
            have : (be32 c.length).length = 4 := rfl
            omega, List.take_left, g2]
          unfold zrleRect rectHead
          rw [be32i_zrle]
          simp [List.append_assoc]
        · omega
        · obtain ⟨zi, zo, zr⟩ := z3
          simp only at x2 x3 x4
          rw [x2, x3, x4 hn, x2, x3]
          rfl
        · have := x5 []
          rw [List.append_nil, ← List.range_eq_range', tiles_eq] at this
          rw [this]
          congr 2
          rw [← tiles_eq, List.map_map]
          rfl

/-- all rectangles -/
theorem zrleBoxes_eq {m : Nat → Nat → Heap} (hm : ∀ i j, Plenty (m i j)) {xpos ypos : Nat} {dst src : PixFmt} {fb : Fb}
    (hf : fb.Ok) {one : Bytes → Bytes} (hs : src.bpp = 8 * pixelSize fb.f)
    (h3 : ∀ pxs, toCpixel dst src (bytesPerCpixel dst) pxs = .ok (pxs.flatMap one))
    (h4 : ∀ p, (one p).length = bytesPerCpixel dst) :
    ∀ (bs : List Box) (i : Nat) (v : Vec) (z : Zs) (as : List Ans), (∀ b ∈ bs, b.In fb) → (∀ b ∈ bs, PaletteFits dst fb b) →
      Ok v → v.len + 16 * bs.length + total as < sizeT / 4 → total as < 4294967296 →
      (∀ why, zrleBoxes m xpos ypos dst src fb i bs v z as ≠ .ub why) ∧
      ∀ v' z' as' r, zrleBoxes m xpos ypos dst src fb i bs v z as = .ok (v', z', as', r) → r = true →
        ∃ p, v'.bytes = v.bytes ++ p ∧ ZrleFrame (bytesPerCpixel dst) one fb xpos ypos bs z p z' := by
  intro bs
  induction bs with
  | nil =>
    intro i v z as _ _ hv _ _
    refine ⟨nofun, fun v' z' as' r h hr => ?_⟩
    cases h
    exact ⟨[], by simp, rfl, rfl⟩
  | cons b bs ih =>
    intro i v z as hb hp hv hl ht
    rw [List.length_cons] at hl
    obtain ⟨d1, d2⟩ := zrleBox_eq (hm i) (xpos := xpos) (ypos := ypos) hf (hb b (by simp)) hs h3 h4 (hp b (by simp))
      (z := z) (as := as) hv (by omega)
    rw [zrleBoxes]
    cases he : zrleBox (m i) xpos ypos dst src fb b v z as with
    | ub why => exact absurd he (d1 why)
    | abort why => exact ⟨nofun, nofun⟩
    | ok q =>
      obtain ⟨v1, z1, as1, r1⟩ := q
      obtain ⟨k1, k2, k3⟩ := d2 _ _ _ _ he
      rw [Outcome.bind_ok]
      simp only
      cases r1 with
      | false =>
        refine ⟨nofun, fun v' z' as' r h hr => ?_⟩
        cases h
        cases hr
      | true =>
        simp only [Bool.true_eq_false, if_false]
        obtain ⟨u, c, x1, x2, x3, x4⟩ := k3 rfl
        have hlen := Adds.len hv k1 x1
        have hrect : (zrleRect xpos ypos b c).length = 16 + c.length := by
          unfold zrleRect
          rw [List.length_append]
          rfl
        obtain ⟨f1, f2⟩ := ih (i + 1) v1 z1 as1 (fun b' hb' => hb b' (by simp [hb'])) (fun b' hb' => hp b' (by simp [hb']))
          k1 (by omega) (by omega)
        refine ⟨f1, fun v' z' as' r h hr => ?_⟩
        obtain ⟨p, p1, p2⟩ := f2 _ _ _ _ h hr
        refine ⟨zrleRect xpos ypos b c ++ p, by rw [p1, x1, List.append_assoc], u, c, p, rfl, by omega, x4, ?_⟩
        rw [← x3]
        exact p2

/-- **C42** (part): whatever zlib answers, a frame that is finished is, for each rectangle of the damage,
or one around all of them if there are more than a message can have, its header and the compressed data
of its tiles of 64 by 64 pixels from left to right and from top to bottom, which are read as the pixels
of the framebuffer there; the rectangles are announced and every damaged pixel is in one of them.
Nothing is read or written out of bounds meanwhile.

What is missing: formats as for C41, palettes as for C43, allocations that fail, framebuffers of 2 GB
and more, and compressed data of 4 GB and more. -/
theorem c42_zrle_partial {m0 : Heap} {m : Nat → Nat → Heap} (hm : ∀ i j, Plenty (m i j)) {xpos ypos : Nat}
    {fb : Fb} (hf : fb.Ok) (hp : Plain fb.f) {dst : PixFmt} {l : Layout} (hd : Sane dst l) (hc : CpixelOk dst l)
    {bs : List Box} (hb : ∀ b ∈ bs, b.In fb)
    (hpal : cpixelSize dst l = 4 → bs.length < 65536 ∧ ∀ b ∈ bs, ∀ t ∈ rfcTiles b.w b.h, ∀ k,
      Colours (tilePixels fb b t) k → k ≤ 12 ∨ 16 < k)
    {z : Zs} {as : List Ans} (has : total as < 4294967296) :
    (∀ why, zrleWork m0 m xpos ypos dst fb bs z as ≠ .ub why) ∧
    ∀ p n z', zrleWork m0 m xpos ypos dst fb bs z as = .ok (p, n, z') →
      ∃ one : Bytes → Bytes, (∀ px, SameCpixel fb.f dst l px (one px)) ∧
        ∃ rects : List Box, (∀ b ∈ rects, b.In fb) ∧ rects.length = n ∧ n < 65536 ∧ (bs.length < 65536 → rects = bs) ∧
          (∀ b ∈ bs, ∀ x y, b.has x y → ∃ r ∈ rects, r.has x y) ∧
          ZrleFrame (cpixelSize dst l) one fb xpos ypos rects z p z' := by
  obtain ⟨src, h1, h2, one, h3, h4⟩ := c64_cpixel_partial hp hd hc
  have hlen : ∀ p, (one p).length = bytesPerCpixel dst := fun p => by rw [(h4 p).1, h2]
  obtain ⟨src', h1', -, -, -, -, hs⟩ := plain_table hp
  rw [h1] at h1'
  cases h1'
  have hpl := pick_length bs
  have hsz : sizeT = 18446744073709551616 := rfl
  have hin := pick_in hb
  obtain ⟨b1, b4, -⟩ := toCpixel_one (fun pxs => ⟨_, h3 pxs⟩)
  have hfit : ∀ b ∈ pick bs, PaletteFits dst fb b := by
    intro b hb' t ht k hk hk16
    by_cases h4 : bytesPerCpixel dst = 4
    · obtain ⟨hl, hpal⟩ := hpal (by omega)
      have e : pick bs = bs := if_neg (by omega)
      rw [e] at hb'
      have := hpal b hb' t ht k hk
      rw [h4]; omega
    · have : bytesPerCpixel dst * k ≤ 3 * 16 := Nat.mul_le_mul (by omega) hk16
      omega
  unfold zrleWork
  generalize e : Vec.init m0 (fb.stride * fb.height * pixelSize fb.f) = q
  obtain ⟨v, r⟩ := q
  have hz : Ok { data := [], len := 0, cap := 0 } := ⟨rfl, Nat.le_refl _⟩
  obtain ⟨k1, k2, k3, -⟩ := reserve_ok hz e
  have k2 : v.len = 0 := k2
  have k3 : v.bytes = [] := k3
  cases r with
  | false => exact ⟨nofun, nofun⟩
  | true =>
    simp only [h1]
    obtain ⟨f1, f2⟩ := zrleBoxes_eq hm (xpos := xpos) (ypos := ypos) hf hs h3 hlen (pick bs) 0 v z as hin hfit k1
      (by omega) has
    cases he : zrleBoxes m xpos ypos dst src fb 0 (pick bs) v z as with
    | ub why => exact absurd he (f1 why)
    | abort why => exact ⟨nofun, nofun⟩
    | ok q =>
      obtain ⟨v1, z1, as1, r1⟩ := q
      rw [Outcome.bind_ok]
      simp only
      cases r1 with
      | false => exact ⟨nofun, nofun⟩
      | true =>
        simp only [Bool.true_eq_false, if_false]
        refine ⟨nofun, fun p n z' h => ?_⟩
        cases h
        obtain ⟨p, p1, p2⟩ := f2 _ _ _ _ he rfl
        refine ⟨one, h4, pick bs, hin, rfl, by omega, fun hl => if_neg (by omega), fun b hb' x y hx => pick_has hb' hx, ?_⟩
        rw [p1, k3, List.nil_append, ← h2]
        exact p2

/-- what zlib might do: take everything and give a few bytes, filling the room once -/
def demoAnswers : List Ans :=
  [⟨fun _ => none, 4, [1, 2, 3], false⟩, ⟨fun _ => some fun _ => 0, 7, [4, 5], false⟩, ⟨fun _ => none, 0, [6], false⟩]

example := c42_zrle_partial (m0 := fun _ => some fun _ => 0) (m := fun _ _ _ => some fun _ => 0) (fun _ _ _ => rfl)
  (xpos := 5) (ypos := 7) demoFb_ok (by decide) saneXrgb cpixelXrgb (bs := [⟨0, 0, 2, 1⟩, ⟨2, 0, 3, 2⟩]) (by decide)
  (fun h => absurd h (by decide)) (z := ⟨[], [], []⟩) (as := demoAnswers) (by decide)

/-- two rectangles: two pixels in three bytes each, and again -/
example : (zrleWork (fun _ => some fun _ => 0) (fun _ _ _ => some fun _ => 0) 5 7 demoXrgb demoFb
    [⟨0, 0, 2, 1⟩, ⟨2, 0, 3, 2⟩] ⟨[], [], []⟩
    [⟨fun _ => none, 7, [1, 2, 3], false⟩, ⟨fun _ => none, 7, [4, 5], false⟩] >>= fun q => .ok (q.1, q.2.1, q.2.2)) =
    .ok ([0, 5, 0, 7, 0, 2, 0, 1, 0, 0, 0, 16, 0, 0, 0, 3, 1, 2, 3] ++
      [0, 7, 0, 7, 0, 1, 0, 2, 0, 0, 0, 16, 0, 0, 0, 2, 4, 5], 2,
      ⟨[0, 0, 8, 16, 32, 40, 48, 0, 64, 72, 80, 192, 200, 208], [1, 2, 3, 4, 5],
        [([0, 0, 8, 16, 32, 40, 48], [1, 2, 3]),
         ([0, 0, 8, 16, 32, 40, 48, 0, 64, 72, 80, 192, 200, 208], [1, 2, 3, 4, 5])]⟩) := by decide +kernel

/-! ## Framebuffers of 2 GB and more -/

theorem zrleTiles_small {m : Nat → Heap} {dst src : PixFmt} {fb : Fb} {b : Box} : ∀ (n i : Nat) (tile out : Vec) (z : Zs)
    (as : List Ans) (r : Vec × Zs × List Ans), zrleTiles m dst src fb b n i tile out z as = .ok (r.1, r.2.1, r.2.2, true) →
    ∀ k, i ≤ k → k < i + n → (b.y1 + k / ((b.w + 63) / 64) * 64) * fb.stride * (src.bpp / 8) < 2147483648
  | 0, _, _, _, _, _, _, _, k, h1, h2 => by omega
  | n + 1, i, tile, out, z, as, r, e, k, h1, h2 => by
    rw [zrleTiles] at e
    obtain ⟨off, eo, e⟩ := Outcome.bind_eq_ok.1 e
    obtain ⟨px, -, e⟩ := Outcome.bind_eq_ok.1 e
    obtain ⟨t, -, e⟩ := Outcome.bind_eq_ok.1 e
    obtain ⟨⟨o, z1, a1, r1⟩, -, e⟩ := Outcome.bind_eq_ok.1 e
    cases r1 with
    | false => simp at e
    | true =>
      by_cases hk : k = i
      · subst hk
        have h3 := int_ok eo
        have h4 : (tileBox b.w b.h k).y1 = k / ((b.w + 63) / 64) * 64 := rfl
        rw [h4] at h3
        omega
      · exact zrleTiles_small n (i + 1) _ _ _ _ r (by simpa using e) k (by omega) (by omega)

theorem zrleBox_small {m : Nat → Heap} {xpos ypos : Nat} {dst src : PixFmt} {fb : Fb} {b : Box} {out : Vec} {z : Zs}
    {as : List Ans} {r : Vec × Zs × List Ans}
    (e : zrleBox m xpos ypos dst src fb b out z as = .ok (r.1, r.2.1, r.2.2, true)) {x y : Nat} (h : b.has x y) :
    (y - 63) * fb.stride * (src.bpp / 8) < 2147483648 := by
  unfold zrleBox at e
  split at e
  · cases e
  · obtain ⟨⟨v1, r1⟩, -, e⟩ := Outcome.bind_eq_ok.1 e
    dsimp only at e
    split at e
    · cases e
    · obtain ⟨⟨v2, r2⟩, -, e⟩ := Outcome.bind_eq_ok.1 e
      dsimp only at e
      obtain ⟨⟨v3, z3, a3, r3⟩, et, e⟩ := Outcome.bind_eq_ok.1 e
      cases r3 with
      | false => simp at e
      | true =>
        unfold Box.has at h
        have hc : 0 < (b.w + 63) / 64 := by unfold Box.w; omega
        have hr : (y - b.y1) / 64 < (b.h + 63) / 64 := by unfold Box.h; omega
        have h5 := zrleTiles_small _ 0 _ _ _ _ (v3, z3, a3) et ((b.w + 63) / 64 * ((y - b.y1) / 64)) (Nat.zero_le _) (by
          rw [Nat.zero_add]
          exact Nat.mul_lt_mul_of_pos_left hr hc)
        rw [Nat.mul_div_cancel_left _ hc] at h5
        refine Nat.lt_of_le_of_lt (Nat.mul_le_mul_right _ (Nat.mul_le_mul_right _ ?_)) h5
        omega

theorem zrleBoxes_small {m : Nat → Nat → Heap} {xpos ypos : Nat} {dst src : PixFmt} {fb : Fb} : ∀ (bs : List Box) (i : Nat)
    (v : Vec) (z : Zs) (as : List Ans) (r : Vec × Zs × List Ans),
    zrleBoxes m xpos ypos dst src fb i bs v z as = .ok (r.1, r.2.1, r.2.2, true) →
    ∀ b ∈ bs, ∀ x y, b.has x y → (y - 63) * fb.stride * (src.bpp / 8) < 2147483648
  | [], _, _, _, _, _, _, _, hb => nomatch hb
  | c :: bs, i, v, z, as, r, e, b, hb => by
    intro x y h
    rw [zrleBoxes] at e
    obtain ⟨⟨v1, z1, a1, r1⟩, ec, e⟩ := Outcome.bind_eq_ok.1 e
    cases r1 with
    | false => simp at e
    | true =>
      rcases List.mem_cons.mp hb with rfl | hb
      · exact zrleBox_small (r := (v1, z1, a1)) ec h
      · exact zrleBoxes_small bs (i + 1) v1 z1 a1 r (by simpa using e) b hb x y h

/-- **C42, violated.** No frame is made of damage that lies 64 rows or more behind the first 2 GB of the framebuffer,
whatever the memory: the offset of a tile is computed with 32 bits. -/
theorem c42_large_violated {m0 : Heap} {m : Nat → Nat → Heap} {xpos ypos : Nat} {fb : Fb} {dst src : PixFmt}
    (hs : pixfmt fb.f = some src) {bs : List Box} {b : Box} (hb : b ∈ bs) {x y : Nat} (hx : b.has x y)
    (hl : 2147483648 ≤ (y - 63) * fb.stride * (src.bpp / 8)) {z : Zs} {as : List Ans} (r : Bytes × Nat × Zs) :
    zrleWork m0 m xpos ypos dst fb bs z as ≠ .ok r := by
  intro e
  unfold zrleWork at e
  split at e
  · cases e
  · rw [hs] at e
    dsimp only at e
    obtain ⟨⟨v1, z1, a1, r1⟩, e1, e⟩ := Outcome.bind_eq_ok.1 e
    cases r1 with
    | false => simp at e
    | true =>
      obtain ⟨c, hc, hcx⟩ := pick_has hb hx
      have := zrleBoxes_small _ _ _ _ _ (v1, z1, a1) e1 c hc x y hcx
      omega

-- 20000 by 30000 pixels, of which one at the lower end is damaged
example : (⟨0, 29999, 1, 30000⟩ : Box).has 0 29999 ∧
    2147483648 ≤ (29999 - 63) * 20000 * (((pixfmt ⟨.four .w8 .argb false, false⟩).getD demo565).bpp / 8) ∧
    ¬ 2147483648 ≤ (15000 - 63) * 20000 * (((pixfmt ⟨.four .w8 .argb false, false⟩).getD demo565).bpp / 8) := by
  unfold Box.has
  decide +kernel

end Verif.Enc
