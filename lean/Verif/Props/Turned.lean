import Verif.Model.Turned
import Verif.Props.Cursor
import Verif.Props.Display

/-! # C111: cursors with a transform -/

namespace Verif.Turned
open Verif.Server (PixFmt be32i)
open Verif.Pixels Verif.Vec
open Verif.Enc (Fb Box Plenty SameColour hasAlpha rowLen maskBit sendCursor)
open Verif.Display (Frame Xf dims resample Shows place_dims)

/-- sending a turned cursor is sending the turned image -/
theorem send_turned {m0 m m' m'' : Heap} {dst : PixFmt} {s : Frame} {g : Fb} {w h hx hy : Nat}
    (hn : s.xf ≠ .normal) (hg : applyTransform true s = .ok g) {b : Bytes}
    (hb : sendCursor m0 m m' m'' dst (some g) (dims s.xf w h).1 (dims s.xf w h).2 (dims s.xf hx hy).1
      (dims s.xf hx hy).2 = .ok (some b)) :
    send m0 m m' m'' true true dst (some s) w h hx hy = .ok (some b, 0) := by
  unfold sendCursor at hb
  unfold send
  rw [Outcome.bind_ok] at hb ⊢
  dsimp only at hb ⊢
  cases e1 : Vec.step (.append m'' [0, 0, 0, 1]) (Vec.init m0 4096).1 with
  | ok x =>
    rw [e1, Outcome.bind_ok] at hb
    rw [Outcome.bind_ok]
    unfold encode
    dsimp only
    rw [if_neg (by decide), if_neg hn, hg, Outcome.bind_ok]
    cases e2 : Enc.cursorEncode m m' dst (some g) (dims s.xf w h).1 (dims s.xf w h).2 (dims s.xf hx hy).1
      (dims s.xf hx hy).2 x.1 with
    | ok y =>
      rw [e2, Outcome.bind_ok] at hb
      rw [Outcome.bind_ok, Outcome.bind_ok]
      dsimp only at hb ⊢
      split at hb
      · cases hb
      · rename_i hr
        rw [if_neg hr]
        rw [Option.some.inj (Outcome.ok.inj hb)]
    | ub _ => rw [e2] at hb; cases hb
    | abort _ => rw [e2] at hb; cases hb
  | ub _ => rw [e1] at hb; cases hb
  | abort _ => rw [e1] at hb; cases hb

theorem send_normal {m0 m m' m'' : Heap} {known : Bool} {dst : PixFmt} {s : Frame} {w h hx hy : Nat}
    (hn : s.xf = .normal) {b : Bytes}
    (hb : sendCursor m0 m m' m'' dst (some s.fb) w h hx hy = .ok (some b)) :
    send m0 m m' m'' true known dst (some s) w h hx hy = .ok (some b, 0) := by
  have hd : ∀ a b, dims s.xf a b = (a, b) := fun a b => by rw [hn]; rfl
  unfold sendCursor at hb
  unfold send
  rw [Outcome.bind_ok] at hb ⊢
  dsimp only at hb ⊢
  cases e1 : Vec.step (.append m'' [0, 0, 0, 1]) (Vec.init m0 4096).1 with
  | ok x =>
    rw [e1, Outcome.bind_ok] at hb
    rw [Outcome.bind_ok]
    unfold encode
    dsimp only
    rw [if_neg (by decide), if_pos hn, hd, hd]
    cases e2 : Enc.cursorEncode m m' dst (some s.fb) w h hx hy x.1 with
    | ok y =>
      rw [e2, Outcome.bind_ok] at hb
      rw [Outcome.bind_ok, Outcome.bind_ok]
      dsimp only at hb ⊢
      split at hb
      · cases hb
      · rename_i hr
        rw [if_neg hr]
        rw [Option.some.inj (Outcome.ok.inj hb)]
        rfl
    | ub _ => rw [e2] at hb; cases hb
    | abort _ => rw [e2] at hb; cases hb
  | ub _ => rw [e1] at hb; cases hb
  | abort _ => rw [e1] at hb; cases hb

/-- the turned image is one that can be encoded -/
theorem resample_ok {s : Frame} (hf : s.fb.Ok) (hs : s.fb.width ≤ 32736 ∧ s.fb.height ≤ 32736) {g : Fb}
    (hg : resample true s = .ok g) : g.Ok := by
  obtain ⟨c1, c2, -, -⟩ := Display.c52_transform_partial s.xf (w := s.fb.width) (h := s.fb.height) (by omega) (by omega)
  unfold resample at hg
  rw [if_neg (by decide), if_neg (by omega)] at hg
  obtain rfl := Outcome.ok.inj hg
  have hlen : ∀ x' < (dims s.xf s.fb.width s.fb.height).1, ∀ y' < (dims s.xf s.fb.width s.fb.height).2,
      (Display.fetch s.fb (Display.sample (Display.matrix s.xf s.fb.width s.fb.height) (x' : Nat) (y' : Nat))).length =
        pixelSize s.fb.f := by
    intro x' hx' y' hy'
    obtain ⟨a, b, ha, hb, rfl, rfl⟩ := c2 x' y' hx' hy'
    rw [(c1 a b ha hb).2.2, Display.fetch_eq ha hb, Display.pixel_length hf ha hb]
  have hflat : ∀ {k : Nat} (n : Nat) (f : Nat → Bytes), (∀ i < n, (f i).length = k) →
      ((List.range n).flatMap f).length = n * k := by
    intro k n f h
    induction n with
    | zero => simp
    | succ n ih =>
      rw [List.range_succ, List.flatMap_append, List.length_append, ih fun i hi => h i (by omega), Nat.succ_mul]
      simp [h n (by omega)]
  have harea : (dims s.xf s.fb.width s.fb.height).2 * (dims s.xf s.fb.width s.fb.height).1 =
      s.fb.height * s.fb.width := by
    unfold dims
    split
    · exact Nat.mul_comm _ _
    · rfl
  refine ⟨Nat.le_refl _, ?_, ?_⟩
  · dsimp only
    rw [hflat _ _ fun y hy => hflat _ _ fun x hx => hlen x hx y hy, Nat.mul_assoc]
    exact Nat.le_refl _
  · dsimp only
    rw [harea]
    have := hf.small
    have h1 : s.fb.height * s.fb.width ≤ s.fb.height * s.fb.stride := Nat.mul_le_mul_left _ hf.stride
    omega

/-- A cursor with a transform whose image is shown as a whole is sent as the turned image: the size is the
turned one, each pixel has the colour and each bit of the mask says that it is opaque, of the pixel that the
transform puts there. References are as before. It takes an image of 32 bits with alpha, in a format that
pixman knows, and that the mask has room (see C50). -/
theorem c111_turned_partial {m0 m m' m'' : Heap} (hm0 : Plenty m0) (hm' : Plenty m') {s : Frame} (hf : s.fb.Ok)
    (hsz : s.fb.width ≤ 32736 ∧ s.fb.height ≤ 32736)
    (hp : Plain s.fb.f) (ha : hasAlpha s.fb.f = true) {dst : PixFmt} {l : Layout} (hd : Sane dst l) {hx hy : Nat}
    {W H : Nat} (hW : (W, H) = ((s.xf.place s.fb.width s.fb.height 0 0).w, (s.xf.place s.fb.width s.fb.height 0 0).h))
    (hfit : W % 8 = 0 ∨ 16 + W * H * (dst.bpp / 8) + H * rowLen W ≤ 4096) :
    ∃ (HX HY : Nat) (pix mask : Bytes),
      send m0 m m' m'' true true dst (some s) s.fb.width s.fb.height hx hy = .ok (some
        ([0, 0, 0, 1] ++ be16 HX ++ be16 HY ++ be16 W ++ be16 H ++ be32i (-239) ++ pix ++ mask), 0) ∧
      (∃ one, pix = (Box.cells ⟨0, 0, W, H⟩).flatMap one ∧
        ∀ x y, x < s.fb.width → y < s.fb.height →
          SameColour s.fb.f dst l (s.fb.pixel x y) (one ((s.xf.place s.fb.width s.fb.height x y).x,
            (s.xf.place s.fb.width s.fb.height x y).y))) ∧
      mask.length = H * rowLen W ∧
      (∀ x y, x < s.fb.width → y < s.fb.height →
        maskBit mask (8 * rowLen W * (s.xf.place s.fb.width s.fb.height x y).y +
          (s.xf.place s.fb.width s.fb.height x y).x) = s.fb.opaque x y) ∧
      (∀ y j, y < H → W ≤ j → j < 8 * rowLen W → maskBit mask (8 * rowLen W * y + j) = false) ∧
      (s.xf = .normal ∨ s.xf = .f90 → hx < s.fb.width → hy < s.fb.height →
        HX = (s.xf.place s.fb.width s.fb.height hx hy).x ∧ HY = (s.xf.place s.fb.width s.fb.height hx hy).y) := by
  have hW' : (W, H) = dims s.xf s.fb.width s.fb.height := hW.trans (place_dims ..)
  have e1 : (dims s.xf s.fb.width s.fb.height).1 = W := by rw [← hW']
  have e2 : (dims s.xf s.fb.width s.fb.height).2 = H := by rw [← hW']
  obtain ⟨c1, -, -, -⟩ := Display.c52_transform_partial s.xf (w := s.fb.width) (h := s.fb.height) (by omega) (by omega)
  have hspot : (s.xf = .normal ∨ s.xf = .f90 → hx < s.fb.width → hy < s.fb.height →
        (dims s.xf hx hy).1 = (s.xf.place s.fb.width s.fb.height hx hy).x ∧
        (dims s.xf hx hy).2 = (s.xf.place s.fb.width s.fb.height hx hy).y) := by
    rintro (hx' | hx') h1 h2
    · rw [hx']; exact ⟨rfl, rfl⟩
    · rw [hx']
      show hy = s.fb.height - 1 - (s.fb.height - 1 - hy) ∧ hx = hx
      omega
  by_cases hn : s.xf = .normal
  · have hw1 : W = s.fb.width := by rw [← e1, hn]; rfl
    have hh1 : H = s.fb.height := by rw [← e2, hn]; rfl
    have hd1 : dims s.xf hx hy = (hx, hy) := by rw [hn]; rfl
    obtain ⟨pix, mask, h1, ⟨one, h2, h3⟩, h4, h5⟩ := Enc.c50_cursor_partial (m := m) (m'' := m'') hm0 hm' hf hp ha hd
      (hx := hx) (hy := hy) (w := W) (h := H) (by omega) (by omega) hfit
    have hpl : ∀ x y, (s.xf.place s.fb.width s.fb.height x y).x = x ∧ (s.xf.place s.fb.width s.fb.height x y).y = y :=
      fun x y => by rw [hn]; exact ⟨rfl, rfl⟩
    refine ⟨hx, hy, pix, mask, ?_, ⟨one, h2, fun x y _ _ => ?_⟩, h4, fun x y hx' hy' => ?_, fun y j hy' hj1 hj2 => ?_,
      fun _ _ _ => ⟨(hpl hx hy).1.symm, (hpl hx hy).2.symm⟩⟩
    · refine send_normal hn ?_
      rw [← h1, hw1, hh1]
    · rw [(hpl x y).1, (hpl x y).2]
      exact h3 x y
    · rw [(hpl x y).1, (hpl x y).2, h5 y x (by omega) (by unfold rowLen; split <;> omega)]
      simp only [hw1, hx', decide_true, Bool.true_and]
    · rw [h5 y j hy' hj2, decide_eq_false (by omega), Bool.false_and]
  · obtain ⟨g, hg, hsh⟩ := Display.resample_eq hf hsz
    have hgo := resample_ok hf hsz hg
    have hgw : g.width = W := by
      have := hsh.dims 0 0
      rw [place_dims, ← hW'] at this
      exact (Prod.mk.inj this).1
    have hgh : g.height = H := by
      have := hsh.dims 0 0
      rw [place_dims, ← hW'] at this
      exact (Prod.mk.inj this).2
    obtain ⟨a, -, -, hps, -⟩ := Enc.alpha_table hp ha
    have hap : applyTransform true s = .ok g := by
      unfold applyTransform
      dsimp only
      rw [if_neg ?_, hg]
      unfold allocated
      rw [hps, Nat.mul_comm (dims s.xf s.fb.width s.fb.height).2]
      omega
    obtain ⟨pix, mask, h1, ⟨one, h2, h3⟩, h4, h5⟩ := Enc.c50_cursor_partial (m := m) (m'' := m'') hm0 hm' hgo
      (by rw [hsh.format]; exact hp) (by rw [hsh.format]; exact ha) hd
      (hx := (dims s.xf hx hy).1) (hy := (dims s.xf hx hy).2) (w := W) (h := H) (by omega) (by omega) hfit
    refine ⟨_, _, pix, mask, send_turned hn hap ?_, ⟨one, h2, fun x y hx' hy' => ?_⟩, h4, fun x y hx' hy' => ?_,
      fun y j hy' hj1 hj2 => ?_, hspot⟩
    · rw [e1, e2]; exact h1
    · have := h3 (s.xf.place s.fb.width s.fb.height x y).x (s.xf.place s.fb.width s.fb.height x y).y
      rw [hsh.pixels x y hx' hy', hsh.format] at this
      exact this
    · obtain ⟨p1, p2, -⟩ := c1 x y hx' hy'
      rw [e1] at p1
      rw [e2] at p2
      rw [h5 _ _ p2 (by unfold rowLen; split <;> omega), decide_eq_true p1, Bool.true_and]
      unfold Fb.opaque
      rw [hsh.pixels x y hx' hy', hsh.format]
    · rw [h5 y j hy' hj2, decide_eq_false (by omega), Bool.false_and]

/-- three pixels by two, a quarter turn -/
example : send Enc.demoHeap Enc.demoHeap Enc.demoHeap Enc.demoHeap true true demo565
    (some ⟨Enc.demoCursor 3 2 true, .r90⟩) 3 2 0 0 = .ok (some
      ([0, 0, 0, 1] ++ [0, 0, 0, 0, 0, 2, 0, 3] ++ [0xff, 0xff, 0xff, 0x11] ++
        [188, 75, 97, 128, 130, 132, 47, 217, 72, 221, 246, 18] ++ [0xc0, 0x80, 0]), 0) := by
  decide +kernel

/-- The hotspot is not turned: with any transform but one, a hotspot in the corner of an image of more than
one row and column stays in the corner, though the corner's pixel is elsewhere. -/
theorem c111_hotspot_violated (t : Xf) (h1 : t ≠ .normal) (h2 : t ≠ .f90) {w h : Nat} (hw : 1 < w) (hh : 1 < h) :
    dims t 0 0 = (0, 0) ∧ ((t.place w h 0 0).x, (t.place w h 0 0).y) ≠ (0, 0) := by
  refine ⟨by unfold dims; split <;> rfl, ?_⟩
  intro he
  obtain ⟨e1, e2⟩ := Prod.mk.inj he
  revert e1 e2
  cases t <;>
    simp only [Xf.place, Xf.turns, Xf.mirrored, Display.Place.turnBy, Display.Place.turn, Display.Place.mirror,
      if_true, Bool.false_eq_true, if_false] <;>
    first | exact absurd rfl h1 | exact absurd rfl h2 | (intros; omega)

/-- on the wire: the arrow's point is in the upper left of three by two pixels, and after a half turn in the
lower right; it is sent as being in the upper left -/
example : ∃ b, send Enc.demoHeap Enc.demoHeap Enc.demoHeap Enc.demoHeap true true demo565
      (some ⟨Enc.demoCursor 3 2 true, .r180⟩) 3 2 0 0 = .ok (some b, 0) ∧ slice b 4 4 = some [0, 0, 0, 0] ∧
    ((Xf.place .r180 3 2 0 0).x, (Xf.place .r180 3 2 0 0).y) = (2, 1) := by
  refine ⟨[0, 0, 0, 1] ++ [0, 0, 0, 0, 0, 3, 0, 2] ++ [0xff, 0xff, 0xff, 0x11] ++
    [72, 221, 130, 132, 188, 75, 246, 18, 47, 217, 97, 128] ++ [0x60, 0x20], by decide +kernel, by decide +kernel, by decide⟩

/-- Of a cursor that is smaller than its image another part is sent: the upper left of the turned image,
which is not the turned upper left. -/
theorem c111_part_violated :
    ∃ one, send Enc.demoHeap Enc.demoHeap Enc.demoHeap Enc.demoHeap true true demo565
        (some ⟨Enc.demoCursor 2 1 true, .r180⟩) 1 1 0 0 = .ok (some one, 0) ∧
      ∃ whole, send Enc.demoHeap Enc.demoHeap Enc.demoHeap Enc.demoHeap true true demo565
        (some ⟨Enc.demoCursor 2 1 true, .normal⟩) 2 1 0 0 = .ok (some whole, 0) ∧
      slice one 16 2 ≠ slice whole 16 2 ∧ slice one 16 2 = slice whole 18 2 :=
  ⟨[0, 0, 0, 1, 0, 0, 0, 0, 0, 1, 0, 1, 0xff, 0xff, 0xff, 0x11, 47, 217, 0], by decide +kernel,
    [0, 0, 0, 1, 0, 0, 0, 0, 0, 2, 0, 1, 0xff, 0xff, 0xff, 0x11, 97, 128, 47, 217, 0x80], by decide +kernel,
    by decide, by decide⟩

/-- Every image of 16 bits and three pixels or more that has a transform makes the server write outside of
the new image. -/
theorem c111_memset_violated {m0 m m' m'' : Heap} (hm0 : Plenty m0) {s : Frame} (hs : pixelSize s.fb.f = 2)
    (hn : s.xf ≠ .normal) (h3 : 3 ≤ s.fb.width * s.fb.height) (known : Bool) (dst : PixFmt) (w h hx hy : Nat) :
    send m0 m m' m'' true known dst (some s) w h hx hy = .ub "memset out of bounds" := by
  have hap : applyTransform known s = .ub "memset out of bounds" := by
    unfold applyTransform
    dsimp only
    rw [if_pos]
    have harea : (dims s.xf s.fb.width s.fb.height).1 * (dims s.xf s.fb.width s.fb.height).2 =
        s.fb.width * s.fb.height := by
      unfold dims
      split
      · exact Nat.mul_comm _ _
      · rfl
    unfold allocated
    rw [hs, Nat.mul_comm (dims s.xf s.fb.width s.fb.height).2, harea]
    omega
  generalize e0 : Vec.init m0 4096 = q
  obtain ⟨v0, r⟩ := q
  have hz : Ok { data := [], len := 0, cap := 0 } := ⟨rfl, Nat.le_refl _⟩
  obtain ⟨k1, k2, k3, -, k4, k5⟩ := reserve_ok hz e0
  have hr : r = true := by
    cases r with
    | true => rfl
    | false => have := hm0 4096; rw [k5 rfl] at this; cases this
  subst hr
  have c0 : v0.cap = 4096 := by rw [Enc.reserve_cap e0]; rfl
  have l0 : v0.len = 0 := k2
  obtain ⟨d1, e1, -, -⟩ := Enc.append_room (m := m'') (b := [0, 0, 0, 1]) k1 (by rw [l0, c0]; decide)
    (by rw [c0]; decide)
  unfold send
  rw [e0, Outcome.bind_ok]
  dsimp only
  rw [e1, Outcome.bind_ok]
  dsimp only
  unfold encode
  dsimp only
  rw [if_neg (by decide), if_neg hn, hap]
  rfl

example : pixelSize ⟨.four .w4 .argb true, false⟩ = 2 := by decide

/-- If the image cannot be mapped then a reference to it is given up that was not taken. -/
theorem c111_reference_violated :
    send Enc.demoHeap Enc.demoHeap Enc.demoHeap Enc.demoHeap false true demo565
      (some ⟨Enc.demoCursor 3 2 true, .normal⟩) 3 2 0 0 = .ok (none, -1) := by
  decide +kernel

end Verif.Turned
