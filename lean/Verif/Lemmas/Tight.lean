import Verif.Spec.Tight
import Verif.Props.ZrleFrame

/-!
# Lemmas on the Tight encoder
-/

namespace Verif.Enc
open Verif.Server (PixFmt be32i)
open Verif.Pixels
open Verif.Vec (Heap Vec Ok reserve_ok step_ok write_end bytes_length sizeT reserve)

/-! ## Compact lengths -/

def sizeBytes (n : Nat) : Bytes :=
  if n < 128 then [UInt8.ofNat n]
  else if n < 16384 then [UInt8.ofNat (n % 128 + 128), UInt8.ofNat (n / 128)]
  else [UInt8.ofNat (n % 128 + 128), UInt8.ofNat (n / 128 % 128 + 128), UInt8.ofNat (n / 16384)]

theorem sizeBytes_length (n : Nat) : 1 ≤ (sizeBytes n).length ∧ (sizeBytes n).length ≤ 3 := by
  unfold sizeBytes
  split
  · simp
  · split <;> simp

theorem and_127 (n : Nat) : n &&& 0x7f = n % 128 := Nat.and_two_pow_sub_one_eq_mod n 7

theorem and_255 (n : Nat) : n &&& 0xff = n % 256 := Nat.and_two_pow_sub_one_eq_mod n 8

theorem or_128 (n : Nat) : n % 128 ||| 128 = n % 128 + 128 := by
  have h : ∀ k, k < 128 → k ||| 128 = k + 128 := by decide +kernel
  exact h _ (Nat.mod_lt _ (by decide))

/-- either the program is aborted, or the bytes are appended -/
def Gives (v : Vec) (b : Bytes) (o : Outcome Vec) : Prop :=
  (∃ why, o = .abort why) ∨ ∃ v', o = .ok v' ∧ Ok v' ∧ v'.bytes = v.bytes ++ b

theorem Gives.bind {v : Vec} {b c : Bytes} {o : Outcome Vec} {f : Vec → Outcome Vec} (h : Gives v b o)
    (hf : ∀ v', Ok v' → v'.bytes = v.bytes ++ b → Gives v' c (f v')) : Gives v (b ++ c) (o >>= f) := by
  rcases h with ⟨why, rfl⟩ | ⟨v', rfl, o', b'⟩
  · exact .inl ⟨why, rfl⟩
  · rw [Outcome.bind_ok]
    rcases hf v' o' b' with h | ⟨v'', h, o'', b''⟩
    · exact .inl h
    · exact .inr ⟨v'', h, o'', by rw [b'', b', List.append_assoc]⟩

theorem push_gives {x : UInt8} {v : Vec} (hv : Ok v) : Gives v [x] (push x v) := by
  by_cases h : v.len < v.cap
  · obtain ⟨v', e, o, -, b⟩ := push_adds (x := x) hv h
    exact .inr ⟨v', e, o, b⟩
  · left
    unfold push
    simp only [Vec.step, if_neg h]
    exact ⟨_, rfl⟩

theorem encodeSize_gives {n : Nat} {v : Vec} (hv : Ok v) (hn : n < 4194304) :
    Gives v (sizeBytes n) (encodeSize n v) := by
  unfold encodeSize sizeBytes
  by_cases h1 : n < 128
  · rw [if_pos h1]
    simp only [if_neg (show ¬ 128 ≤ n by omega), if_neg (show ¬ 16384 ≤ n by omega)]
    rw [and_127, Nat.or_zero, Nat.mod_eq_of_lt h1]
    have := Gives.bind (f := fun v => .ok v) (c := []) (push_gives (x := UInt8.ofNat n) hv)
      (fun v' o _ => .inr ⟨v', rfl, o, by simp⟩)
    simpa using this
  · by_cases h2 : n < 16384
    · rw [if_neg h1, if_pos h2]
      simp only [if_pos (show 128 ≤ n by omega), if_neg (show ¬ 16384 ≤ n by omega)]
      rw [and_127, and_127, Nat.or_zero, Nat.shiftRight_eq_div_pow]
      have e1 : n % 128 ||| 1 <<< 7 = n % 128 + 128 := or_128 n
      have e2 : n / 2 ^ 7 % 128 = n / 128 := by rw [show 2 ^ 7 = 128 from rfl]; omega
      rw [e1, e2]
      have := Gives.bind (c := [UInt8.ofNat (n / 128)]) (push_gives (x := UInt8.ofNat (n % 128 + 128)) hv)
        (fun v' o _ => Gives.bind (f := fun v => .ok v) (c := []) (push_gives (x := UInt8.ofNat (n / 128)) o)
          (fun v'' o' _ => .inr ⟨v'', rfl, o', by simp⟩))
      simpa using this
    · rw [if_neg h1, if_neg h2]
      simp only [if_pos (show 128 ≤ n by omega), if_pos (show 16384 ≤ n by omega)]
      rw [and_127, and_127, and_255, Nat.shiftRight_eq_div_pow, Nat.shiftRight_eq_div_pow]
      have e1 : n % 128 ||| 1 <<< 7 = n % 128 + 128 := or_128 n
      have e2 : n / 2 ^ 7 % 128 ||| 1 <<< 7 = n / 128 % 128 + 128 := or_128 (n / 128)
      have e3 : n / 2 ^ 14 % 256 = n / 16384 := by rw [show 2 ^ 14 = 16384 from rfl]; omega
      rw [e1, e2, e3]
      have := Gives.bind (c := [UInt8.ofNat (n / 128 % 128 + 128), UInt8.ofNat (n / 16384)])
        (push_gives (x := UInt8.ofNat (n % 128 + 128)) hv)
        (fun v' o _ => Gives.bind (c := [UInt8.ofNat (n / 16384)]) (push_gives (x := UInt8.ofNat (n / 128 % 128 + 128)) o)
          (fun v'' o' _ => push_gives o'))
      simpa using this

/-- **C44**: lengths below 2^22 are read as they were -/
theorem readCompact_size {n : Nat} (hn : n < 4194304) (more : Bytes) :
    readCompact (sizeBytes n ++ more) = some (n, more) := by
  have t : ∀ k, k < 256 → (UInt8.ofNat k).toNat = k := fun k hk => by rw [toNat_ofNat8]; omega
  unfold sizeBytes
  split
  · rename_i h
    rw [List.cons_append, readCompact.eq_def]
    simp only
    rw [t _ (by omega), if_pos h]
    rfl
  · split
    · rename_i h1 h2
      rw [List.cons_append, List.cons_append, readCompact.eq_def]
      simp only
      rw [t _ (by omega), if_neg (by omega)]
      rw [t _ (by omega), if_pos (by omega)]
      congr 2
      omega
    · rename_i h1 h2
      rw [List.cons_append, List.cons_append, List.cons_append, readCompact.eq_def]
      simp only
      rw [t _ (by omega), if_neg (by omega)]
      rw [t _ (by omega), if_neg (by omega), t _ (by omega)]
      congr 2
      omega

/-! ## Coordinates of tiles -/

def coords (gw gh : Nat) : List (Nat × Nat) := (List.range gh).flatMap fun y => (List.range gw).map fun x => (x, y)

theorem mem_coords {gw gh x y : Nat} : (x, y) ∈ coords gw gh ↔ x < gw ∧ y < gh := by
  unfold coords
  simp only [List.mem_flatMap, List.mem_map, List.mem_range]
  constructor
  · rintro ⟨b, hb, a, ha, h⟩
    cases h
    exact ⟨ha, hb⟩
  · rintro ⟨h1, h2⟩
    exact ⟨y, h2, x, h1, rfl⟩

theorem coords_eq (gw gh : Nat) : coords gw gh = (List.range (gh * gw)).map fun i => (i % gw, i / gw) := by
  rw [range_mul]
  unfold coords
  rw [List.flatMap_def, List.flatMap_def]
  congr 1
  apply List.map_congr_left
  intro j hj
  apply List.map_congr_left
  intro i hi
  rw [List.mem_range] at hi
  have hm : (j * gw + i) % gw = i := by rw [Nat.add_comm, Nat.add_mul_mod_self_right, Nat.mod_eq_of_lt hi]
  have hd : (j * gw + i) / gw = j := by
    rw [Nat.add_comm, Nat.add_mul_div_right _ _ (by omega), Nat.div_eq_of_lt hi, Nat.zero_add]
  rw [hm, hd]

theorem coords_nodup (gw gh : Nat) : (coords gw gh).Nodup := by
  rw [coords_eq, List.nodup_iff_pairwise_ne, List.pairwise_map]
  refine List.Pairwise.imp ?_ (List.nodup_range (n := gh * gw))
  intro a b hab h
  apply hab
  have h1 := congrArg Prod.fst h
  have h2 := congrArg Prod.snd h
  simp only at h1 h2
  rw [← Nat.div_add_mod a gw, ← Nat.div_add_mod b gw, h1, h2]

theorem range_filter (i : Nat) (hi : i < 4) : ∀ n, (List.range n).filter (fun x => x % 4 = i) =
    (List.range ((n - i + 3) / 4)).map fun k => i + 4 * k
  | 0 => by
    have : (0 - i + 3) / 4 = 0 := by omega
    rw [this]
    rfl
  | n + 1 => by
    rw [List.range_succ, List.filter_append, range_filter i hi n]
    by_cases h : n % 4 = i
    · have e : (n + 1 - i + 3) / 4 = (n - i + 3) / 4 + 1 := by omega
      have e2 : i + 4 * ((n - i + 3) / 4) = n := by omega
      rw [e, List.range_succ, List.map_append]
      simp [h, e2]
    · have e : (n + 1 - i + 3) / 4 = (n - i + 3) / 4 := by omega
      rw [e]
      simp [h]

/-- a worker does the tiles of every fourth column -/
theorem workerTiles_eq (gw gh : Nat) (i : Fin 4) :
    workerTiles gw gh i = (coords gw gh).filter fun p => p.1 % 4 = i.val := by
  unfold workerTiles coords
  rw [List.filter_flatMap, List.flatMap_def, List.flatMap_def]
  congr 1
  apply List.map_congr_left
  intro y _
  rw [List.filter_map]
  have := range_filter i.val i.isLt gw
  have e : ((fun p : Nat × Nat => decide (p.1 % 4 = i.val)) ∘ fun x => (x, y)) = fun x => decide (x % 4 = i.val) := rfl
  rw [e, this, List.map_map]
  rfl

/-- the box of a tile of a framebuffer -/
def boxOf (fb : Fb) (p : Nat × Nat) : Box :=
  ⟨64 * p.1, 64 * p.2, min fb.width (64 * p.1 + 64), min fb.height (64 * p.2 + 64)⟩

theorem rfcTiles_coords (fb : Fb) : rfcTiles fb.width fb.height =
    (coords ((fb.width + 63) / 64) ((fb.height + 63) / 64)).map (boxOf fb) := by
  unfold rfcTiles coords
  rw [List.map_flatMap]
  simp only [List.map_map]
  rfl

theorem side_eq {side x : Nat} (h : 64 * x < side) : tightSide side (x * 64) = min side (64 * x + 64) - 64 * x := by
  unfold tightSide
  split <;> omega

theorem box_side {fb : Fb} {x y : Nat} (hx : x < (fb.width + 63) / 64) (hy : y < (fb.height + 63) / 64) :
    tightSide fb.width (x * 64) = (boxOf fb (x, y)).w ∧ tightSide fb.height (y * 64) = (boxOf fb (x, y)).h := by
  unfold Box.w Box.h boxOf
  exact ⟨side_eq (by omega), side_eq (by omega)⟩

/-! ## Compression -/

theorem tightDeflate_eq {flush : Bool} : ∀ (as : List Ans) (inp data : Bytes) (z : Zs), data.length ≤ maxTile →
    (∀ why, tightDeflate flush as inp data z ≠ .ub why) ∧
    ∀ data' z' as', tightDeflate flush as inp data z = .ok (data', z', as') →
      data'.length ≤ maxTile ∧
        ∃ c, data' = data ++ c ∧ z'.inp = z.inp ++ inp ∧ z'.out = z.out ++ c ∧
          z'.flushed = if flush then z.flushed ++ [(z'.inp, z'.out)] else z.flushed
  | [], _, _, _, _ => by rw [tightDeflate]; exact ⟨nofun, nofun⟩
  | a :: as, inp, data, z, hl => by
    rw [tightDeflate]
    split
    · exact ⟨nofun, nofun⟩
    · split
      · exact ⟨nofun, nofun⟩
      · rename_i hfull hok
        split
        · exact ⟨nofun, nofun⟩
        · simp only
          split
          · rename_i hfull
            obtain ⟨g1, g2⟩ := tightDeflate_eq (flush := flush) as (inp.drop a.take) (data ++ a.give)
              (z.after flush (maxTile - data.length == a.give.length) (inp.take a.take) a.give)
              (by rw [List.length_append]; omega)
            refine ⟨g1, fun data' z' as' h => ?_⟩
            obtain ⟨k1, c, c1, c2, c3, c4⟩ := g2 data' z' as' h
            refine ⟨k1, a.give ++ c, by rw [c1, List.append_assoc], ?_, by rw [c3, ← List.append_assoc]; rfl, ?_⟩
            · rw [c2]
              unfold Zs.after
              simp only
              rw [List.append_assoc, List.take_append_drop]
            · rw [c4]
              unfold Zs.after
              simp only [hfull, Bool.not_true, Bool.and_false, Bool.false_eq_true, if_false]
          · rename_i hfull
            split
            · rename_i hdrop
              refine ⟨nofun, fun data' z' as' h => ?_⟩
              cases h
              refine ⟨by rw [List.length_append]; omega, a.give, rfl, ?_, rfl, by
                unfold Zs.after
                simp only [hfull, Bool.not_false, Bool.and_true]⟩
              unfold Zs.after
              simp only
              have : inp.take a.take = inp := by
                apply List.take_of_length_le
                rw [List.length_drop] at hdrop
                omega
              rw [this]
            · exact ⟨nofun, nofun⟩

/-- the rows of a tile -/
theorem tightRows_eq {dst src : PixFmt} {fb : Fb} {one : Bytes → Bytes} {x w : Nat} (hf : fb.Ok)
    (hs : src.bpp = 8 * pixelSize fb.f)
    (h : ∀ pxs, toCpixel (tightFmt dst) src (bytesPerCpixel dst) pxs = .ok (pxs.flatMap one))
    (h1 : ∀ px, (one px).length = bytesPerCpixel dst) (hb : bytesPerCpixel dst ≤ 4) (hw : w ≤ 64)
    (hx : x + w ≤ fb.width) :
    ∀ n y data z as, y + n ≤ fb.height → data.length ≤ maxTile →
      (∀ why, tightRows dst src fb x w y n data z as ≠ .ub why) ∧
      ∀ data' z' as', tightRows dst src fb x w y n data z as = .ok (data', z', as') →
        data'.length ≤ maxTile ∧
        ∃ c, data' = data ++ c ∧ z'.out = z.out ++ c ∧
          z'.inp = z.inp ++ ((List.range n).flatMap fun j => (List.range w).flatMap fun i => one (fb.pixel (x + i) (y + j))) ∧
          (0 < n → z'.flushed = z.flushed ++ [(z'.inp, z'.out)]) := by
  have hs8 : src.bpp / 8 = pixelSize fb.f := by omega
  have hp := pixelSize_le fb.f
  intro n
  induction n with
  | zero =>
    intro y data z as _ hl
    refine ⟨nofun, fun data' z' as' h => ?_⟩
    cases h
    exact ⟨hl, [], by simp, by simp, by simp, by omega⟩
  | succ n ih =>
    intro y data z as hy hl
    have hst := hf.stride
    have hmem := hf.mem
    have hsm := hf.small
    have hrow : (y * fb.stride + x + w) * pixelSize fb.f ≤ fb.height * fb.stride * pixelSize fb.f := by
      apply Nat.mul_le_mul_right
      have : (y + 1) * fb.stride ≤ fb.height * fb.stride := Nat.mul_le_mul_right _ (by omega)
      rw [Nat.succ_mul] at this
      omega
    have hint : fb.height * fb.stride * pixelSize fb.f ≤ fb.height * fb.stride * 4 := Nat.mul_le_mul_left _ hp
    have hsplit : (y * fb.stride + x + w) * pixelSize fb.f =
        (y * fb.stride + x) * pixelSize fb.f + w * pixelSize fb.f := Nat.add_mul _ _ _
    have hsplit2 : (y * fb.stride + x) * pixelSize fb.f = y * fb.stride * pixelSize fb.f + x * pixelSize fb.f :=
      Nat.add_mul _ _ _
    have hstr : fb.stride * pixelSize fb.f ≤ fb.height * fb.stride * pixelSize fb.f := by
      apply Nat.mul_le_mul_right
      exact Nat.le_mul_of_pos_left _ (by omega)
    have i1 : int (x * pixelSize fb.f) = .ok (x * pixelSize fb.f) := if_pos (by omega)
    have i2 : int (fb.stride * pixelSize fb.f) = .ok (fb.stride * pixelSize fb.f) := if_pos (by omega)
    have hoff : x * pixelSize fb.f + y * (fb.stride * pixelSize fb.f) % 4294967296 =
        (y * fb.stride + x) * pixelSize fb.f := by
      rw [← Nat.mul_assoc, Nat.mod_eq_of_lt (by omega)]
      omega
    obtain ⟨row, hrw⟩ : ∃ row, row = (List.range w).flatMap fun i => one (fb.pixel (x + i) y) := ⟨_, rfl⟩
    have hlen : row.length = w * bytesPerCpixel dst := by
      rw [hrw, flatMap_length (fun i => h1 _), List.length_range]
    have hrl : w * bytesPerCpixel dst ≤ 64 * 4 := Nat.mul_le_mul hw hb
    have hconv : convertRow (tightFmt dst) src (bytesPerCpixel dst) fb.mem
        (x * pixelSize fb.f + y * (fb.stride * pixelSize fb.f) % 4294967296) w = .ok row := by
      rw [hoff, convertRow_eq h (by rw [hs8]; omega), hrw]
      congr 2
      funext i
      unfold Fb.pixel
      rw [hs8, ← Nat.add_mul, Nat.add_assoc]
    have hrun : tightRows dst src fb x w y (n + 1) data z as = (do
        let (data, z, as) ← tightDeflate (n == 0) as row data z
        tightRows dst src fb x w (y + 1) n data z as) := by
      rw [tightRows, hs8, i1, Outcome.bind_ok, i2, Outcome.bind_ok, hconv, Outcome.bind_ok, if_neg (by omega)]
    rw [hrun]
    obtain ⟨d1, d2⟩ := tightDeflate_eq (flush := n == 0) as row data z hl
    cases hd : tightDeflate (n == 0) as row data z with
    | ub why => exact absurd hd (d1 why)
    | abort why => exact ⟨nofun, nofun⟩
    | ok q =>
      obtain ⟨data1, z1, as1⟩ := q
      obtain ⟨k1, c, c1, c2, c3, c4⟩ := d2 _ _ _ hd
      rw [Outcome.bind_ok]
      obtain ⟨f1, f2⟩ := ih (y + 1) data1 z1 as1 (by omega) k1
      refine ⟨f1, fun data' z' as' h => ?_⟩
      obtain ⟨j1, c', x1, x2, x3, x4⟩ := f2 _ _ _ h
      refine ⟨j1, c ++ c', by rw [x1, c1, List.append_assoc], by rw [x2, c3, List.append_assoc], ?_, fun _ => ?_⟩
      · rw [x3, c2, List.append_assoc, List.range_succ_eq_map, List.flatMap_cons, List.flatMap_map, hrw]
        congr 2
        congr 1
        funext j
        rw [show y + 1 + j = y + j.succ by omega]
      · rcases Nat.eq_zero_or_pos n with h0 | h0
        · subst h0
          cases h
          simpa using c4
        · rw [x4 h0, c4, if_neg (by simp; omega)]

end Verif.Enc
