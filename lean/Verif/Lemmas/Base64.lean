import Verif.Model.Base64
import Verif.Spec.Base64

namespace Verif.Base64

/-! ## Lemmas -/

theorem or3 (a b c : UInt8) :
    (a.toNat <<< 16) ||| (b.toNat <<< 8) ||| c.toNat = a.toNat * 65536 + b.toNat * 256 + c.toNat := by
  have ha := a.toNat_lt; have hb := b.toNat_lt; have hc := c.toNat_lt
  rw [Nat.or_assoc, ← Nat.shiftLeft_add_eq_or_of_lt (b := c.toNat) (by omega),
    ← Nat.shiftLeft_add_eq_or_of_lt (by simp [Nat.shiftLeft_eq]; omega)]
  simp only [Nat.shiftLeft_eq]; omega

theorem or2 (a b : UInt8) :
    (a.toNat <<< 16) ||| (b.toNat <<< 8) = a.toNat * 65536 + b.toNat * 256 := by
  have := or3 a b 0; simpa using this

theorem or4n (a b c d : Nat) (_ha : a < 64) (hb : b < 64) (hc : c < 64) (hd : d < 64) :
    (a <<< 18) ||| (b <<< 12) ||| (c <<< 6) ||| d = a * 262144 + b * 4096 + c * 64 + d := by
  rw [Nat.or_assoc, Nat.or_assoc, ← Nat.shiftLeft_add_eq_or_of_lt (b := d) (by omega),
    ← Nat.shiftLeft_add_eq_or_of_lt (b := c <<< 6 + d) (by simp [Nat.shiftLeft_eq]; omega),
    ← Nat.shiftLeft_add_eq_or_of_lt (by simp [Nat.shiftLeft_eq]; omega)]
  simp only [Nat.shiftLeft_eq]; omega

theorem and3f (n : Nat) : n &&& 0x3f = n % 64 := Nat.and_two_pow_sub_one_eq_mod n 6
theorem andff (n : Nat) : n &&& 0xff = n % 256 := Nat.and_two_pow_sub_one_eq_mod n 8

theorem encLut_length : encLut.length = 64 := by decide

/-- what is in the table at every index: it decodes back, is valid, and is neither `=` nor NUL -/
theorem lut_ok : ∀ n : Fin 64, lut n = some (charOf n) ∧ decLut (charOf n) = n ∧
    valid (charOf n) = true ∧ charOf n ≠ 61 ∧ charOf n ≠ 0 := by
  decide +kernel

theorem lut_eq (n : Nat) (h : n < 64) : lut n = some (charOf n) := (lut_ok ⟨n, h⟩).1
theorem decLut_charOf (n : Nat) (h : n < 64) : decLut (charOf n) = n := (lut_ok ⟨n, h⟩).2.1
theorem valid_charOf (n : Nat) (h : n < 64) : valid (charOf n) = true := (lut_ok ⟨n, h⟩).2.2.1
theorem charOf_ne (n : Nat) (h : n < 64) : charOf n ≠ 61 ∧ charOf n ≠ 0 := (lut_ok ⟨n, h⟩).2.2.2

theorem decLut_lt (c : UInt8) : decLut c < 64 := by
  unfold decLut
  have := c.toNat_lt
  simp only [UInt8.le_iff_toNat_le]
  repeat' split
  all_goals first | decide | (simp at *; omega)

theorem ofNat_toNat' (a : UInt8) (n : Nat) (h : n % 256 = a.toNat) : UInt8.ofNat n = a := by
  apply UInt8.toNat_inj.mp; simpa using h


/-- the sextet values of a byte string -/
def sextets : Bytes → List Nat
  | [] => []
  | [a] => [a.toNat / 4, a.toNat % 4 * 16]
  | [a, b] => [a.toNat / 4, a.toNat % 4 * 16 + b.toNat / 16, b.toNat % 16 * 4]
  | a :: b :: c :: rest =>
    a.toNat / 4 :: (a.toNat % 4 * 16 + b.toNat / 16) :: (b.toNat % 16 * 4 + c.toNat / 64) ::
      c.toNat % 64 :: sextets rest

/-- number of `=` characters -/
def pad (n : Nat) : Nat := (3 - n % 3) % 3

theorem sextets_lt (s : Bytes) : ∀ v ∈ sextets s, v < 64 := by
  fun_induction sextets s with
  | case1 => simp
  | case2 a => have := a.toNat_lt; simp; omega
  | case3 a b => have := a.toNat_lt; have := b.toNat_lt; simp; omega
  | case4 a b c rest ih =>
    have := a.toNat_lt; have := b.toNat_lt; have := c.toNat_lt
    simp only [List.mem_cons]
    rintro v (h | h | h | h | h)
    · omega
    · omega
    · omega
    · omega
    · exact ih v h

theorem encode_eq (s : Bytes) :
    encode s = some ((sextets s).map charOf ++ List.replicate (pad s.length) 61 ++ [0]) := by
  fun_induction sextets s with
  | case1 => simp [encode, pad]
  | case2 a =>
    have := a.toNat_lt
    simp only [encode, and3f, Nat.shiftLeft_eq, Nat.shiftRight_eq_div_pow]
    rw [lut_eq _ (by omega), lut_eq _ (by omega)]
    simp [pad, List.replicate]
    constructor <;> congr 1 <;> omega
  | case3 a b =>
    have := a.toNat_lt; have := b.toNat_lt
    simp only [encode, and3f, or2, Nat.shiftRight_eq_div_pow]
    rw [lut_eq _ (by omega), lut_eq _ (by omega), lut_eq _ (by omega)]
    simp [pad]
    refine ⟨?_, ?_, ?_⟩ <;> congr 1 <;> omega
  | case4 a b c rest ih =>
    have := a.toNat_lt; have := b.toNat_lt; have := c.toNat_lt
    simp only [encode, encTriple, and3f, or3, Nat.shiftRight_eq_div_pow, ih]
    rw [lut_eq _ (by omega), lut_eq _ (by omega), lut_eq _ (by omega), lut_eq _ (by omega)]
    have hp : pad (a :: b :: c :: rest).length = pad rest.length := by simp [pad]; omega
    simp only [hp, List.map_cons]
    simp
    refine ⟨?_, ?_, ?_, ?_⟩ <;> congr 1 <;> omega


theorem decBody_sextets (s : Bytes) : decBody ((sextets s).map charOf) = s := by
  fun_induction sextets s with
  | case1 => simp [decBody]
  | case2 a =>
    have := a.toNat_lt
    simp only [List.map, decBody, decLut_charOf (a.toNat / 4) (by omega),
      decLut_charOf (a.toNat % 4 * 16) (by omega), andff]
    have h := or4n (a.toNat / 4) (a.toNat % 4 * 16) 0 0 (by omega) (by omega) (by omega) (by omega)
    simp only [Nat.zero_shiftLeft, Nat.or_zero] at h
    rw [h, ofNat_toNat' a]
    simp only [Nat.shiftRight_eq_div_pow]; omega
  | case3 a b =>
    have := a.toNat_lt; have := b.toNat_lt
    simp only [List.map, decBody, decLut_charOf (a.toNat / 4) (by omega),
      decLut_charOf (a.toNat % 4 * 16 + b.toNat / 16) (by omega),
      decLut_charOf (b.toNat % 16 * 4) (by omega), andff]
    have h := or4n (a.toNat / 4) (a.toNat % 4 * 16 + b.toNat / 16) (b.toNat % 16 * 4) 0
      (by omega) (by omega) (by omega) (by omega)
    simp only [Nat.or_zero] at h
    rw [h, ofNat_toNat' a, ofNat_toNat' b]
    all_goals simp only [Nat.shiftRight_eq_div_pow]; omega
  | case4 a b c rest ih =>
    have := a.toNat_lt; have := b.toNat_lt; have := c.toNat_lt
    simp only [List.map, decBody, decLut_charOf (a.toNat / 4) (by omega),
      decLut_charOf (a.toNat % 4 * 16 + b.toNat / 16) (by omega),
      decLut_charOf (b.toNat % 16 * 4 + c.toNat / 64) (by omega),
      decLut_charOf (c.toNat % 64) (by omega), andff]
    rw [or4n _ _ _ _ (by omega) (by omega) (by omega) (by omega), ih,
      ofNat_toNat' a, ofNat_toNat' b, ofNat_toNat' c]
    all_goals (try simp only [Nat.shiftRight_eq_div_pow]); omega

theorem sextets_length (s : Bytes) : (sextets s).length + pad s.length = (s.length + 2) / 3 * 4 := by
  fun_induction sextets s with
  | case1 => simp [pad]
  | case2 => simp [pad]
  | case3 => simp [pad]
  | case4 a b c rest ih => simp [pad] at *; omega

theorem bitsOf_succ (w n : Nat) : bitsOf (w + 1) n = bitsOf w (n / 2) ++ [n.testBit 0] := by
  unfold bitsOf
  rw [List.range_succ, List.map_append]
  congr 1
  · apply List.map_congr_left
    intro i hi
    have : i < w := List.mem_range.mp hi
    rw [show w + 1 - 1 - i = (w - 1 - i) + 1 by omega, Nat.testBit_succ]
  · simp

theorem bitsOf_length (w n : Nat) : (bitsOf w n).length = w := by simp [bitsOf]

theorem bitsOf_append (w v a b : Nat) (hb : b < 2 ^ v) :
    bitsOf (w + v) (a * 2 ^ v + b) = bitsOf w a ++ bitsOf v b := by
  induction v generalizing b with
  | zero => simp at hb; subst hb; simp [bitsOf]
  | succ v ih =>
    rw [← Nat.add_assoc, bitsOf_succ, bitsOf_succ, ← List.append_assoc]
    have e : a * 2 ^ (v + 1) = a * 2 ^ v * 2 := by rw [Nat.pow_succ, Nat.mul_assoc]
    rw [Nat.pow_succ] at hb
    have h1 : (a * 2 ^ (v + 1) + b) / 2 = a * 2 ^ v + b / 2 := by rw [e]; omega
    have h2 : (a * 2 ^ (v + 1) + b).testBit 0 = b.testBit 0 := by
      simp only [Nat.testBit_zero]; rw [e]; congr 1; apply propext; omega
    rw [h1, h2, ih _ (by omega)]

/-- splitting a `w + v` bit field -/
theorem bitsOf_split (w v n : Nat) : bitsOf (w + v) n = bitsOf w (n / 2 ^ v) ++ bitsOf v (n % 2 ^ v) := by
  have h := bitsOf_append w v (n / 2 ^ v) (n % 2 ^ v) (Nat.mod_lt _ (Nat.two_pow_pos v))
  rwa [Nat.mul_comm, Nat.div_add_mod] at h

theorem bitsOf_zero (w : Nat) : bitsOf w 0 = List.replicate w false := by
  simp only [bitsOf, Nat.zero_testBit]; simp [List.map_const']

theorem bits_sextets (s : Bytes) :
    (sextets s).flatMap (bitsOf 6) = byteBits s ++ List.replicate (2 * pad s.length) false := by
  have d0 (a : UInt8) : bitsOf 8 a.toNat = bitsOf 6 (a.toNat / 4) ++ bitsOf 2 (a.toNat % 4) :=
    bitsOf_split 6 2 _
  have d0' (a : UInt8) : bitsOf 8 a.toNat = bitsOf 4 (a.toNat / 16) ++ bitsOf 4 (a.toNat % 16) :=
    bitsOf_split 4 4 _
  have d0'' (a : UInt8) : bitsOf 8 a.toNat = bitsOf 2 (a.toNat / 64) ++ bitsOf 6 (a.toNat % 64) :=
    bitsOf_split 2 6 _
  have d2 (a : Nat) (b : Nat) (hb : b < 16) : bitsOf 6 (a * 16 + b) = bitsOf 2 a ++ bitsOf 4 b :=
    bitsOf_append 2 4 a b hb
  have d3 (a : Nat) (b : Nat) (hb : b < 4) : bitsOf 6 (a * 4 + b) = bitsOf 4 a ++ bitsOf 2 b :=
    bitsOf_append 4 2 a b hb
  fun_induction sextets s with
  | case1 => simp [byteBits, pad]
  | case2 a =>
    have e2 := d2 (a.toNat % 4) 0 (by omega)
    simp only [Nat.add_zero, bitsOf_zero] at e2
    simp only [List.flatMap_cons, List.flatMap_nil, List.append_nil, byteBits, e2, d0 a,
      List.append_assoc]
    rfl
  | case3 a b =>
    have ha := a.toNat_lt; have hb := b.toNat_lt
    have e2 := d2 (a.toNat % 4) (b.toNat / 16) (by omega)
    have e3 := d3 (b.toNat % 16) 0 (by omega)
    simp only [Nat.add_zero, bitsOf_zero] at e3
    simp only [List.flatMap_cons, List.flatMap_nil, List.append_nil, byteBits, e2, e3,
      d0 a, d0' b, List.append_assoc]
    rfl
  | case4 a b c rest ih =>
    have ha := a.toNat_lt; have hb := b.toNat_lt; have hc := c.toNat_lt
    have e2 := d2 (a.toNat % 4) (b.toNat / 16) (by omega)
    have e3 := d3 (b.toNat % 16) (c.toNat / 64) (by omega)
    have hp : pad (a :: b :: c :: rest).length = pad rest.length := by simp [pad]; omega
    simp only [List.flatMap_cons, byteBits, e2, e3, ih, hp, d0 a, d0' b, d0'' c, List.append_assoc]

/-- every byte stored before the NUL is a base64 character and not NUL -/
theorem body_chars (s : Bytes) :
    ∀ c ∈ (sextets s).map charOf ++ List.replicate (pad s.length) 61,
      valid c = true ∧ c ≠ 0 := by
  intro c hc
  simp only [List.mem_append, List.mem_map, List.mem_replicate] at hc
  rcases hc with ⟨v, hv, rfl⟩ | ⟨_, rfl⟩
  · have := sextets_lt s v hv; exact ⟨valid_charOf v this, (charOf_ne v this).2⟩
  · decide

theorem takeWhile_append_of_all {p : UInt8 → Bool} {l r : Bytes} (h : ∀ x ∈ l, p x = true) :
    (l ++ r).takeWhile p = l ++ r.takeWhile p := by
  induction l with
  | nil => simp
  | cons a l ih =>
    simp only [List.cons_append, List.takeWhile_cons, h a (by simp), if_true]
    rw [ih fun x hx => h x (by simp [hx])]

theorem decBody_length (s : Bytes) : (decBody s).length = s.length * 3 / 4 := by
  fun_induction decBody s <;> simp [*]; omega

/-- The value bits the decoder has to output: the sextet values of the characters, concatenated,
cut to whole bytes. -/
theorem decBody_bits (s : Bytes) :
    ∃ k, k < 8 ∧ (byteBits (decBody s)) ++ ((s.flatMap fun c => bitsOf 6 (decLut c)).drop
      (8 * (decBody s).length)) = (s.flatMap fun c => bitsOf 6 (decLut c)) ∧
      6 * s.length = 8 * (decBody s).length + k := by
  have d1 (a b : Nat) : bitsOf 6 a ++ bitsOf 6 b = bitsOf 8 (a * 4 + b / 16 % 4) ++ bitsOf 4 (b % 16) := by
    have h1 := bitsOf_append 6 2 a (b / 16 % 4) (by omega)
    have h2 := bitsOf_split 2 4 b
    have h3 := bitsOf_split 0 2 (b / 16)
    simp only [Nat.reduceAdd, Nat.reducePow] at h1 h2 h3
    rw [h1, h2, h3]; simp [bitsOf]
  have d2 (b c : Nat) : bitsOf 4 b ++ bitsOf 6 c = bitsOf 8 (b * 16 + c / 4 % 16) ++ bitsOf 2 (c % 4) := by
    have h1 := bitsOf_append 4 4 b (c / 4 % 16) (by omega)
    have h2 := bitsOf_split 4 2 c
    have h3 := bitsOf_split 0 4 (c / 4)
    simp only [Nat.reduceAdd, Nat.reducePow] at h1 h2 h3
    rw [h1, h2, h3]; simp [bitsOf]
  have d3 (c d : Nat) (hd : d < 64) : bitsOf 2 c ++ bitsOf 6 d = bitsOf 8 (c * 64 + d) :=
    (bitsOf_append 2 6 c d hd).symm
  have L := bitsOf_length
  fun_induction decBody s with
  | case1 => exact ⟨0, by simp [byteBits]⟩
  | case2 a => exact ⟨6, by simp [byteBits]⟩
  | case3 a b tmp =>
    have ha := decLut_lt a; have hb := decLut_lt b
    refine ⟨4, by omega, ?_, by simp⟩
    have e1 := d1 (decLut a) (decLut b)
    rw [Nat.mod_eq_of_lt (a := decLut b / 16) (by omega)] at e1
    have h := or4n (decLut a) (decLut b) 0 0 ha hb (by omega) (by omega)
    simp only [Nat.zero_shiftLeft, Nat.or_zero] at h
    change tmp = _ at h
    have : ((tmp >>> 16) &&& 255) % 256 = decLut a * 4 + decLut b / 16 := by
      rw [h, andff, Nat.shiftRight_eq_div_pow]; omega
    simp only [byteBits, List.flatMap_cons, List.flatMap_nil, List.append_nil, toNat_ofNat8, e1, this]
    rw [List.drop_append_of_le_length (by simp [L]), List.drop_of_length_le (by simp [L])]
    simp
  | case4 a b c tmp =>
    have ha := decLut_lt a; have hb := decLut_lt b; have hc := decLut_lt c
    refine ⟨2, by omega, ?_, by simp⟩
    have e1 := d1 (decLut a) (decLut b)
    have e2 := d2 (decLut b % 16) (decLut c)
    rw [Nat.mod_eq_of_lt (a := decLut b / 16) (by omega)] at e1
    rw [Nat.mod_eq_of_lt (a := decLut c / 4) (by omega)] at e2
    have h := or4n (decLut a) (decLut b) (decLut c) 0 ha hb hc (by omega)
    simp only [Nat.or_zero] at h
    change tmp = _ at h
    have t1 : ((tmp >>> 16) &&& 255) % 256 = decLut a * 4 + decLut b / 16 := by
      rw [h, andff, Nat.shiftRight_eq_div_pow]; omega
    have t2 : ((tmp >>> 8) &&& 255) % 256 = decLut b % 16 * 16 + decLut c / 4 := by
      rw [h, andff, Nat.shiftRight_eq_div_pow]; omega
    simp only [byteBits, List.flatMap_cons, List.flatMap_nil, List.append_nil, toNat_ofNat8, t1, t2]
    have key : bitsOf 6 (decLut a) ++ (bitsOf 6 (decLut b) ++ bitsOf 6 (decLut c)) =
        (bitsOf 8 (decLut a * 4 + decLut b / 16) ++ bitsOf 8 (decLut b % 16 * 16 + decLut c / 4)) ++
          bitsOf 2 (decLut c % 4) := by
      rw [← List.append_assoc, e1, List.append_assoc, e2, List.append_assoc]
    rw [key, List.drop_append_of_le_length (by simp [L]), List.drop_of_length_le (by simp [L])]
    simp
  | case5 a b c d rest tmp ih =>
    have ha := decLut_lt a; have hb := decLut_lt b; have hc := decLut_lt c; have hd := decLut_lt d
    obtain ⟨k, hk, h1, h2⟩ := ih
    refine ⟨k, hk, ?_, by simp; omega⟩
    have e1 := d1 (decLut a) (decLut b)
    have e2 := d2 (decLut b % 16) (decLut c)
    have e3 := d3 (decLut c % 4) (decLut d) hd
    rw [Nat.mod_eq_of_lt (a := decLut b / 16) (by omega)] at e1
    rw [Nat.mod_eq_of_lt (a := decLut c / 4) (by omega)] at e2
    have h : tmp = decLut a * 262144 + decLut b * 4096 + decLut c * 64 + decLut d :=
      or4n (decLut a) (decLut b) (decLut c) (decLut d) ha hb hc hd
    have t1 : (tmp >>> 16) % 256 = decLut a * 4 + decLut b / 16 := by
      rw [h, Nat.shiftRight_eq_div_pow]; omega
    have t2 : ((tmp >>> 8) &&& 255) % 256 = decLut b % 16 * 16 + decLut c / 4 := by
      rw [h, andff, Nat.shiftRight_eq_div_pow]; omega
    have t3 : (tmp &&& 255) % 256 = decLut c % 4 * 64 + decLut d := by
      rw [h, andff]; omega
    have key : ∀ X : List Bool, bitsOf 6 (decLut a) ++ (bitsOf 6 (decLut b) ++ (bitsOf 6 (decLut c) ++ (bitsOf 6 (decLut d) ++ X)))
        = bitsOf 8 (decLut a * 4 + decLut b / 16) ++ (bitsOf 8 (decLut b % 16 * 16 + decLut c / 4) ++
          (bitsOf 8 (decLut c % 4 * 64 + decLut d) ++ X)) := by
      intro X
      rw [← List.append_assoc, e1, List.append_assoc, ← List.append_assoc (bitsOf 4 _), e2,
        List.append_assoc (bitsOf 8 (decLut b % 16 * 16 + decLut c / 4)), ← List.append_assoc (bitsOf 2 _), e3]
    simp only [byteBits, List.flatMap_cons, toNat_ofNat8, t1, t2, t3, key, List.length_cons]
    have e8 : 8 * ((decBody rest).length + 1 + 1 + 1) = 8 + (8 + (8 + 8 * (decBody rest).length)) := by omega
    rw [e8]
    simp only [List.append_assoc]
    congr 1; 
    simp only [← List.drop_drop]
    rw [List.drop_append_of_le_length (by simp [L])]
    simp only [List.drop_of_length_le (Nat.le_of_eq (L 8 _)), List.nil_append]
    rw [List.drop_append_of_le_length (by simp [L])]
    simp only [List.drop_of_length_le (Nat.le_of_eq (L 8 _)), List.nil_append]
    rw [List.drop_append_of_le_length (by simp [L])]
    simp only [List.drop_of_length_le (Nat.le_of_eq (L 8 _)), List.nil_append]
    simp only [byteBits] at h1
    rw [h1]

end Verif.Base64
