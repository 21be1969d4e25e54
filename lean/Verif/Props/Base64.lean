import Verif.Lemmas.Base64

/-! # Properties of base64 (C37) -/

namespace Verif.Base64

/-- C37.  The encoder never indexes outside its table, stores exactly `BASE64_ENCODED_SIZE`
bytes, the last of which is the terminating NUL, and the text before it is the RFC 4648 text of
the input. -/
theorem c37_encode_correct (s : Bytes) :
    ∃ out, encode s = some (out ++ [0]) ∧ (0 : UInt8) ∉ out ∧
      (out ++ [0]).length = encodedSize s.length ∧ IsBase64 s out := by
  refine ⟨_, encode_eq s, ?_, ?_, sextets s, sextets_lt s, ⟨2 * pad s.length, ?_, bits_sextets s⟩,
    pad s.length, ?_, ?_, rfl⟩
  · intro h; exact (body_chars s 0 h).2 rfl
  · have := sextets_length s; simp [encodedSize]; omega
  · unfold pad; omega
  · unfold pad; omega
  · rw [sextets_length]; omega

example : encode [97, 98, 99, 100] = some ("YWJjZA==".toList.map (fun c => UInt8.ofNat c.toNat) ++ [0]) := by
  decide

/-- C37.  Decoding what was encoded gives the input back, whatever memory follows the text. -/
theorem c37_decode_encode (s junk : Bytes) :
    ∃ out, encode s = some out ∧ decode (out ++ junk) = some s := by
  refine ⟨_, encode_eq s, ?_⟩
  have hc : cstr ((sextets s).map charOf ++ List.replicate (pad s.length) 61 ++ [0] ++ junk)
      = (sextets s).map charOf ++ List.replicate (pad s.length) 61 := by
    unfold cstr
    rw [List.append_assoc, takeWhile_append_of_all]
    · simp
    · intro c hc; simpa using (body_chars s c hc).2
  unfold decode
  simp only [hc]
  have hv : isValid ((sextets s).map charOf ++ List.replicate (pad s.length) 61) = true := by
    simp only [isValid, List.all_eq_true]; exact fun c hc => (body_chars s c hc).1
  rw [if_pos hv, takeWhile_append_of_all]
  · have : (List.replicate (pad s.length) (61 : UInt8)).takeWhile (· ≠ 61) = [] := by
      cases pad s.length <;> simp [List.replicate]
    rw [this, List.append_nil, decBody_sextets]
  · intro c hc
    obtain ⟨v, hv, rfl⟩ := List.mem_map.mp hc
    simpa using (charOf_ne v (sextets_lt s v hv)).1

example : decode ([89, 87, 74, 106, 90, 65, 61, 61, 0] ++ [1, 2, 3]) = some [97, 98, 99, 100] := by decide

/-- C37.  The decoder rejects exactly the strings with a character outside the two RFC 4648
alphabets and `=`. -/
theorem c37_decode_rejects (mem : Bytes) :
    decode mem = none ↔ ∃ c ∈ cstr mem,
      Char.ofNat c.toNat ∉ alphabet ∧ Char.ofNat c.toNat ∉ ['-', '_', '='] := by
  have key : ∀ c : UInt8, valid c = true ↔
      (Char.ofNat c.toNat ∈ alphabet ∨ Char.ofNat c.toNat ∈ ['-', '_', '=']) := by
    have : ∀ n : Fin 256, valid (UInt8.ofNat n) = true ↔
      (Char.ofNat (UInt8.ofNat n).toNat ∈ alphabet ∨ Char.ofNat (UInt8.ofNat n).toNat ∈ ['-', '_', '=']) := by
      decide +kernel
    intro c
    have h := this ⟨c.toNat, c.toNat_lt⟩
    simpa only [UInt8.ofNat_toNat] using h
  unfold decode
  simp only
  by_cases h : isValid (cstr mem) = true
  · rw [if_pos h]
    simp only [reduceCtorEq, false_iff, not_exists, not_and]
    intro c hc hn
    simp only [isValid, List.all_eq_true] at h
    exact fun hx => ((key c).mp (h c hc)).elim hn hx
  · rw [if_neg h]
    simp only [true_iff]
    simp only [isValid, List.all_eq_true, Classical.not_forall] at h
    obtain ⟨c, hc, hv⟩ := h
    refine ⟨c, hc, ?_⟩
    rw [key] at hv
    exact ⟨fun a => hv (.inl a), fun a => hv (.inr a)⟩

example : decode [65, 33, 65, 65, 0] = none := by decide

/-- C37.  On success the decoder stores at most `BASE64_DECODED_MAX_SIZE` bytes and these are the
leading whole bytes of the concatenated sextet values of the characters before the first `=`. -/
theorem c37_decode_correct (mem out : Bytes) (h : decode mem = some out) :
    out.length ≤ decodedMaxSize (cstr mem).length ∧
    ∃ rest, rest.length < 8 ∧
      byteBits out ++ rest = ((cstr mem).takeWhile (· ≠ 61)).flatMap fun c => bitsOf 6 (decLut c) := by
  unfold decode at h
  simp only at h
  split at h
  · obtain rfl := Option.some.inj h
    constructor
    · rw [decBody_length]
      have : ((cstr mem).takeWhile (· ≠ 61)).length ≤ (cstr mem).length :=
        (List.takeWhile_sublist _).length_le
      unfold decodedMaxSize; omega
    · obtain ⟨k, hk, h1, h2⟩ := decBody_bits ((cstr mem).takeWhile (· ≠ 61))
      refine ⟨_, ?_, h1⟩
      have L : ∀ s : Bytes, (s.flatMap fun c => bitsOf 6 (decLut c)).length = 6 * s.length := by
        intro s; induction s with
        | nil => simp
        | cons a s ih => simp only [List.flatMap_cons, List.length_append, ih]; simp [bitsOf]; omega
      rw [List.length_drop, L]; omega
  · cases h

/-- `decLut`, used in the statement above, is the value of the character in the standard alphabet
and in the URL-safe one. -/
theorem c37_decLut_spec : ∀ v : Fin 64, decLut (charOf v) = v := fun v => decLut_charOf v v.2
theorem c37_decLut_urlsafe : decLut 45 = 62 ∧ decLut 95 = 63 := by decide

example : decode [89, 87, 74, 0] = some [97, 98] := by decide

end Verif.Base64
