import Verif.Spec.Keys

/-!
# Key exchange (C74, C75, C76)
-/

namespace Verif.Keys

/-! ## Numbers and bytes -/

theorem beNat_append (a b : Bytes) : beNat (a ++ b) = beNat a * 256 ^ b.length + beNat b := by
  have gen : ∀ (b : Bytes) (x : Nat),
      b.foldl (fun acc b => acc * 256 + b.toNat) x = x * 256 ^ b.length + beNat b := by
    intro b
    induction b with
    | nil => intro x; simp [beNat]
    | cons y b ih =>
      intro x
      unfold beNat
      simp only [List.foldl_cons, List.length_cons]
      rw [ih, ih (0 * 256 + y.toNat), Nat.pow_succ]
      simp only [Nat.zero_mul, Nat.zero_add, Nat.add_mul, Nat.mul_assoc]
      rw [Nat.mul_comm 256 (256 ^ b.length)]
      omega
  unfold beNat
  rw [List.foldl_append, gen]
  rfl

theorem beNat_zeros (k : Nat) : beNat (List.replicate k 0) = 0 := by
  induction k with
  | zero => rfl
  | succ k ih => rw [List.replicate_succ', beNat_append, ih]; rfl

theorem beNat_lt (b : Bytes) : beNat b < 256 ^ b.length := by
  induction b with
  | nil => decide
  | cons x b ih =>
    have e : x :: b = [x] ++ b := rfl
    rw [e, beNat_append, List.length_append, Nat.add_comm [x].length, Nat.pow_add,
      List.length_singleton, Nat.pow_one]
    have hx : beNat [x] + 1 ≤ 256 := by
      have := x.toNat_lt
      simp [beNat]; omega
    have := Nat.mul_le_mul_right (256 ^ b.length) hx
    rw [Nat.add_mul] at this
    rw [Nat.mul_comm (256 ^ b.length)]
    omega

theorem digits_length (k n : Nat) : (digits k n).length = k := by
  induction k generalizing n with
  | zero => rfl
  | succ k ih => simp [digits, ih]

theorem beNat_digits (k n : Nat) : beNat (digits k n) = n % 256 ^ k := by
  induction k generalizing n with
  | zero => simp [digits, beNat, Nat.mod_one]
  | succ k ih =>
    simp only [digits]
    rw [beNat_append, ih]
    have e : beNat [UInt8.ofNat n] = n % 256 := by simp [beNat]
    rw [e, List.length_singleton, Nat.pow_one, Nat.pow_succ, Nat.mul_comm (256 ^ k) 256,
      Nat.mod_mul]
    omega

theorem digits_beNat (b : Bytes) : digits b.length (beNat b) = b := by
  induction h : b.length generalizing b with
  | zero => rw [List.length_eq_zero_iff.mp h]; rfl
  | succ k ih =>
    have hne : b ≠ [] := by intro e; subst e; simp at h
    have e := (List.dropLast_concat_getLast hne).symm
    generalize b.dropLast = i at e
    generalize b.getLast hne = l at e
    subst e
    have hi : i.length = k := by simp at h; exact h
    simp only [digits]
    rw [beNat_append]
    have hl : beNat [l] = l.toNat := by simp [beNat]
    have := l.toNat_lt
    rw [hl, List.length_singleton, Nat.pow_one]
    have e1 : (beNat i * 256 + l.toNat) / 256 = beNat i := by omega
    rw [e1, ih i hi]
    congr 2
    apply UInt8.toNat_inj.mp
    rw [toNat_ofNat8]
    omega

/-- the low digits come last, whatever stands before -/
theorem digits_more (k j n : Nat) : digits (j + k) n = digits j (n / 256 ^ k) ++ digits k n := by
  induction k generalizing n with
  | zero => simp [digits]
  | succ k ih =>
    rw [← Nat.add_assoc]
    simp only [digits]
    rw [ih, Nat.pow_succ, Nat.mul_comm (256 ^ k) 256, Nat.div_div_eq_div_mul]
    simp

theorem digits_zero (k : Nat) : digits k 0 = List.replicate k 0 := by
  induction k with
  | zero => rfl
  | succ k ih => simp only [digits]; rw [Nat.zero_div, ih, List.replicate_succ']; rfl

/-- the fields of the protocol -/
theorem fixed_eq (k n : Nat) : fixed k n = digits k n := by
  induction k generalizing n with
  | zero => rfl
  | succ k ih =>
    simp only [digits]
    rw [← ih]
    unfold fixed
    rw [List.range_succ, List.map_append]
    congr 1
    · apply List.map_congr_left
      intro i hi
      rw [List.mem_range] at hi
      rw [Nat.div_div_eq_div_mul, ← Nat.pow_succ']
      congr 3
      omega
    · simp

theorem pow256 (k : Nat) : 256 ^ k = 2 ^ (8 * k) := by
  rw [Nat.pow_mul]

theorem lt_byteSize (n : Nat) : n < 256 ^ byteSize n := by
  rw [pow256]
  have h : n < 2 ^ sizeInBase2 n := by
    unfold sizeInBase2
    split
    · rename_i h; subst h; decide
    · exact Nat.lt_log2_self
  refine Nat.lt_of_lt_of_le h (Nat.pow_le_pow_right (by decide) ?_)
  unfold byteSize
  omega

theorem byteSize_pos (n : Nat) : 0 < byteSize n := by
  have : 0 < sizeInBase2 n := by unfold sizeInBase2; split <;> omega
  unfold byteSize
  omega

theorem byteSize_le {n k : Nat} (hk : 0 < k) (h : n < 256 ^ k) : byteSize n ≤ k := by
  have hs : sizeInBase2 n ≤ 8 * k := by
    unfold sizeInBase2
    split
    · omega
    · rename_i hn
      rw [pow256] at h
      have := (Nat.log2_lt hn).mpr h
      omega
  unfold byteSize
  omega

theorem le_byteSize {n k : Nat} (h : 256 ^ k ≤ n) : k + 1 ≤ byteSize n := by
  rcases Nat.lt_or_ge (byteSize n) (k + 1) with c | c
  · have h1 := lt_byteSize n
    have := Nat.pow_le_pow_right (n := 256) (by decide) (Nat.lt_succ_iff.mp c)
    omega
  · exact c

theorem byteSize_eq {n k : Nat} (hk : 0 < k) (h1 : 256 ^ (k - 1) ≤ n) (h2 : n < 256 ^ k) :
    byteSize n = k := by
  have a := byteSize_le hk h2
  have b := le_byteSize h1
  omega

/-- a number that fits is exported to its field -/
theorem exportN_ok {size n : Nat} (hs : 0 < size) (h : n < 256 ^ size) :
    exportN size n = .ok (digits size n, if n = 0 then 0 else byteSize n) := by
  have hb := byteSize_le hs h
  unfold exportN
  rw [if_neg (by omega)]
  have e : size = (size - byteSize n) + byteSize n := by omega
  congr 2
  conv => rhs; rw [e]
  rw [digits_more, Nat.div_eq_of_lt (lt_byteSize n), digits_zero]

/-- and one that does not fit fails the assertion -/
theorem exportN_abort {size n : Nat} (h : 256 ^ size ≤ n) : ∃ w, exportN size n = .abort w := by
  have := le_byteSize h
  exact ⟨_, by unfold exportN; rw [if_pos (by omega)]⟩

/-! ## C74: Apple Diffie-Hellman -/

theorem modp_lt : modp < 256 ^ 256 := by decide +kernel
theorem modp_le : 256 ^ 255 ≤ modp := by decide +kernel
theorem modp_pos : 0 < modp := by decide +kernel

theorem export_modp : exportN 256 modp = .ok (digits 256 modp, 256) := by
  rw [exportN_ok (by decide) modp_lt, if_neg (by have := modp_pos; omega),
    byteSize_eq (by decide) modp_le modp_lt]

theorem appleSend_eq {rand : Bytes} (h : 0 < beNat rand) : appleSend rand =
    (exportN 256 (2 ^ beNat rand % modp) >>= fun q =>
      need (q.2 == 256) "q_len == sizeof(q)" >>= fun _ =>
      .ok (be16 2 ++ be16 q.2 ++ digits 256 modp ++ q.1)) := by
  unfold appleSend derivePublic powm keygen importN
  simp only
  rw [if_neg (by omega)]
  simp only [Outcome.bind_ok]
  rw [export_modp]
  simp only [Outcome.bind_ok, need, beq_self_eq_true, if_true]

theorem appleSend_full {rand : Bytes} (h : 0 < beNat rand)
    (hf : 256 ^ 255 ≤ 2 ^ beNat rand % modp) : appleSend rand =
    .ok (be16 2 ++ be16 256 ++ digits 256 modp ++ digits 256 (2 ^ beNat rand % modp)) := by
  rw [appleSend_eq h]
  generalize hq : 2 ^ beNat rand % modp = q at hf ⊢
  have hlt : q < 256 ^ 256 := by
    rw [← hq]; exact Nat.lt_trans (Nat.mod_lt _ modp_pos) modp_lt
  have hpos : 0 < 256 ^ 255 := Nat.pow_pos (by decide)
  rw [exportN_ok (by decide) hlt, if_neg (by omega), byteSize_eq (by decide) hf hlt]
  simp only [Outcome.bind_ok, need, beq_self_eq_true, if_true]

theorem appleSend_short {rand : Bytes} (h : 0 < beNat rand)
    (hf : 2 ^ beNat rand % modp < 256 ^ 255) : ∃ w, appleSend rand = .abort w := by
  rw [appleSend_eq h]
  generalize 2 ^ beNat rand % modp = q at hf ⊢
  have hlt : q < 256 ^ 256 :=
    Nat.lt_trans hf (Nat.pow_lt_pow_right (by decide) (by decide))
  have hb := byteSize_le (k := 255) (by decide) hf
  rw [exportN_ok (by decide) hlt]
  refine ⟨"q_len == sizeof(q)", ?_⟩
  have : (((if q = 0 then 0 else byteSize q) == 256) : Bool) = false := by
    rw [beq_eq_false_iff_ne]
    split <;> omega
  simp only [Outcome.bind_ok, need, this, Bool.false_eq_true, if_false, Outcome.bind_abort]

/-- the shared number on the server's side -/
theorem appleCreds_eq (L : Lib) {rand : Bytes} (h : 0 < beNat rand) (enc pub : Bytes) :
    appleCreds L rand enc pub =
      .ok (cstr ((L.aesEcb (L.md5 (digits 256 (beNat pub ^ beNat rand % modp))) enc).take 63),
        cstr (((L.aesEcb (L.md5 (digits 256 (beNat pub ^ beNat rand % modp))) enc).drop 64).take
          63)) := by
  unfold appleCreds keygen keyNew deriveShared powm importN
  simp only
  rw [export_modp]
  simp only [Outcome.bind_ok, need, beq_self_eq_true, if_true, ne_eq, not_true, if_false]
  have e : beNat (digits 256 modp) = modp := by rw [beNat_digits, Nat.mod_eq_of_lt modp_lt]
  rw [e]
  simp only [not_true, if_false]
  rw [if_neg (by omega)]
  simp only [Outcome.bind_ok]
  rw [exportN_ok (by decide) (Nat.lt_trans (Nat.mod_lt _ modp_pos) modp_lt)]
  simp only [Outcome.bind_ok]

/-- **C74** (partial: only when the server's public key fills its field, see
`c74_server_violated`).  The server's message says the generator, the group and the server's public
key; when the client answers it as the protocol says, the name and the password handed to the
application are the ones the client put in, whatever secrets the two sides drew. -/
theorem c74_login_partial {L : Lib} {aesEnc : Bytes → Bytes → Bytes} (haes : AesOk L aesEnc)
    {rand : Bytes} (h : 0 < beNat rand) (hf : 256 ^ 255 ≤ 2 ^ beNat rand % modp) :
    ∃ m g len p pub, appleSend rand = .ok m ∧ appleParse m = some (g, len, p, pub) ∧
      ∀ secret userField user passField pass more, Holds userField user → Holds passField pass →
        appleResponse L rand
          (appleReply L.md5 aesEnc secret userField passField g len p pub ++ more) =
          .ok (some (user, pass)) := by
  refine ⟨_, 2, 256, modp, 2 ^ beNat rand % modp, appleSend_full h hf, ?_, ?_⟩
  · have hlt : 2 ^ beNat rand % modp < 256 ^ 256 :=
      Nat.lt_trans (Nat.mod_lt _ modp_pos) modp_lt
    have hd : ∀ a b, appleParse (be16 2 ++ be16 256 ++ digits 256 a ++ digits 256 b) =
        some (2, 256, beNat (digits 256 a), beNat (digits 256 b)) := by
      intro a b
      have ha := digits_length 256 a
      have hb := digits_length 256 b
      generalize digits 256 a = x at ha ⊢
      generalize digits 256 b = y at hb ⊢
      have e : be16 2 ++ be16 256 ++ x ++ y = 0 :: 2 :: 1 :: 0 :: (x ++ y) := by
        have : be16 2 ++ be16 256 = [0, 2, 1, 0] := by decide
        rw [this]; rfl
      have r1 : rd16 0 2 = 2 := by decide
      have r2 : rd16 1 0 = 256 := by decide
      rw [e]
      unfold appleParse
      simp only [r1, r2]
      rw [if_pos (by rw [List.length_append, ha, hb]), ← ha, List.take_left', List.drop_left']
      all_goals rfl
    rw [hd, beNat_digits, beNat_digits, Nat.mod_eq_of_lt modp_lt, Nat.mod_eq_of_lt hlt]
  · intro secret uf user pf pass more hu hp
    obtain ⟨hul, hu0, fu, hue⟩ := hu
    obtain ⟨hpl, hp0, fp, hpe⟩ := hp
    unfold appleReply
    obtain ⟨el, ed⟩ := haes (L.md5 (fixed 256 ((2 ^ beNat rand % modp) ^ secret % modp)))
      (uf ++ pf) (by rw [List.length_append, hul, hpl])
    have hpow : (2 ^ beNat rand % modp) ^ secret % modp =
        (2 ^ secret % modp) ^ beNat rand % modp := by
      rw [← Nat.pow_mod, ← Nat.pow_mod, ← Nat.pow_mul, ← Nat.pow_mul, Nat.mul_comm]
    generalize aesEnc (L.md5 (fixed 256 ((2 ^ beNat rand % modp) ^ secret % modp))) (uf ++ pf) =
      enc at el ed ⊢
    have hfl : (fixed 256 (2 ^ secret % modp)).length = 256 := by
      rw [fixed_eq, digits_length]
    have hfn : beNat (fixed 256 (2 ^ secret % modp)) = 2 ^ secret % modp := by
      rw [fixed_eq, beNat_digits,
        Nat.mod_eq_of_lt (Nat.lt_trans (Nat.mod_lt _ modp_pos) modp_lt)]
    generalize fixed 256 (2 ^ secret % modp) = cp at hfl hfn ⊢
    unfold appleResponse
    have s1 : slice (enc ++ cp ++ more) 0 128 = some enc := by
      unfold slice
      rw [if_pos (by simp only [List.length_append]; omega), List.drop_zero, List.append_assoc,
        ← el, List.take_left' rfl]
    have s2 : slice (enc ++ cp ++ more) 128 256 = some cp := by
      unfold slice
      rw [if_pos (by simp only [List.length_append]; omega), List.append_assoc, ← el,
        List.drop_left' rfl, ← hfl, List.take_left' rfl]
    rw [s1, s2]
    simp only
    rw [appleCreds_eq L h, hfn, ← hpow, ← fixed_eq, ed]
    simp only [Outcome.bind_ok]
    have str : ∀ (f s fill more : Bytes), f.length = 64 → (0 : UInt8) ∉ s → f = s ++ 0 :: fill →
        cstr ((f ++ more).take 63) = s := by
      intro f s fill more hl h0 he
      have hs : s.length ≤ 63 := by rw [he] at hl; simp at hl; omega
      unfold cstr
      rw [List.take_append_of_le_length (by omega)]
      rcases Nat.lt_or_ge s.length 63 with c | c
      · have : f.take 63 = s ++ 0 :: fill.take (62 - s.length) := by
          rw [he, List.take_append, List.take_of_length_le (by omega)]
          congr 1
          have : 63 - s.length = (62 - s.length) + 1 := by omega
          rw [this, List.take_succ_cons]
        rw [this, List.takeWhile_append_of_pos]
        · simp
        · intro a ha
          simp only [decide_eq_true_eq]
          intro e; subst e; exact h0 ha
      · have : f.take 63 = s := by
          rw [he, ← (by omega : s.length = 63), List.take_left' rfl]
        rw [this]
        have := List.takeWhile_append_of_pos (p := fun x : UInt8 => decide (x ≠ 0)) (l₁ := s)
          (l₂ := []) (by
            intro a ha
            simp only [decide_eq_true_eq]
            intro e; subst e; exact h0 ha)
        simpa using this
    rw [str uf user fu pf hul hu0 hue, ← hul, List.drop_left' rfl]
    have := str pf pass fp [] hpl hp0 hpe
    rw [List.append_nil] at this
    rw [this]

/-- **C74**, what is missing: the server's public key is exported right-aligned and its length
without the leading zeros must be 256, or an assertion fails.  So the server survives the start of
the handshake exactly when the first byte of its public key is not zero. -/
theorem c74_server_partial {rand : Bytes} (h : 0 < beNat rand) :
    (∃ m, appleSend rand = .ok m) ↔ 256 ^ 255 ≤ 2 ^ beNat rand % modp := by
  constructor
  · rintro ⟨m, e⟩
    rcases Nat.lt_or_ge (2 ^ beNat rand % modp) (256 ^ 255) with c | c
    · obtain ⟨w, e'⟩ := appleSend_short h c
      rw [e'] at e; cases e
    · exact c
  · exact fun c => ⟨_, appleSend_full h c⟩

/-- **C74** is violated: there is a secret for which choosing the security type stops the server. -/
theorem c74_server_violated : ∃ (rand : Bytes) (w : String),
    rand.length = 256 ∧ 0 < beNat rand ∧ appleSend rand = .abort w := by
  refine ⟨List.replicate 255 0 ++ [1], ?_⟩
  have e : beNat (List.replicate 255 0 ++ [1]) = 1 := by
    rw [beNat_append, beNat_zeros]; decide
  obtain ⟨w, hw⟩ := appleSend_short (rand := List.replicate 255 0 ++ [1]) (by rw [e]; decide)
    (by rw [e]; decide +kernel)
  exact ⟨w, by rw [List.length_append, List.length_replicate]; rfl, by rw [e]; decide, hw⟩

/-- **C74**, the other direction: once the server has its secret, no message of the client, well
formed or not, makes it fail. -/
theorem c74_any_client (L : Lib) {rand : Bytes} (h : 0 < beNat rand) (a : Bytes) :
    ∃ r, appleResponse L rand a = .ok r := by
  unfold appleResponse
  split
  · rw [appleCreds_eq L h]
    exact ⟨_, rfl⟩
  · exact ⟨_, rfl⟩

/-- the hypotheses of `c74_login_partial` and `c74_any_client`: a secret whose public key has no
leading zero byte -/
example : 0 < beNat [7, 255] ∧ 256 ^ 255 ≤ 2 ^ beNat [7, 255] % modp := by decide +kernel

example : Holds ("alice".toUTF8.toList ++ 0 :: List.replicate 58 7) "alice".toUTF8.toList :=
  ⟨by decide +kernel, by decide +kernel, _, rfl⟩

/-! ## RSA keys -/

theorem rsaSize_ok {n e w : Nat} (h : KeyOk n e w) : rsaSize n = w := by
  have hb := byteSize_eq (by have := h.wide; omega) h.le h.lt
  unfold rsaSize
  rw [if_neg (by have := h.odd; have := h.wide; omega), hb]

/-- what the server writes or hashes of a key -/
theorem keyParts_ok {n e w : Nat} (hw : 0 < w) (hn : n < 256 ^ w) (he : e < 256 ^ w) :
    keyParts ⟨n, e, w⟩ = .ok (be32 (w * 8), digits w n, digits w e) := by
  unfold keyParts
  simp only
  rw [exportN_ok hw hn, exportN_ok hw he]
  simp only [Outcome.bind_ok]

theorem keyParts_good {n e w : Nat} (h : KeyOk n e w) :
    keyParts ⟨n, e, w⟩ = .ok (be32 (w * 8), digits w n, digits w e) :=
  keyParts_ok (by have := h.wide; omega) h.lt (Nat.lt_trans h.exp h.lt)

theorem onPublicKey_eq (L : Lib) (challenge : Bytes) {b0 b1 b2 b3 : UInt8} {rest m e : Bytes}
    {k : Nat} (hk : (rd32 b0 b1 b2 b3 + 7) % 4294967296 / 8 = k) (h1 : slice rest 0 k = some m)
    (h2 : slice rest k k = some e) : onPublicKey L challenge (b0 :: b1 :: b2 :: b3 :: rest) =
      (sendChallenge L (pubImport m e) challenge >>= fun w =>
        .ok (some (pubImport m e, w, 4 + k * 2))) := by
  have : onPublicKey L challenge (b0 :: b1 :: b2 :: b3 :: rest) =
      publicKeyBody L challenge rest ((rd32 b0 b1 b2 b3 + 7) % 4294967296 / 8) := rfl
  rw [this, hk]
  unfold publicKeyBody
  rw [h1, h2]

/-- a client's key message as the server reads it -/
theorem onPublicKey_msg (L : Lib) (challenge : Bytes) {bits n e : Nat} (hb : bits < 4294967289)
    (hn : n < 256 ^ ((bits + 7) / 8)) (he : e < 256 ^ ((bits + 7) / 8)) (more : Bytes) :
    onPublicKey L challenge (keyMsg bits n e ++ more) =
      (sendChallenge L ⟨n, e, rsaSize n⟩ challenge >>= fun w =>
        .ok (some (⟨n, e, rsaSize n⟩, w, 4 + (bits + 7) / 8 * 2))) := by
  unfold keyMsg
  generalize hw : (bits + 7) / 8 = w at hn he ⊢
  have hr := rd32_be32 bits (by omega)
  rw [fixed_eq, fixed_eq]
  have l1 := digits_length w n
  have l2 := digits_length w e
  have b1 : beNat (digits w n) = n := by rw [beNat_digits, Nat.mod_eq_of_lt hn]
  have b2 : beNat (digits w e) = e := by rw [beNat_digits, Nat.mod_eq_of_lt he]
  generalize digits w n = x at l1 b1 ⊢
  generalize digits w e = y at l2 b2 ⊢
  have e1 : be32 bits ++ x ++ y ++ more = UInt8.ofNat (bits / 16777216) ::
      UInt8.ofNat (bits / 65536) :: UInt8.ofNat (bits / 256) :: UInt8.ofNat bits ::
      (x ++ (y ++ more)) := by
    simp [be32]
  have s1 : slice (x ++ (y ++ more)) 0 w = some x := by
    unfold slice
    rw [if_pos (by simp only [List.length_append]; omega), List.drop_zero, ← l1,
      List.take_left' rfl]
  have s2 : slice (x ++ (y ++ more)) w w = some y := by
    unfold slice
    rw [if_pos (by simp only [List.length_append]; omega), List.drop_left' l1,
      List.take_left' l2]
  rw [e1, onPublicKey_eq L challenge (by rw [hr]; omega) s1 s2]
  simp only [pubImport, importN, b1, b2]

/-- the challenge, if the ciphertext can be exported -/
theorem sendChallenge_eq {L : Lib} {n e w c : Nat} {m : Bytes} (hw : 0 < w) (hs : w ≤ 1022)
    (hc : L.rsaEnc ⟨n, e, w⟩ m = some c) (hlt : c < 256 ^ w) :
    sendChallenge L ⟨n, e, w⟩ m = .ok (be16 (if c = 0 then 0 else byteSize c) ++
      (digits w c).take (if c = 0 then 0 else byteSize c)) := by
  unfold sendChallenge
  rw [hc]
  simp only
  rw [if_neg (by omega), exportN_ok hw hlt]
  simp only [Outcome.bind_ok]

theorem challengeNumber_msg (b : Bytes) (h : b.length < 65536) :
    challengeNumber (be16 b.length ++ b) = some (beNat b) := by
  have hr := rd16_be16 b.length h
  unfold be16 challengeNumber
  simp only [List.cons_append, List.nil_append, hr, if_true]

/-- **C75** (partial: the ciphertext must fill its field, see `c75_challenge_violated`, and the key
must be at most 1022 bytes long, see `c76_stack_violated`).  Whatever key the client has and
whatever the server drew, the client decrypts the challenge message to the server's random
number. -/
theorem c75_challenge_partial {L : Lib} (hL : RsaOk L) {bits n e w : Nat} (hk : KeyOk n e w)
    (hb : (bits + 7) / 8 = w) (hw : w ≤ 1022) {dec : Nat → Option Bytes}
    (hd : Decrypts L ⟨n, e, w⟩ dec) {random : Bytes} (hr : random.length + 11 ≤ w)
    (hf : ∀ c, L.rsaEnc ⟨n, e, w⟩ random = some c → 256 ^ (w - 1) ≤ c) (more : Bytes) :
    ∃ reply, onPublicKey L random (keyMsg bits n e ++ more) =
        .ok (some (⟨n, e, w⟩, reply, (keyMsg bits n e).length)) ∧
      readChallenge dec reply = some random := by
  have hsz := rsaSize_ok hk
  have hpos : 0 < w := by have := hk.wide; omega
  have hfit := hL.fits ⟨n, e, w⟩ random hsz.symm
  rw [decide_eq_true hr, Option.isSome_iff_exists] at hfit
  obtain ⟨c, hc⟩ := hfit
  have hcn := hL.lt ⟨n, e, w⟩ random c hsz.symm hc
  have hcw : c < 256 ^ w := Nat.lt_trans hcn hk.lt
  have hfc := hf c hc
  have hb1 := byteSize_eq hpos hfc hcw
  have hp : 0 < 256 ^ (w - 1) := Nat.pow_pos (by decide)
  have hlen : (keyMsg bits n e).length = 4 + w * 2 := by
    unfold keyMsg
    rw [fixed_eq, fixed_eq]
    simp only [List.length_append, be32_length, digits_length, hb]
    omega
  rw [onPublicKey_msg L random (by omega) (by rw [hb]; exact hk.lt)
    (by rw [hb]; exact Nat.lt_trans hk.exp hk.lt), hsz, sendChallenge_eq hpos hw hc hcw,
    if_neg (by omega), hb1, hb, List.take_of_length_le (by rw [digits_length]; omega), hlen]
  refine ⟨_, rfl, ?_⟩
  have := challengeNumber_msg (digits w c) (by rw [digits_length]; omega)
  rw [digits_length] at this
  unfold readChallenge
  rw [this, beNat_digits, Nat.mod_eq_of_lt hcw]
  exact hd random c hc

/-- **C75**, what is missing: the ciphertext is written without as many of its last bytes as it has
leading zero bytes.  The client reads it divided by 256 for each of them. -/
theorem c75_lost_bytes_partial {L : Lib} {n e w c : Nat} (hw : 0 < w) (hs : w ≤ 1022)
    {random : Bytes} (hc : L.rsaEnc ⟨n, e, w⟩ random = some c) (hlt : c < 256 ^ w) (h0 : c ≠ 0) :
    ∃ reply, sendChallenge L ⟨n, e, w⟩ random = .ok reply ∧
      challengeNumber reply = some (c / 256 ^ (w - byteSize c)) := by
  rw [sendChallenge_eq hw hs hc hlt, if_neg h0]
  have hle := byteSize_le hw hlt
  refine ⟨_, rfl, ?_⟩
  have e1 : digits w c = digits (byteSize c) (c / 256 ^ (w - byteSize c)) ++
      digits (w - byteSize c) c := by
    rw [← digits_more]; congr 1; omega
  rw [e1, List.take_left' (digits_length _ _)]
  have := challengeNumber_msg (digits (byteSize c) (c / 256 ^ (w - byteSize c)))
    (by rw [digits_length]; omega)
  rw [digits_length] at this
  rw [this, beNat_digits, Nat.mod_eq_of_lt]
  refine Nat.lt_of_le_of_lt (Nat.div_le_self _ _) (lt_byteSize c)

/-! ### A concrete RSA

The exponent 1: the ciphertext is the padded message of PKCS #1. -/

/-- the padded message -/
def block (w : Nat) (m : Bytes) : Bytes :=
  [0, 2] ++ List.replicate (w - 3 - m.length) 1 ++ [0] ++ m

theorem block_length {w : Nat} {m : Bytes} (h : m.length + 11 ≤ w) : (block w m).length = w := by
  simp [block]; omega

theorem block_lt {w : Nat} {m : Bytes} (h : m.length + 11 ≤ w) :
    beNat (block w m) < 256 ^ (w - 1) := by
  have hl := block_length h
  have e : block w m = [0] ++ (block w m).tail := rfl
  have h2 : (block w m).tail.length = w - 1 := by rw [List.length_tail, hl]
  rw [e, beNat_append]
  have := beNat_lt (block w m).tail
  rw [h2] at this
  have z : beNat [0] = 0 := by decide
  rw [z]
  omega

/-- Nettle with keys of exponent 1 -/
def plainLib (sha : Bool → Bytes → Bytes) : Lib where
  md5 b := b
  aesEcb _ b := b
  rsaEnc k m := if m.length + 11 ≤ k.size then some (beNat (block k.size m)) else none
  rsaDec n := some (digits 16 n)
  sha := sha

theorem plainLib_ok (sha : Bool → Bytes → Bytes) : RsaOk (plainLib sha) := by
  constructor
  · intro k m c hk hc
    simp only [plainLib] at hc
    split at hc
    · rename_i h
      cases hc
      refine Nat.lt_of_lt_of_le (block_lt h) ?_
      have hs : k.size = byteSize k.n := by
        rw [hk]; unfold rsaSize
        split
        · rename_i c
          rw [hk] at h; unfold rsaSize at h; rw [if_pos c] at h; omega
        · rfl
      have hpos := byteSize_pos k.n
      rcases Nat.lt_or_ge k.n (256 ^ (k.size - 1)) with c | c
      · have := byteSize_le (by omega) c
        omega
      · exact c
    · cases hc
  · intro k m _
    simp only [plainLib]
    split <;> simp_all

/-- and the private key that goes with one -/
def plainDec (w n : Nat) : Option Bytes :=
  some ((((digits w n).drop 2).dropWhile (· = 1)).drop 1)

theorem plainDec_ok (sha : Bool → Bytes → Bytes) (n e w : Nat) :
    Decrypts (plainLib sha) ⟨n, e, w⟩ (plainDec w) := by
  intro m c hc
  simp only [plainLib] at hc
  split at hc
  · rename_i h
    cases hc
    have hd := digits_beNat (block w m)
    rw [block_length h] at hd
    unfold plainDec
    rw [hd]
    unfold block
    have e : ([0, 2] ++ List.replicate (w - 3 - m.length) 1 ++ [0] ++ m : Bytes).drop 2 =
        List.replicate (w - 3 - m.length) 1 ++ (0 :: m) := by simp
    rw [e, List.dropWhile_append_of_pos (by
      intro a ha; rw [List.mem_replicate] at ha; simp [ha.2])]
    simp
  · cases hc

/-- a client's key of 1024 bits -/
theorem key1024 : KeyOk (256 ^ 127 + 1) 1 128 :=
  ⟨by decide +kernel, by decide +kernel, by decide +kernel, by decide +kernel, by decide⟩

/-- the hypotheses of `c75_challenge_partial` on the key, the library and the client -/
example : RsaOk (plainLib fun _ b => b) ∧ KeyOk (256 ^ 127 + 1) 1 128 ∧ (1024 + 7) / 8 = 128 ∧
    Decrypts (plainLib fun _ b => b) ⟨256 ^ 127 + 1, 1, 128⟩ (plainDec 128) :=
  ⟨plainLib_ok _, key1024, rfl, plainDec_ok _ _ _ _⟩

/-- and a ciphertext that fills its field -/
example : ∃ L : Lib, RsaOk L ∧ (∀ m c, L.rsaEnc ⟨256 ^ 127 + 1, 1, 128⟩ m = some c → 256 ^ 127 ≤ c) := by
  refine ⟨{ plainLib (fun _ b => b) with
    rsaEnc := fun k m => if m.length + 11 ≤ k.size then some (k.n - 1) else none }, ⟨?_, ?_⟩, ?_⟩
  · intro k m c hk hc
    simp only at hc
    split at hc
    · rename_i h
      cases hc
      rcases Nat.eq_zero_or_pos k.n with z | z
      · rw [z] at hk
        have : rsaSize 0 = 0 := by decide
        omega
      · omega
    · cases hc
  · intro k m _
    simp only
    split <;> simp_all
  · intro m c hc
    simp only at hc
    split at hc
    · cases hc; omega
    · cases hc

/-- **C75** is violated: a client with a proper key and an honest library does not get the server's
random number. -/
theorem c75_challenge_violated : ∃ (L : Lib) (n e w : Nat) (dec : Nat → Option Bytes)
    (random reply : Bytes), RsaOk L ∧ KeyOk n e w ∧ Decrypts L ⟨n, e, w⟩ dec ∧
      random.length = 16 ∧ w = 128 ∧
      onPublicKey L random (keyMsg 1024 n e) = .ok (some (⟨n, e, w⟩, reply, 260)) ∧
      readChallenge dec reply ≠ some random := by
  have hk := key1024
  have hr : (List.replicate 16 (3 : UInt8)).length + 11 ≤ 128 := by decide
  have hc : (plainLib fun _ b => b).rsaEnc ⟨256 ^ 127 + 1, 1, 128⟩ (List.replicate 16 3) =
      some (beNat (block 128 (List.replicate 16 3))) := by
    simp only [plainLib]; rw [if_pos hr]
  have hlt : beNat (block 128 (List.replicate 16 3)) < 256 ^ 128 :=
    Nat.lt_trans (block_lt hr) (Nat.pow_lt_pow_right (by decide) (by decide))
  have h0 : beNat (block 128 (List.replicate 16 3)) ≠ 0 := by decide +kernel
  obtain ⟨reply, e1, e2⟩ := c75_lost_bytes_partial (by decide) (by decide) hc hlt h0
  refine ⟨_, _, _, _, plainDec 128, List.replicate 16 3, reply, plainLib_ok (fun _ b => b), hk,
    plainDec_ok _ _ _ _, by decide, rfl, ?_, ?_⟩
  · have := onPublicKey_msg (plainLib fun _ b => b) (List.replicate 16 3) (bits := 1024)
      (n := 256 ^ 127 + 1) (e := 1) (by decide) hk.lt (Nat.lt_trans hk.exp hk.lt) []
    rw [List.append_nil, rsaSize_ok hk, e1] at this
    exact this
  · unfold readChallenge
    rw [e2]
    decide +kernel

/-! ## C75: the keys of the session -/

theorem keyMsg_eq (w n e : Nat) : keyMsg (w * 8) n e = be32 (w * 8) ++ digits w n ++ digits w e := by
  have : (w * 8 + 7) / 8 = w := by omega
  unfold keyMsg
  rw [this, fixed_eq, fixed_eq]

theorem hashMany_eq (h : Bytes → Bytes) {l : List Bytes} (hl : [] ∉ l) :
    hashMany h l = h l.flatten := by
  unfold hashMany
  congr 2
  have := List.takeWhile_append_of_pos (p := fun x : Bytes => decide (x ≠ [])) (l₁ := l)
    (l₂ := []) (by
      intro a ha
      simp only [decide_eq_true_eq]
      intro e; subst e; exact hl ha)
  simpa using this

theorem digits_ne {w n : Nat} (h : 0 < w) : digits w n ≠ [] := by
  intro e
  have := digits_length w n
  rw [e] at this
  simp at this
  omega

/-- the hash of two keys -/
theorem hashMany_keys (h : Bytes → Bytes) {n e w n' e' w' : Nat} (hw : 0 < w) (hw' : 0 < w') :
    hashMany h [be32 (w * 8), digits w n, digits w e, be32 (w' * 8), digits w' n', digits w' e'] =
      h (keyMsg (w * 8) n e ++ keyMsg (w' * 8) n' e') := by
  rw [hashMany_eq, keyMsg_eq, keyMsg_eq]
  · simp
  · intro hm
    simp only [List.mem_cons, List.not_mem_nil, or_false] at hm
    rcases hm with hm | hm | hm | hm | hm | hm
    · cases hm
    · exact digits_ne hw hm.symm
    · exact digits_ne hw hm.symm
    · cases hm
    · exact digits_ne hw' hm.symm
    · exact digits_ne hw' hm.symm

/-- **C75**: the server announces its key as the protocol says.  A client that answers with its own
random number encrypted for that key has the same two session keys as the server, each the hash of
both random numbers in the order of the protocol, and gets the hash of the two key messages
exchanged; its own hash of them in the other order is accepted and any other is refused.
(Partial: the client's modulus has no leading zero byte and its length is a multiple of 8 bits, see
`c75_length_violated`.) -/
theorem c75_session_partial {L : Lib} {wide : Bool} {sn se sw cn ce cw : Nat}
    (hs : KeyOk sn se sw) (hc : KeyOk cn ce cw) {random crandom data : Bytes}
    (hr : random.length = if wide then 32 else 16) (hcr : crandom.length = if wide then 32 else 16)
    (hl : data.length < 65536) (hd : L.rsaDec (beNat data) = some crandom) (more : Bytes) :
    sendKey ⟨sn, se, sw⟩ = .ok (keyMsg (sw * 8) sn se) ∧
    onChallenge L wide ⟨sn, se, sw⟩ ⟨cn, ce, cw⟩ random (be16 data.length ++ data ++ more) =
      .ok (some (.upgraded (L.sha wide (crandom ++ random)) (L.sha wide (random ++ crandom))
        (L.sha wide (keyMsg (sw * 8) sn se ++ keyMsg (cw * 8) cn ce)), 2 + data.length)) ∧
    ∀ hash : Bytes, clientHashOk L wide ⟨sn, se, sw⟩ ⟨cn, ce, cw⟩ hash =
      .ok (hash.take (if wide then 32 else 20) ==
        (L.sha wide (keyMsg (cw * 8) cn ce ++ keyMsg (sw * 8) sn se)).take (if wide then 32 else 20)) := by
  have hr : random.length = challengeLen wide := hr
  have hcr : crandom.length = challengeLen wide := hcr
  have ws : 0 < sw := by have := hs.wide; omega
  have wc : 0 < cw := by have := hc.wide; omega
  refine ⟨?_, ?_, ?_⟩
  · unfold sendKey
    rw [keyParts_good hs, keyMsg_eq]
    rfl
  · have e1 : be16 data.length ++ data ++ more = UInt8.ofNat (data.length / 256) ::
        UInt8.ofNat data.length :: (data ++ more) := by simp [be16]
    have hrd := rd16_be16 data.length hl
    have s1 : slice (data ++ more) 0 data.length = some data := by
      unfold slice
      rw [if_pos (by simp only [List.length_append]; omega), List.drop_zero, List.take_left' rfl]
    rw [e1]
    unfold onChallenge
    simp only [hrd, s1]
    unfold onChallengeData importN
    rw [hd]
    simp only
    rw [if_neg (by omega), keyParts_good hs, keyParts_good hc]
    simp only [Outcome.bind_ok]
    rw [hashMany_keys _ ws wc]
    have e2 : (crandom ++ List.replicate (32 - crandom.length) 0).take (challengeLen wide) =
        crandom := by rw [← hcr, List.take_left' rfl]
    have p1 : crandom ≠ [] := by
      intro e; rw [e] at hcr; cases wide <;> simp [challengeLen] at hcr
    have p2 : random ≠ [] := by
      intro e; rw [e] at hr; cases wide <;> simp [challengeLen] at hr
    rw [e2, hashMany_eq _ (by simp [p1.symm, p2.symm]), hashMany_eq _ (by simp [p1.symm, p2.symm])]
    simp
  · intro hash
    unfold clientHashOk
    rw [keyParts_good hs, keyParts_good hc]
    simp only [Outcome.bind_ok]
    rw [hashMany_keys _ wc ws]
    rfl

/-- the hypotheses of `c75_session_partial` -/
example : KeyOk (256 ^ 255 + 3) 65537 256 ∧ KeyOk (256 ^ 127 + 1) 1 128 ∧
    (plainLib fun _ b => b).rsaDec (beNat (List.replicate 16 9)) = some (List.replicate 16 9) :=
  ⟨⟨by decide +kernel, by decide +kernel, by decide +kernel, by decide +kernel, by decide⟩,
    key1024, by decide +kernel⟩

/-- **C75** is violated for a key whose length is not a multiple of 8 bits: the server hashes a
message the client never sent, so that (here with a hash without collisions) the two ends disagree
about the keys they exchanged. -/
theorem c75_length_violated : ∃ (L : Lib) (bits n e : Nat) (random reply data : Bytes)
    (k srv : PubKey) (hash sk ck : Bytes) (used : Nat), RsaOk L ∧ KeyOk n e 128 ∧ bits = 1023 ∧
      n < 2 ^ bits ∧ L.sha false = id ∧
      onPublicKey L random (keyMsg bits n e) = .ok (some (k, reply, 260)) ∧
      onChallenge L false srv k random (be16 data.length ++ data) =
        .ok (some (.upgraded sk ck hash, used)) ∧
      sendKey srv = .ok (keyMsg 1024 srv.n srv.e) ∧
      hash ≠ keyMsg 1024 srv.n srv.e ++ keyMsg bits n e := by
  have hk := key1024
  have hL := plainLib_ok fun _ b => b
  have ho := onPublicKey_msg (plainLib fun _ b => b) (List.replicate 16 3) (bits := 1023)
    (n := 256 ^ 127 + 1) (e := 1) (by decide) hk.lt (Nat.lt_trans hk.exp hk.lt) []
  have hr : (List.replicate 16 (3 : UInt8)).length + 11 ≤ 128 := by decide
  have hc : (plainLib fun _ b => b).rsaEnc ⟨256 ^ 127 + 1, 1, 128⟩ (List.replicate 16 3) =
      some (beNat (block 128 (List.replicate 16 3))) := by
    simp only [plainLib]; rw [if_pos hr]
  have hlt : beNat (block 128 (List.replicate 16 3)) < 256 ^ 128 :=
    Nat.lt_trans (block_lt hr) (Nat.pow_lt_pow_right (by decide) (by decide))
  rw [List.append_nil, rsaSize_ok hk, sendChallenge_eq (by decide) (by decide) hc hlt] at ho
  obtain ⟨s1, s2, -⟩ := c75_session_partial (L := plainLib fun _ b => b) (wide := false) hk hk
    (random := List.replicate 16 3) (crandom := List.replicate 16 9) (data := List.replicate 16 9)
    rfl rfl (by decide) (by decide +kernel) []
  rw [List.append_nil] at s2
  refine ⟨_, 1023, 256 ^ 127 + 1, 1, List.replicate 16 3, _, List.replicate 16 9, _,
    ⟨256 ^ 127 + 1, 1, 128⟩, _, _, _, _, hL, hk, rfl, by decide +kernel, rfl, ho, s2, s1, ?_⟩
  decide +kernel

/-! ## C76: keys that take the server down -/

/-- **C76** (partial: see the three violations below).  A client's public key message of any
contents, and any challenge after it, are handled without undefined behaviour and without a failed
assertion, provided the key has between 12 and 1022 bytes, is odd, and the exponent is no longer
than the modulus. -/
theorem c76_defined_partial {L : Lib} (hL : RsaOk L) {wide : Bool} {sn se sw : Nat}
    (hs : KeyOk sn se sw) {n e : Nat} (h1 : rsaSize n ≠ 0) (h2 : rsaSize n ≤ 1022)
    (h3 : e < 256 ^ rsaSize n) (random a msg : Bytes) :
    (∃ w, sendChallenge L ⟨n, e, rsaSize n⟩ random = .ok w) ∧
    (∃ r, onChallenge L wide ⟨sn, se, sw⟩ ⟨n, e, rsaSize n⟩ random a = .ok r) ∧
    ∃ r, clientHashOk L wide ⟨sn, se, sw⟩ ⟨n, e, rsaSize n⟩ msg = .ok r := by
  have hsz : rsaSize n = byteSize n := by
    unfold rsaSize at h1 ⊢
    split
    · rename_i c; rw [if_pos c] at h1; exact absurd rfl h1
    · rfl
  have hn : n < 256 ^ rsaSize n := by rw [hsz]; exact lt_byteSize n
  have hp : 0 < rsaSize n := by omega
  refine ⟨?_, ?_, ?_⟩
  · cases hc : L.rsaEnc ⟨n, e, rsaSize n⟩ random with
    | none => exact ⟨_, by unfold sendChallenge; rw [hc]⟩
    | some c => exact ⟨_, sendChallenge_eq hp h2 hc (Nat.lt_trans (hL.lt _ _ _ rfl hc) hn)⟩
  · have key : ∀ data, ∃ r, onChallengeData L wide ⟨sn, se, sw⟩ ⟨n, e, rsaSize n⟩ random data =
        .ok r := by
      intro data
      unfold onChallengeData
      split
      · exact ⟨_, rfl⟩
      · split
        · exact ⟨_, rfl⟩
        · rw [keyParts_good hs, keyParts_ok hp hn h3]
          exact ⟨_, rfl⟩
    unfold onChallenge
    split
    · split
      · rename_i data _
        obtain ⟨r, hr⟩ := key data
        rw [hr]
        exact ⟨_, rfl⟩
      · exact ⟨_, rfl⟩
    · exact ⟨_, rfl⟩
  · unfold clientHashOk
    rw [keyParts_good hs, keyParts_ok hp hn h3]
    exact ⟨_, rfl⟩

/-- the hypotheses of `c76_defined_partial` -/
example : rsaSize (256 ^ 11 + 1) ≠ 0 ∧ rsaSize (256 ^ 11 + 1) ≤ 1022 ∧
    256 ^ 12 - 1 < 256 ^ rsaSize (256 ^ 11 + 1) := by decide +kernel

/-- **C76** is violated: every key of more than 1022 bytes, such as one of 8192 bits, overflows a
buffer on the stack, before any authentication. -/
theorem c76_stack_violated {L : Lib} (hL : RsaOk L) {n e w : Nat} (hk : KeyOk n e w) (hw : 1022 < w)
    (hb : w < 100000000) {random : Bytes} (hr : random.length ≤ 32) (more : Bytes) :
    ∃ why, onPublicKey L random (keyMsg (w * 8) n e ++ more) = .ub why := by
  have hsz := rsaSize_ok hk
  have hdiv : (w * 8 + 7) / 8 = w := by omega
  have hfit := hL.fits ⟨n, e, w⟩ random hsz.symm
  rw [decide_eq_true (by show random.length + 11 ≤ w; omega), Option.isSome_iff_exists] at hfit
  obtain ⟨c, hc⟩ := hfit
  rw [onPublicKey_msg L random (by omega) (by rw [hdiv]; exact hk.lt)
    (by rw [hdiv]; exact Nat.lt_trans hk.exp hk.lt), hsz]
  refine ⟨"rsa_aes_send_challenge: stack buffer overflow", ?_⟩
  unfold sendChallenge
  rw [hc]
  simp only
  rw [if_pos hw]
  rfl

/-- the hypotheses of `c76_stack_violated`: a key of 8192 bits -/
example : KeyOk (256 ^ 1023 + 1) 65537 1024 ∧ (keyMsg 8192 0 0).length < 4096 :=
  ⟨⟨by decide +kernel, by decide +kernel, by decide +kernel, by decide +kernel, by decide⟩,
    by unfold keyMsg; rw [fixed_eq]; simp [digits_length]⟩

/-- **C76** is violated: after a modulus that is even or shorter than 12 bytes, or an exponent longer
than the modulus, a challenge that decrypts fails an assertion.  The client only needs the server's
public key for that. -/
theorem c76_assert_violated {L : Lib} {wide : Bool} {sn se sw : Nat} (hs : KeyOk sn se sw)
    {n e : Nat} (h : rsaSize n = 0 ∨ 256 ^ rsaSize n ≤ e) {random data r : Bytes}
    (hl : data.length < 65536) (hd : L.rsaDec (beNat data) = some r)
    (hr : r.length ≤ challengeLen wide) (more : Bytes) :
    ∃ why, onChallenge L wide ⟨sn, se, sw⟩ ⟨n, e, rsaSize n⟩ random
      (be16 data.length ++ data ++ more) = .abort why := by
  have hk : ∃ why, keyParts ⟨n, e, rsaSize n⟩ = .abort why := by
    unfold keyParts
    simp only
    rcases Nat.eq_zero_or_pos (rsaSize n) with z | z
    · rw [z]
      have : ∃ w, exportN 0 n = .abort w := by
        have := byteSize_pos n
        exact ⟨_, by unfold exportN; rw [if_pos (by omega)]⟩
      obtain ⟨w, hw⟩ := this
      exact ⟨w, by rw [hw]; rfl⟩
    · have hsz : rsaSize n = byteSize n := by
        unfold rsaSize at z ⊢
        split
        · rename_i c; rw [if_pos c] at z; omega
        · rfl
      have hn : n < 256 ^ rsaSize n := by rw [hsz]; exact lt_byteSize n
      rw [exportN_ok z hn]
      obtain ⟨w, hw⟩ := exportN_abort (size := rsaSize n) (n := e) (by omega)
      exact ⟨w, by simp only [Outcome.bind_ok]; rw [hw]; rfl⟩
  obtain ⟨why, hk⟩ := hk
  refine ⟨why, ?_⟩
  have e1 : be16 data.length ++ data ++ more = UInt8.ofNat (data.length / 256) ::
      UInt8.ofNat data.length :: (data ++ more) := by simp [be16]
  have hrd := rd16_be16 data.length hl
  have s1 : slice (data ++ more) 0 data.length = some data := by
    unfold slice
    rw [if_pos (by simp only [List.length_append]; omega), List.drop_zero, List.take_left' rfl]
  rw [e1]
  unfold onChallenge
  simp only [hrd, s1]
  unfold onChallengeData importN
  rw [hd]
  simp only
  rw [if_neg (by omega), keyParts_good hs, hk]
  rfl

/-- the hypotheses of `c76_assert_violated`: a key of 2 bytes and one with a long exponent -/
example : rsaSize (beNat [1, 1]) = 0 ∧ 256 ^ rsaSize (256 ^ 11 + 1) ≤ 256 ^ 12 := by decide +kernel

end Verif.Keys
