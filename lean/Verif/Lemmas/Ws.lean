import Verif.Model.Ws
import Verif.Spec.Ws

namespace Verif.Ws

theorem and80 (b : UInt8) : (b &&& 0x80 ≠ 0) = (b.toNat ≥ 128) := by
  have : ∀ n : Fin 256, ((UInt8.ofNat n) &&& 0x80 ≠ 0) = ((UInt8.ofNat n).toNat ≥ 128) := by decide +kernel
  simpa using this ⟨b.toNat, b.toNat_lt⟩

theorem and0f (b : UInt8) : (b &&& 0x0f).toNat = b.toNat % 16 := by
  rw [UInt8.toNat_and]; exact Nat.and_two_pow_sub_one_eq_mod _ 4

theorem and7f (b : UInt8) : (b &&& 0x7f).toNat = b.toNat % 128 := by
  rw [UInt8.toNat_and]; exact Nat.and_two_pow_sub_one_eq_mod _ 7

theorem parse_short (h : Header) (p : Bytes) (hp : p.length < 2) : parse h p = .ok (h, false) := by
  simp [parse, hp]

theorem take_len {l : Bytes} {n : Nat} (h : n ≤ l.length) : (l.take n).length = n := by simp; omega

/-- what the header parser does with at least two bytes -/
theorem parse_eq (h : Header) (b0 b1 : UInt8) (rest : Bytes) :
    (headerSize b1 ≤ rest.length + 2 → parse h (b0 :: b1 :: rest) = .ok
      ({ fin := b0.toNat ≥ 128, opcode := b0.toNat % 16, mask := b1.toNat ≥ 128,
         len := payloadLen ((b0 :: b1 :: rest).take (headerSize b1)),
         key := if b1.toNat ≥ 128 then maskKey ((b0 :: b1 :: rest).take (headerSize b1)) else h.key,
         hlen := headerSize b1 }, true)) ∧
    (rest.length + 2 < headerSize b1 → ∃ h', parse h (b0 :: b1 :: rest) = .ok (h', false)) := by
  have e0 : readAt (b0 :: b1 :: rest) 0 1 = .ok [b0] := by rw [readAt_ok (by simp)]; simp
  have e1 : readAt (b0 :: b1 :: rest) 1 1 = .ok [b1] := by rw [readAt_ok (by simp)]; simp
  have hl : ¬ (b0 :: b1 :: rest).length < 2 := by simp
  have hlen2 : (b0 :: b1 :: rest).length - 2 = rest.length := by simp
  unfold parse headerSize
  rw [if_neg hl]
  simp only [e0, e1, Outcome.bind_ok, List.headD_cons, and80, and0f, and7f, hlen2]
  by_cases h126 : b1.toNat % 128 = 126
  · have hx : extLen b1 = 2 := by simp [extLen, h126]
    simp only [h126, hx]
    by_cases hm : b1.toNat ≥ 128
    · constructor
      · intro hh
        simp only [hm, if_true] at hh
        rw [if_neg (by omega), if_neg (by omega), if_pos trivial]
        rw [readAt_ok (by simp; omega)]
        simp only [Outcome.bind_ok, Outcome.pure_eq, hm, decide_true, if_true]
        rw [if_neg (by simp; omega), readAt_ok (by simp; omega)]
        simp only [Outcome.bind_ok, payloadLen, maskKey, hx, hm, if_true, List.take_succ_cons, List.drop_succ_cons, List.drop_zero]
        rw [List.take_take, if_neg (by omega), List.drop_take]; simp
      · intro hh
        simp only [hm, if_true] at hh
        by_cases h2 : rest.length < 2
        · rw [if_pos ⟨trivial, h2⟩]; exact ⟨_, rfl⟩
        · rw [if_neg (by omega), if_neg (by omega), if_pos trivial]
          rw [readAt_ok (by simp; omega)]
          simp only [Outcome.bind_ok, Outcome.pure_eq, hm, decide_true, if_true]
          rw [if_pos (by simp; omega)]; exact ⟨_, rfl⟩
    · constructor
      · intro hh
        simp only [hm, if_false] at hh
        rw [if_neg (by omega), if_neg (by omega), if_pos trivial]
        rw [readAt_ok (by simp; omega)]
        simp only [Outcome.bind_ok, Outcome.pure_eq, hm, decide_false, if_false, Bool.false_eq_true]
        simp only [payloadLen, hx, List.take_succ_cons, List.drop_succ_cons, List.drop_zero]
        rw [List.take_take]; simp
      · intro hh
        simp only [hm, if_false] at hh
        rw [if_pos ⟨trivial, by omega⟩]; exact ⟨_, rfl⟩
  · by_cases h127 : b1.toNat % 128 = 127
    · have hx : extLen b1 = 8 := by simp [extLen, h127]
      simp only [h127, hx]
      by_cases hm : b1.toNat ≥ 128
      · constructor
        · intro hh
          simp only [hm, if_true] at hh
          rw [if_neg (by omega), if_neg (by omega), if_neg (by omega), if_pos trivial]
          rw [readAt_ok (by simp; omega)]
          simp only [Outcome.bind_ok, Outcome.pure_eq, hm, decide_true, if_true]
          rw [if_neg (by simp; omega), readAt_ok (by simp; omega)]
          simp only [Outcome.bind_ok, payloadLen, maskKey, hx, hm, if_true, List.take_succ_cons, List.drop_succ_cons, List.drop_zero]
          rw [List.take_take, if_neg (by omega), List.drop_take]; simp
        · intro hh
          simp only [hm, if_true] at hh
          by_cases h2 : rest.length < 8
          · rw [if_neg (by omega), if_pos ⟨trivial, h2⟩]; exact ⟨_, rfl⟩
          · rw [if_neg (by omega), if_neg (by omega), if_neg (by omega), if_pos trivial]
            rw [readAt_ok (by simp; omega)]
            simp only [Outcome.bind_ok, Outcome.pure_eq, hm, decide_true, if_true]
            rw [if_pos (by simp; omega)]; exact ⟨_, rfl⟩
      · constructor
        · intro hh
          simp only [hm, if_false] at hh
          rw [if_neg (by omega), if_neg (by omega), if_neg (by omega), if_pos trivial]
          rw [readAt_ok (by simp; omega)]
          simp only [Outcome.bind_ok, Outcome.pure_eq, hm, decide_false, if_false, Bool.false_eq_true]
          simp only [payloadLen, hx, List.take_succ_cons, List.drop_succ_cons, List.drop_zero]
          rw [List.take_take]; simp
        · intro hh
          simp only [hm, if_false] at hh
          rw [if_neg (by omega), if_pos ⟨trivial, by omega⟩]; exact ⟨_, rfl⟩
    · have hx : extLen b1 = 0 := by simp [extLen, h127, h126]
      simp only [h126, h127, hx, false_and, if_false]
      by_cases hm : b1.toNat ≥ 128
      · constructor
        · intro hh
          simp only [hm, if_true] at hh
          simp only [Outcome.bind_ok, Outcome.pure_eq, hm, decide_true, if_true]
          rw [if_neg (by simp; omega), readAt_ok (by simp; omega)]
          simp [payloadLen, maskKey, hx, hm]
        · intro hh
          simp only [hm, if_true] at hh
          simp only [Outcome.bind_ok, Outcome.pure_eq, hm, decide_true, if_true]
          rw [if_pos (by simp; omega)]; exact ⟨_, rfl⟩
      · constructor
        · intro hh
          simp [hm, payloadLen, hx]
        · intro hh
          simp only [hm, if_false] at hh
          omega

/-! ## The specification decoder on longer pieces -/

def unmask (key : Bytes) (i : Nat) : Bytes → Bytes
  | [] => []
  | b :: bs => (b ^^^ (key[i % 4]?).getD 0) :: unmask key (i + 1) bs

theorem decRun_append (d : DecState) (a b : Bytes) :
    decRun d (a ++ b) = ((decRun (decRun d a).1 b).1, (decRun d a).2 ++ (decRun (decRun d a).1 b).2) := by
  induction a generalizing d with
  | nil => simp [decRun]
  | cons x a ih => simp [decRun, ih]

theorem decRun_outside (st : Bool) (l : Bytes) : decRun ⟨.outside, st⟩ l = (⟨.outside, st⟩, []) := by
  induction l with
  | nil => rfl
  | cons x l ih => simp [decRun, decStep, ih]

theorem decRun_pay (st : Bool) (key : Bytes) (i rem : Nat) (l : Bytes) (h : l.length ≤ rem) (hr : 0 < rem) :
    decRun ⟨.pay key i rem, st⟩ l =
      (⟨if l.length = rem then .hdr [] else .pay key (i + l.length) (rem - l.length), st⟩, unmask key i l) := by
  induction l generalizing i rem with
  | nil => simp [decRun, unmask]; omega
  | cons b l ih =>
    simp only [List.length_cons] at h
    simp only [decRun, decStep, unmask]
    by_cases h1 : rem = 1
    · subst h1
      have : l = [] := List.length_eq_zero_iff.mp (by omega)
      subst this
      simp [decRun, unmask]
    · rw [if_neg h1, ih (i + 1) (rem - 1) (by omega) (by omega)]
      by_cases h2 : l.length + 1 = rem
      · simp [show l.length = rem - 1 by omega, show rem - 1 + 1 = rem by omega]
      · simp [h2, show l.length ≠ rem - 1 by omega]
        omega

theorem headerSize_ge (b : UInt8) : 2 ≤ headerSize b := by unfold headerSize; omega

/-- decoding header bytes -/
theorem decRun_hdr (st : Bool) (b0 b1 : UInt8) (rest : Bytes) (h : rest.length + 2 < headerSize b1) :
    decRun ⟨.hdr [], st⟩ (b0 :: b1 :: rest) = (⟨.hdr (b0 :: b1 :: rest), st⟩, []) := by
  have key : ∀ (l acc : Bytes), acc.length + l.length + 2 < headerSize b1 →
      decRun ⟨.hdr (b0 :: b1 :: acc), st⟩ l = (⟨.hdr (b0 :: b1 :: (acc ++ l)), st⟩, []) := by
    intro l
    induction l with
    | nil => intro acc _; simp [decRun]
    | cons x l ih =>
      intro acc hh
      simp only [List.length_cons] at hh
      have hc : complete (b0 :: b1 :: acc ++ [x]) = false := by
        simp [complete]; omega
      simp only [decRun, decStep]
      rw [hc]
      simp only [Bool.false_eq_true, if_false]
      have := ih (acc ++ [x]) (by simp; omega)
      simp only [List.cons_append, List.append_assoc] at this ⊢
      rw [this]; simp
  have hc : complete [b0, b1] = false := by simp [complete]; omega
  have := key rest [] (by simp; omega)
  have hc0 : complete [b0] = false := rfl
  simp only [List.nil_append] at this
  simp only [decRun, decStep, List.nil_append, List.cons_append, hc, hc0, Bool.false_eq_true, if_false, this]

/-- state after a whole header -/
def afterHeader (st : Bool) (acc : Bytes) : DecState :=
  if payloadLen acc = 0 then ⟨.outside, st⟩
  else if opcodeOf acc = 2 then ⟨.pay (maskKey acc) 0 (payloadLen acc), true⟩
  else if opcodeOf acc = 0 ∧ st then ⟨.pay (maskKey acc) 0 (payloadLen acc), st⟩
  else ⟨.outside, st⟩

theorem decRun_header (st : Bool) (b0 b1 : UInt8) (rest : Bytes) (h : rest.length + 2 = headerSize b1) :
    decRun ⟨.hdr [], st⟩ (b0 :: b1 :: rest) = (afterHeader st (b0 :: b1 :: rest), []) := by
  rcases List.eq_nil_or_concat rest with rfl | ⟨r, x, rfl⟩
  · have hc : complete [b0, b1] = true := by simp [complete]; simpa using h
    have hc0 : complete [b0] = false := rfl
    simp only [decRun, decStep, List.nil_append, List.cons_append, hc, hc0, Bool.false_eq_true, if_true, if_false]
    unfold afterHeader
    split
    · rfl
    · split
      · rfl
      · split <;> rfl
  · rw [List.concat_eq_append] at h ⊢
    simp only [List.length_append, List.length_cons, List.length_nil] at h
    have e : b0 :: b1 :: (r ++ [x]) = (b0 :: b1 :: r) ++ [x] := by simp
    rw [e, decRun_append, decRun_hdr st b0 b1 r (by omega)]
    have hc : complete (b0 :: b1 :: r ++ [x]) = true := by simp [complete]; omega
    simp only [decRun, decStep, hc, if_true]
    unfold afterHeader
    split
    · rfl
    · split
      · rfl
      · split <;> rfl

theorem unmask_eq (h : Header) (key : Bytes) (i : Nat) (l : Bytes)
    (hk : if h.mask then h.key = key else key = [0, 0, 0, 0])
    (hf : i % 4 = 0 ∨ ∃ k, key = [k, k, k, k]) (h4 : key.length = 4) : copyPayload h l = unmask key i l := by
  have gen : ∀ (l : Bytes) (j i : Nat), i % 4 = j % 4 ∨ (∃ k, key = [k, k, k, k]) →
      l.mapIdx (fun n b => b ^^^ (key[(j + n) % 4]?).getD 0) = unmask key i l := by
    intro l
    induction l with
    | nil => intros; simp [unmask]
    | cons b l ih =>
      intro j i hh
      rw [List.mapIdx_cons, unmask]
      congr 1
      · congr 2
        rcases hh with hh | ⟨k, rfl⟩
        · simp [hh]
        · have ha : (j + 0) % 4 < 4 := Nat.mod_lt _ (by omega)
          have hb : i % 4 < 4 := Nat.mod_lt _ (by omega)
          generalize (j + 0) % 4 = x at *
          generalize i % 4 = y at *
          match x, y with
          | 0, 0 | 0, 1 | 0, 2 | 0, 3 | 1, 0 | 1, 1 | 1, 2 | 1, 3 | 2, 0 | 2, 1 | 2, 2 | 2, 3 | 3, 0 | 3, 1 | 3, 2 | 3, 3 => rfl
          | x + 4, _ => omega
          | _, y + 4 => omega
      · have := ih (j + 1) (i + 1) (by rcases hh with hh | hh; left; omega; exact .inr hh)
        rw [← this]
        congr 1
        funext n b
        congr 4
        omega
  unfold copyPayload
  split
  · rename_i hm
    rw [if_pos hm] at hk
    subst hk
    have := gen l 0 i (by rcases hf with hf | hf; left; omega; exact .inr hf)
    simpa using this
  · rename_i hm
    rw [if_neg hm] at hk
    subst hk
    clear gen hf
    induction l generalizing i with
    | nil => rfl
    | cons b l ih =>
      rw [unmask, ← ih (i + 1)]
      congr 1
      have ha : i % 4 < 4 := Nat.mod_lt _ (by omega)
      generalize i % 4 = x at *
      match x with
      | 0 | 1 | 2 | 3 => simp
      | x + 4 => omega

/-! ## The reader against the decoder -/

theorem advance_ok (s : State) (size offset : Nat) (hm : s.mem.length = bufSize) (hi : s.idx ≤ bufSize)
    (ho : offset ≤ s.idx) :
    ∃ mem, advance s size offset = .ok { s with
        mem := mem, idx := s.idx - (offset + min (min size (s.idx - offset)) s.hdr.len),
        hdr := { s.hdr with len := s.hdr.len - min (min size (s.idx - offset)) s.hdr.len } } ∧
      mem.length = bufSize ∧
      mem.take (s.idx - (offset + min (min size (s.idx - offset)) s.hdr.len)) =
        (s.mem.take s.idx).drop (offset + min (min size (s.idx - offset)) s.hdr.len) := by
  unfold advance
  rw [if_neg (by omega)]
  generalize hn : min (min size (s.idx - offset)) s.hdr.len = n
  have hle : offset + n ≤ s.idx := by omega
  simp only
  rw [readAt_ok (by omega), Outcome.bind_ok, writeAt_ok (by simp; omega), Outcome.bind_ok]
  refine ⟨_, rfl, ?_, ?_⟩
  · simp; omega
  · rw [List.drop_take]
    simp only [List.take_zero, List.nil_append]
    rw [List.take_left' (by simp; omega)]

/-- relation between the reader (with `B` still unread in the buffer) and the decoder -/
structure Rel (s : State) (d : DecState) (B : Bytes) : Prop where
  mlen : s.mem.length = bufSize
  idx : s.idx = B.length
  idxle : s.idx ≤ bufSize
  buf : s.mem.take s.idx = B
  opn : s.closed = false
  op : d.started = true → s.curOp = 2
  st : match d.st with
    | .hdr acc => s.hdr.len = 0 ∧ acc = []
    | .pay key i rem => s.hdr.len = rem ∧ 0 < rem ∧ s.curOp = 2 ∧ key.length = 4 ∧
        (if s.hdr.mask then s.hdr.key = key else key = [0, 0, 0, 0]) ∧ (i % 4 = 0 ∨ ∃ k, key = [k, k, k, k])
    | .outside => False

/-- copying out binary payload -/
theorem payload_step (junk : Bytes) (s : State) (size offset : Nat) (key : Bytes) (i rem : Nat)
    (P : Bytes) (hm : s.mem.length = bufSize) (hi : s.idx ≤ bufSize) (ho : offset ≤ s.idx)
    (hP : (s.mem.take s.idx).drop offset = P) (hop : s.closed = false) (hc : s.curOp = 2)
    (hrem : s.hdr.len = rem) (hr : 0 < rem) (h4 : key.length = 4)
    (hk : if s.hdr.mask then s.hdr.key = key else key = [0, 0, 0, 0])
    (hf : i % 4 = 0 ∨ ∃ k, key = [k, k, k, k]) (hsz : bufSize ≤ size ∨ P.length ≤ size)  :
    ∃ s', processPayload junk s size offset = .ok (s', (min P.length rem : Nat), unmask key i (P.take rem)) ∧
      s'.sent = s.sent ∧ s'.mem.length = bufSize ∧ s'.idx = (P.drop rem).length ∧ s'.idx ≤ bufSize ∧
      s'.mem.take s'.idx = P.drop rem ∧ s'.closed = false ∧ s'.curOp = 2 ∧
      s'.hdr = { s.hdr with len := rem - min P.length rem } := by
  have hPl : P.length = s.idx - offset := by rw [← hP]; simp; omega
  have hPsz : P.length ≤ size := by omega
  have hn : min (min size (s.idx - offset)) s.hdr.len = min P.length rem := by omega
  obtain ⟨mem, h1, h2, h3⟩ := advance_ok s size offset hm hi ho
  rw [hn] at h1 h3
  unfold processPayload
  rw [if_neg (by omega), if_neg (by omega), if_pos hc, if_neg (by omega)]
  simp only [hn]
  rw [readAt_ok (by omega), Outcome.bind_ok, h1, Outcome.bind_ok]
  have hsrc : (s.mem.drop offset).take (min P.length rem) = P.take rem := by
    have e : P = (s.mem.drop offset).take (s.idx - offset) := by rw [← hP, List.drop_take]
    rw [hPl]
    conv => rhs; rw [e]
    rw [List.take_take, Nat.min_comm]
  refine ⟨{ s with mem := mem, idx := s.idx - (offset + min P.length rem), hdr := { s.hdr with len := s.hdr.len - min P.length rem } }, ?_, rfl, h2, ?_, ?_, ?_, hop, hc, ?_⟩
  · rw [hsrc, unmask_eq s.hdr key i _ hk hf h4]; rfl
  · simp; omega
  · simp only; omega
  · simp only
    rw [h3, ← List.drop_drop, hP]
    by_cases hle : P.length ≤ rem
    · rw [List.drop_eq_nil_of_le (by omega), List.drop_eq_nil_of_le hle]
    · rw [show min P.length rem = rem by omega]
  · simp only [hrem]

theorem maskKey_len (b0 b1 : UInt8) (rest : Bytes) (h : rest.length + 2 = headerSize b1) :
    (maskKey (b0 :: b1 :: rest)).length = 4 := by
  simp only [headerSize] at h
  simp only [maskKey]
  split
  · rename_i hm; rw [if_pos hm] at h; simp; omega
  · rfl

theorem unmask_length (key i l) : (unmask key i l).length = l.length := by
  induction l generalizing i with
  | nil => rfl
  | cons b l ih => simp [unmask, ih]

/-- the read loop, started with `B` in the buffer -/
theorem readLoop_spec (junk : Bytes) (eagain : Bool) : ∀ (n : Nat) (B : Bytes), B.length = n →
    ∀ (s : State) (d : DecState) (size fuel : Nat) (acc : Bytes),
    Rel s d B → n < fuel → n ≤ size → Fine (decRun d B).1.st →
    ∃ s' ret, readLoop junk eagain fuel s size acc = .ok (s', ret, acc ++ (decRun d B).2) ∧ 
      s'.sent = s.sent ∧ ret = ((acc ++ (decRun d B).2).length : Int) ∧
      s'.mem.length = bufSize ∧ s'.closed = false ∧
      (match (decRun d B).1.st with
        | .hdr a => Rel s' ⟨.hdr [], (decRun d B).1.started⟩ a
        | st => Rel s' ⟨st, (decRun d B).1.started⟩ []) := by
  intro n
  induction n using Nat.strongRecOn with
  | ind n ih =>
    intro B hB s d size fuel acc hr hfuel hsize hfine
    obtain ⟨fuel, rfl⟩ : ∃ f, fuel = f + 1 := ⟨fuel - 1, by omega⟩
    obtain ⟨st, started⟩ := d
    -- continuation after payload has been copied
    have cont : ∀ (s1 s2 : State) (P : Bytes) (key : Bytes) (i rem : Nat) (st2 : Bool),
        P.length ≤ n → (P.length = n → st = .pay key i rem) → s1.sent = s.sent →
        (st2 = true → s2.curOp = 2) → 
        readFrame junk s size = .ok (s2, (min P.length rem : Nat), unmask key i (P.take rem)) →
        s2.sent = s1.sent → s2.mem.length = bufSize → s2.idx = (P.drop rem).length → s2.idx ≤ bufSize →
        s2.mem.take s2.idx = P.drop rem → s2.closed = false → s2.curOp = 2 → 
        s2.hdr = { s1.hdr with len := rem - min P.length rem } → 0 < rem → key.length = 4 →
        (if s1.hdr.mask then s1.hdr.key = key else key = [0, 0, 0, 0]) →
        decRun ⟨st, started⟩ B = decRun ⟨.pay key i rem, st2⟩ P →
        ∃ s' ret, readLoop junk eagain (fuel + 1) s size acc = .ok (s', ret, acc ++ (decRun ⟨st, started⟩ B).2) ∧ 
          s'.sent = s.sent ∧ ret = ((acc ++ (decRun ⟨st, started⟩ B).2).length : Int) ∧
          s'.mem.length = bufSize ∧ s'.closed = false ∧
          (match (decRun ⟨st, started⟩ B).1.st with
            | .hdr a => Rel s' ⟨.hdr [], (decRun ⟨st, started⟩ B).1.started⟩ a
            | st' => Rel s' ⟨st', (decRun ⟨st, started⟩ B).1.started⟩ []) := by
      intro s1 s2 P key i rem st2 hPn hPn' hs1 hst2 hrf hsent hml hidx hidl hbuf hopn hcur hhdr hrem h4 hk hdec
      rw [hdec] at hfine ⊢
      simp only [readLoop, hrf, Outcome.bind_ok]
      by_cases hlt : P.length < rem
      · -- everything used up inside the payload
        have hdp := decRun_pay st2 key i rem P (by omega) hrem
        rw [if_neg (by omega)] at hdp
        rw [hdp] at hfine ⊢
        simp only at hfine
        have hPd : P.drop rem = [] := List.drop_eq_nil_of_le (by omega)
        have hPt : P.take rem = P := List.take_of_length_le (by omega)
        have hmin : min P.length rem = P.length := by omega
        rw [hPd] at hidx hbuf
        simp only [List.length_nil] at hidx
        rw [hmin] at hhdr
        rw [hPt, hmin]
        have hrel : Rel s2 ⟨.pay key (i + P.length) (rem - P.length), st2⟩ [] := by
          refine ⟨hml, by simp [hidx], hidl, hbuf, hopn, hst2, ?_⟩
          simp only
          refine ⟨by rw [hhdr], by omega, hcur, h4, ?_, hfine⟩
          rw [hhdr]; exact hk
        by_cases hP0 : P.length = 0
        · have hPe : P = [] := List.length_eq_zero_iff.mp hP0
          subst hPe
          simp only [List.length_nil, Int.natCast_zero, if_true, Outcome.pure_eq, unmask, List.append_nil]
          exact ⟨s2, _, rfl, by rw [hsent, hs1], rfl, hml, hopn, by simpa using hrel⟩
        · rw [if_neg (by omega), if_neg (by omega)]
          -- one more iteration, which finds nothing
          have hfu : ∃ f, fuel = f + 1 := ⟨fuel - 1, by omega⟩
          obtain ⟨f, rfl⟩ := hfu
          rw [unmask_length]
          have hps := payload_step junk s2 (size - P.length) 0 key (i + P.length) (rem - P.length) [] hml hidl
            (by omega) (by rw [hbuf]; rfl) hopn hcur (by rw [hhdr]) (by omega) h4 (by rw [hhdr]; exact hk) hfine (by simp)
          obtain ⟨s3, h1, h2, h3, h4', h5, h6, h7, h8, h9⟩ := hps
          simp only [readLoop, readFrame]
          rw [if_pos (by rw [hhdr]; simp only; omega), h1]
          simp only [List.length_nil, Nat.zero_min, Int.natCast_zero, Outcome.bind_ok, if_true, Outcome.pure_eq]
          refine ⟨s3, _, rfl, by rw [h2, hsent, hs1], rfl, h3, h7, ?_⟩
          refine ⟨h3, by simpa using h4', h5, by simpa using h6, h7, fun _ => h8, ?_⟩
          simp only
          refine ⟨by rw [h9]; simp, by omega, h8, h4, ?_, hfine⟩
          rw [h9, hhdr]; exact hk
      · -- the payload is completed
        have hmin : min P.length rem = rem := by omega
        have htl : (P.take rem).length = rem := by simp; omega
        have hsp : decRun ⟨.pay key i rem, st2⟩ P = 
            ((decRun ⟨.hdr [], st2⟩ (P.drop rem)).1, unmask key i (P.take rem) ++ (decRun ⟨.hdr [], st2⟩ (P.drop rem)).2) := by
          conv => lhs; rw [← List.take_append_drop rem P]
          rw [decRun_append, decRun_pay st2 key i rem (P.take rem) (by omega) hrem, htl]
          simp
        rw [hsp] at hfine ⊢
        rw [hmin] at hhdr ⊢
        rw [if_neg (by omega), if_neg (by omega), unmask_length, htl]
        have hrel : Rel s2 ⟨.hdr [], st2⟩ (P.drop rem) := by
          refine ⟨hml, hidx, hidl, hbuf, hopn, hst2, ?_⟩
          simp [hhdr]
        obtain ⟨s3, ret, h1, h2, h3, h4', h5, h6⟩ := ih (P.drop rem).length (by simp; omega) _ rfl s2 ⟨.hdr [], st2⟩ (size - rem) fuel
          (acc ++ unmask key i (P.take rem)) hrel (by simp; omega) (by simp; omega) hfine
        refine ⟨s3, ret, ?_, by rw [h2, hsent, hs1], ?_, h4', h5, h6⟩
        · rw [h1]; simp
        · rw [h3]; simp
    cases st with
    | outside => exact absurd hr.st (by simp)
    | pay key i rem =>
      have hst := hr.st
      simp only at hst
      obtain ⟨h1, h2, h3, h4, h5, h6⟩ := hst
      obtain ⟨s2, hp, hs, ha, hb, hc, hd, he, hf, hg⟩ := payload_step junk s size 0 key i rem B hr.mlen hr.idxle (by omega)
        (by simp [hr.buf]) hr.opn h3 h1 h2 h4 h5 h6 (.inr (by omega))
      refine cont s s2 B key i rem started (by omega) (fun _ => rfl) rfl (fun _ => hf) ?_ hs ha hb hc hd he hf hg h2 h4 h5 rfl
      unfold readFrame
      rw [if_pos (by omega)]; exact hp
    | hdr a =>
      have hst := hr.st
      simp only at hst
      obtain ⟨h0, rfl⟩ := hst
      rcases B with _ | ⟨b0, _ | ⟨b1, rest⟩⟩
      · skip
        simp only [decRun] at hfine ⊢
        simp only [readLoop, readFrame, h0]
        rw [hr.buf, parse_short _ _ (by simp)]
        simp only [Nat.lt_irrefl, if_false, Outcome.bind_ok, Outcome.pure_eq, Bool.false_eq_true, not_false_eq_true, if_true]
        exact ⟨s, (acc.length : Int), by simp, rfl, by simp, hr.mlen, hr.opn, hr⟩
      · have hd : decRun ⟨.hdr [], started⟩ [b0] = (⟨.hdr [b0], started⟩, []) := by
          simp [decRun, decStep, complete]
        rw [hd]
        simp only [readLoop, readFrame, h0]
        rw [hr.buf, parse_short _ _ (by simp)]
        simp only [gt_iff_lt, Nat.lt_irrefl, if_false, Outcome.bind_ok, Outcome.pure_eq, Bool.false_eq_true, not_false_eq_true, if_true]
        exact ⟨s, (acc.length : Int), by simp, rfl, by simp, hr.mlen, hr.opn, hr⟩
      · obtain ⟨hpa, _⟩ := parse_eq s.hdr b0 b1 rest
        have hge := headerSize_ge b1
        by_cases hcomp : headerSize b1 ≤ rest.length + 2
        · have hpa := hpa hcomp
          -- split
          obtain ⟨r1, r2, hr12, hr1⟩ : ∃ r1 r2, rest = r1 ++ r2 ∧ r1.length + 2 = headerSize b1 :=
            ⟨rest.take (headerSize b1 - 2), rest.drop (headerSize b1 - 2), by simp, by simp; omega⟩
          have htake : (b0 :: b1 :: rest).take (headerSize b1) = b0 :: b1 :: r1 := by
            rw [hr12]
            have : b0 :: b1 :: (r1 ++ r2) = (b0 :: b1 :: r1) ++ r2 := by simp
            rw [this, List.take_left' (by simp; omega)]
          have hdrop : (b0 :: b1 :: rest).drop (headerSize b1) = r2 := by
            rw [hr12]
            have : b0 :: b1 :: (r1 ++ r2) = (b0 :: b1 :: r1) ++ r2 := by simp
            rw [this, List.drop_left' (by simp; omega)]
          rw [htake] at hpa
          have hdr1 : decRun ⟨.hdr [], started⟩ (b0 :: b1 :: rest) =
              decRun (afterHeader started (b0 :: b1 :: r1)) r2 := by
            have : b0 :: b1 :: rest = (b0 :: b1 :: r1) ++ r2 := by simp [hr12]
            rw [this, decRun_append, decRun_header started b0 b1 r1 hr1]; simp
          rw [hdr1] at hfine
          have h0len : payloadLen (b0 :: b1 :: r1) ≠ 0 := by
            intro h
            simp [afterHeader, h, decRun_outside, Fine] at hfine
          -- state after the header
          obtain ⟨st2, hst2⟩ : ∃ st2, afterHeader started (b0 :: b1 :: r1) =
              ⟨.pay (maskKey (b0 :: b1 :: r1)) 0 (payloadLen (b0 :: b1 :: r1)), st2⟩ ∧
              (opcodeOf (b0 :: b1 :: r1) = 2 ∨ opcodeOf (b0 :: b1 :: r1) = 0 ∧ started = true) := by
            unfold afterHeader at hfine ⊢
            rw [if_neg h0len] at hfine ⊢
            split
            · rename_i h; exact ⟨true, rfl, .inl h⟩
            · split
              · rename_i h1 h; exact ⟨started, rfl, .inr h⟩
              · rename_i h1 h2
                rw [if_neg h1, if_neg h2, decRun_outside] at hfine
                simp [Fine] at hfine
          obtain ⟨hst2, hopc⟩ := hst2
          rw [hst2] at hdr1
          have hmk := maskKey_len b0 b1 r1 hr1
          -- the model's header
          let H : Header := {
            fin := b0.toNat ≥ 128, opcode := b0.toNat % 16, mask := b1.toNat ≥ 128,
            len := payloadLen (b0 :: b1 :: r1),
            key := if b1.toNat ≥ 128 then maskKey (b0 :: b1 :: r1) else s.hdr.key, hlen := headerSize b1 }
          let s1 : State := if H.opcode ≠ 0 then { s with hdr := H, curOp := H.opcode } else { s with hdr := H }
          have hs1hdr : s1.hdr = H := by simp only [s1]; split <;> rfl
          have hs1mem : s1.mem = s.mem := by simp only [s1]; split <;> rfl
          have hs1idx : s1.idx = s.idx := by simp only [s1]; split <;> rfl
          have hs1cl : s1.closed = s.closed := by simp only [s1]; split <;> rfl
          have hs1sent : s1.sent = s.sent := by simp only [s1]; split <;> rfl
          have hs1op : s1.curOp = 2 := by
            simp only [opcodeOf] at hopc
            simp only [s1, H]
            rcases hopc with h | ⟨h, h'⟩
            · rw [h]; rfl
            · rw [h]; exact hr.op h'
          have hk : if s1.hdr.mask then s1.hdr.key = maskKey (b0 :: b1 :: r1) else maskKey (b0 :: b1 :: r1) = [0, 0, 0, 0] := by
            rw [hs1hdr]
            simp only [H]
            by_cases hm : b1.toNat ≥ 128
            · simp [hm]
            · simp [hm, maskKey]
          have hsl : (b0 :: b1 :: rest).length = rest.length + 2 := by simp
          have hidx := hr.idx
          obtain ⟨s2, hp, hs, ha, hb, hc, hd, he, hf, hg⟩ := payload_step junk s1 size (headerSize b1)
            (maskKey (b0 :: b1 :: r1)) 0 (payloadLen (b0 :: b1 :: r1)) r2 (by rw [hs1mem]; exact hr.mlen)
            (by rw [hs1idx]; exact hr.idxle) (by rw [hs1idx]; omega)
            (by rw [hs1mem, hs1idx, hr.buf, hdrop]) (by rw [hs1cl]; exact hr.opn) hs1op (by rw [hs1hdr]) (by omega)
            hmk hk (.inl rfl) (.inr (by rw [hr12] at hsl hB; simp at hB; omega))
          have hr2 : r2.length + 2 ≤ n := by rw [hr12] at hB; simp at hB; omega
          refine cont s1 s2 r2 _ 0 _ st2 (by omega) (by omega) hs1sent (fun _ => hf) ?_ hs ha hb hc hd he hf hg (by omega) hmk hk hdr1
          unfold readFrame
          rw [if_neg (by omega), hr.buf, hpa]
          simp only [Outcome.bind_ok, not_true_eq_false, if_false]
          exact hp
        · rw [decRun_hdr started b0 b1 rest (by omega)] at hfine
          simp [Fine] at hfine
          omega

theorem decRun_carry (started : Bool) (a seg : Bytes) (ha : a.length < 2) :
    decRun ⟨.hdr [], started⟩ (a ++ seg) = decRun ⟨.hdr a, started⟩ seg := by
  rcases a with _ | ⟨x, _ | ⟨y, t⟩⟩
  · rfl
  · rw [decRun_append]
    simp [decRun, decStep, complete]
  · simp at ha; omega

/-- state of reader and decoder between two read events -/
def Between (s : State) (d : DecState) : Prop :=
  match d.st with
  | .hdr a => a.length < 2 ∧ Rel s ⟨.hdr [], d.started⟩ a
  | .pay key i rem => Rel s ⟨.pay key i rem, d.started⟩ []
  | .outside => False

theorem readIntoBuffer_rel {s d B} (h : Rel s d B) (seg : Bytes) (hs : seg ≠ [])
    (hl : B.length + seg.length ≤ bufSize) :
    ∃ s', readIntoBuffer s (.data seg) = .ok s' ∧ Rel s' d (B ++ seg) ∧ s'.sent = s.sent := by
  unfold readIntoBuffer
  have hidx := h.idx
  have ht : seg.take (bufSize - s.idx) = seg := List.take_of_length_le (by omega)
  simp only [h.opn, Bool.false_eq_true, if_false, ht, hs]
  rw [writeAt_ok (by rw [h.mlen]; omega)]
  have h1 := h.mlen
  refine ⟨_, rfl, ⟨?_, ?_, ?_, ?_, rfl, h.op, h.st⟩, rfl⟩
  · simp; omega
  · simp [h.idx]
  · simp only; omega
  · simp only [h.buf]
    rw [List.take_left' (by simp; omega)]

theorem read_spec (junk : Bytes) (eagain : Bool) {s d} (h : Between s d) (seg : Bytes) (size : Nat)
    (hs : seg ≠ []) (hl : seg.length < bufSize) (hsz : bufSize ≤ size) (hf : Fine (decRun d seg).1.st) :
    ∃ s', read junk eagain s (.data seg) size = .ok (s', ((decRun d seg).2.length : Int), (decRun d seg).2) ∧
      Between s' (decRun d seg).1 ∧ s'.sent = s.sent := by
  obtain ⟨a, d', ha, hrel, hdec⟩ : ∃ a d', a.length < 2 ∧ Rel s d' a ∧ decRun d seg = decRun d' (a ++ seg) := by
    obtain ⟨st, started⟩ := d
    cases st with
    | outside => simp [Between] at h
    | hdr a =>
      simp only [Between] at h
      exact ⟨a, _, h.1, h.2, (decRun_carry started a seg h.1).symm⟩
    | pay key i rem => exact ⟨[], _, by simp, h, rfl⟩
  rw [hdec] at hf ⊢
  obtain ⟨s1, h1, h2, h3⟩ := readIntoBuffer_rel hrel seg hs (by omega)
  obtain ⟨s2, ret, k1, k2, k3, k4, k5, k6⟩ := readLoop_spec junk eagain _ (a ++ seg) rfl s1 d' size (size + 1) [] h2
    (by simp; omega) (by simp; omega) hf
  refine ⟨s2, ?_, ?_, by rw [k2, h3]⟩
  · simp only [read, h1, Outcome.bind_ok, h2.opn, Bool.false_eq_true, if_false, readReady, k1]
    rw [k3]; simp
  · generalize decRun d' (a ++ seg) = r at *
    obtain ⟨⟨st, started⟩, out⟩ := r
    cases st with
    | outside => simp [Fine] at hf
    | hdr b => exact ⟨hf, k6⟩
    | pay key i rem => exact k6

theorem beNat_append (a b : Bytes) : beNat (a ++ b) = beNat a * 256 ^ b.length + beNat b := by
  have gen : ∀ (b : Bytes) (x : Nat), b.foldl (fun acc b => acc * 256 + b.toNat) x = x * 256 ^ b.length + beNat b := by
    intro b
    induction b with
    | nil => intro x; simp [beNat]
    | cons c b ih =>
      intro x
      simp only [beNat, List.foldl_cons, List.length_cons]
      rw [ih, ih (0 * 256 + c.toNat)]
      rw [Nat.pow_succ, Nat.zero_mul, Nat.zero_add, Nat.add_mul, Nat.mul_assoc, Nat.mul_comm 256, Nat.add_assoc]
  unfold beNat
  rw [List.foldl_append, gen]
  rfl

theorem beNat_be16 (n : Nat) (h : n < 65536) : beNat (be16 n) = n := by
  simp [beNat, be16]; omega

theorem beNat_be32 (n : Nat) : beNat (be32 n) = n % 4294967296 := by
  simp [beNat, be32]; omega

theorem beNat_be64 (n : Nat) (h : n < 18446744073709551616) : beNat (be64 n) = n := by
  unfold be64
  rw [beNat_append, beNat_be32, beNat_be32, be32_length]
  have : (256 : Nat) ^ 4 = 4294967296 := by decide
  rw [this]
  omega

/-- the bytes of an unmasked header -/
def plainHeader (fin : Bool) (opcode len : Nat) : Bytes :=
  UInt8.ofNat ((if fin then 0x80 else 0) ||| opcode) ::
    (if len ≤ 125 then [UInt8.ofNat len]
     else if len ≤ 65535 then UInt8.ofNat 126 :: be16 len
     else UInt8.ofNat 127 :: be64 len)

theorem plainHeader_length (fin : Bool) (opcode len : Nat) : (plainHeader fin opcode len).length ≤ 10 := by
  unfold plainHeader
  by_cases h1 : len ≤ 125
  · simp [h1]
  · by_cases h2 : len ≤ 65535 <;> simp [h1, h2]

theorem writeHeader_plain (dst : Bytes) (h : Header) (hd : 14 ≤ dst.length) (hm : h.mask = false) :
    ∃ d, writeHeader dst h = .ok (d, (plainHeader h.fin h.opcode h.len).length) ∧ d.length = dst.length ∧
      d.take (plainHeader h.fin h.opcode h.len).length = plainHeader h.fin h.opcode h.len := by
  unfold writeHeader plainHeader
  rw [writeAt_ok (by simp; omega)]
  simp only [Outcome.bind_ok, hm, Bool.false_eq_true, if_false, Nat.zero_or]
  by_cases h1 : h.len ≤ 125
  · simp only [h1, if_true]
    rw [writeAt_ok (by simp; omega)]
    refine ⟨_, rfl, by simp; omega, ?_⟩
    simp
  · by_cases h2 : h.len ≤ 65535
    · simp only [h1, h2, if_true, if_false]
      rw [writeAt_ok (by simp; omega), Outcome.bind_ok, writeAt_ok (by simp; omega)]
      refine ⟨_, rfl, by simp; omega, ?_⟩
      simp [be16]
    · simp only [h1, h2, if_false]
      rw [writeAt_ok (by simp; omega), Outcome.bind_ok, writeAt_ok (by simp; omega)]
      refine ⟨_, rfl, by simp; omega, ?_⟩
      simp [be64, be32]

theorem firstByte (fin : Bool) (op : Nat) (h : op < 16) :
    (UInt8.ofNat ((if fin then 0x80 else 0) ||| op)).toNat = (if fin then 128 else 0) + op := by
  have : ∀ (f : Bool) (o : Fin 16), (UInt8.ofNat ((if f then 0x80 else 0) ||| o.val)).toNat = (if f then 128 else 0) + o.val := by
    decide
  exact this fin ⟨op, h⟩

/-- structure of a plain header -/
theorem plainHeader_shape (fin : Bool) (op len : Nat) (hop : op < 16) (hlen : len < 18446744073709551616) :
    ∃ b0 b1 rest, plainHeader fin op len = b0 :: b1 :: rest ∧ rest.length + 2 = headerSize b1 ∧ b1.toNat < 128 ∧
      b0.toNat = (if fin then 128 else 0) + op ∧ payloadLen (b0 :: b1 :: rest) = len := by
  unfold plainHeader
  by_cases h1 : len ≤ 125
  · rw [if_pos h1]
    have hb : (UInt8.ofNat len).toNat = len := by simp; omega
    refine ⟨_, _, [], rfl, ?_, by omega, firstByte fin op hop, ?_⟩
    · have h2 : extLen (UInt8.ofNat len) = 0 := by unfold extLen; rw [hb]; rw [if_neg (by omega), if_neg (by omega)]
      unfold headerSize; rw [h2, hb, if_neg (by omega)]; rfl
    · have h2 : extLen (UInt8.ofNat len) = 0 := by unfold extLen; rw [hb]; rw [if_neg (by omega), if_neg (by omega)]
      simp only [payloadLen, h2, if_true, hb]; omega
  · rw [if_neg h1]
    by_cases h2 : len ≤ 65535
    · rw [if_pos h2]
      refine ⟨_, _, be16 len, rfl, rfl, by decide, firstByte fin op hop, ?_⟩
      have : extLen (UInt8.ofNat 126) = 2 := rfl
      simp only [payloadLen, this]
      exact beNat_be16 len (by omega)
    · rw [if_neg h2]
      refine ⟨_, _, be64 len, rfl, rfl, by decide, firstByte fin op hop, ?_⟩
      have : extLen (UInt8.ofNat 127) = 8 := rfl
      simp only [payloadLen, this]
      exact beNat_be64 len hlen

theorem unmask_zero (i : Nat) (l : Bytes) : unmask [0, 0, 0, 0] i l = l := by
  rw [← unmask_eq { mask := false } [0, 0, 0, 0] i l (by simp) (.inr ⟨0, rfl⟩) rfl]
  rfl

/-- a whole unmasked binary frame decodes to its payload -/
theorem decRun_frame (st : Bool) (p : Bytes) (hp : p ≠ []) (hl : p.length < 18446744073709551616) :
    decRun ⟨.hdr [], st⟩ (plainHeader true 2 p.length ++ p) = (⟨.hdr [], true⟩, p) := by
  obtain ⟨b0, b1, rest, h1, h2, h3, h4, h5⟩ := plainHeader_shape true 2 p.length (by omega) hl
  have hp0 : p.length ≠ 0 := by simpa using hp
  rw [decRun_append, h1, decRun_header st b0 b1 rest h2]
  unfold afterHeader
  have hop : opcodeOf (b0 :: b1 :: rest) = 2 := by simp [opcodeOf, h4]
  have hk : maskKey (b0 :: b1 :: rest) = [0, 0, 0, 0] := by simp only [maskKey]; rw [if_neg (by omega)]
  rw [h5, if_neg hp0, if_pos hop, hk]
  simp only
  rw [decRun_pay true _ 0 p.length p (by omega) (by omega), unmask_zero]
  simp

end Verif.Ws
