import Verif.Spec.RsaStream
import Verif.Props.Vec

/-!
# The RSA-AES stream (C34, C35, C36)
-/

namespace Verif.RsaStream
open Verif.Vec Verif.Enc

/-! ## Nonces -/

/-- the count stands for a number -/
structure Rep (c : Count) (i : Nat) : Prop where
  lo : c.lo = i % sizeT
  hi : c.hi = i / sizeT % sizeT

theorem rep_zero : Rep ⟨0, 0⟩ 0 := ⟨rfl, rfl⟩

theorem rep_next {c : Count} {i : Nat} (h : Rep c i) : Rep (updateNonce c).2 (i + 1) := by
  obtain ⟨h1, h2⟩ := h
  have key : ∀ {n}, n = i % sizeT → ((n + 1) % sizeT = 0 → (i + 1) % sizeT = 0 ∧ (i + 1) / sizeT = i / sizeT + 1) ∧
      ((n + 1) % sizeT ≠ 0 → (i + 1) % sizeT = (n + 1) % sizeT ∧ (i + 1) / sizeT = i / sizeT) := by
    intro n hn
    subst hn
    unfold sizeT
    omega
  obtain ⟨k1, k2⟩ := key h1
  unfold updateNonce
  simp only
  split
  · rename_i h
    obtain ⟨q1, q2⟩ := k1 h
    refine ⟨q1.symm, ?_⟩
    rw [q2, h2]
    unfold sizeT
    simp only
    omega
  · rename_i h
    obtain ⟨q1, q2⟩ := k2 h
    exact ⟨q1.symm, by rw [q2]; exact h2⟩

theorem digit {i j : Nat} (h : j < 8) : UInt8.ofNat (i % sizeT / 256 ^ j) = UInt8.ofNat (i / 256 ^ j) := by
  apply UInt8.toNat_inj.mp
  rw [toNat_ofNat8, toNat_ofNat8]
  have hs : sizeT = 256 ^ j * 256 ^ (8 - j) := by
    rw [← Nat.pow_add, show j + (8 - j) = 8 by omega]
    decide
  rw [hs, Nat.mod_mul_right_div_self, Nat.mod_mod_of_dvd]
  rw [show 8 - j = (7 - j) + 1 by omega, Nat.pow_succ]
  exact Nat.dvd_mul_left ..

theorem nonce_eq {c : Count} {i : Nat} (h : Rep c i) : (updateNonce c).1 = nonce i := by
  have hr : List.range 16 = List.range 8 ++ (List.range 8).map (8 + ·) := by decide
  unfold updateNonce nonce le64
  simp only
  rw [h.lo, h.hi, hr, List.map_append, List.map_map]
  congr 1
  · apply List.map_congr_left
    intro j hj
    exact digit (List.mem_range.mp hj)
  · apply List.map_congr_left
    intro j hj
    rw [digit (List.mem_range.mp hj)]
    simp only [Function.comp]
    rw [Nat.pow_add, Nat.div_div_eq_div_mul]
    rfl

/-- the number in bytes, least first -/
def leNat : Bytes → Nat
  | [] => 0
  | x :: l => x.toNat + 256 * leNat l

theorem leNat_digits (n i : Nat) : leNat ((List.range n).map fun j => UInt8.ofNat (i / 256 ^ j)) = i % 256 ^ n := by
  induction n generalizing i with
  | zero => simp [leNat, Nat.mod_one]
  | succ n ih =>
    rw [List.range_succ_eq_map, List.map_cons, List.map_map, leNat]
    have : ((fun j => UInt8.ofNat (i / 256 ^ j)) ∘ Nat.succ) = fun j => UInt8.ofNat (i / 256 / 256 ^ j) := by
      funext j
      simp only [Function.comp]
      rw [Nat.div_div_eq_div_mul, Nat.pow_succ, Nat.mul_comm]
    rw [this, ih, toNat_ofNat8, Nat.pow_zero, Nat.div_one, Nat.pow_succ, Nat.mul_comm (256 ^ n), Nat.mod_mul]

/-- the count before message `i` -/
def countAt : Nat → Count
  | 0 => ⟨0, 0⟩
  | i + 1 => (updateNonce (countAt i)).2

theorem countAt_rep : ∀ i, Rep (countAt i) i
  | 0 => rep_zero
  | i + 1 => rep_next (countAt_rep i)

/-- **C36**: within 2^128 messages no nonce is used twice.  That the i-th message has the i-th nonce, on both sides, is part of
`c34_authentic` and `c35_send`. -/
theorem c36_nonces {i j : Nat} (hi : i < 2 ^ 128) (hj : j < 2 ^ 128)
    (h : (updateNonce (countAt i)).1 = (updateNonce (countAt j)).1) : i = j := by
  rw [nonce_eq (countAt_rep i), nonce_eq (countAt_rep j)] at h
  have h := congrArg leNat h
  unfold nonce at h
  rw [leNat_digits, leNat_digits] at h
  have e : (256 : Nat) ^ 16 = 2 ^ 128 := by decide
  rw [e, Nat.mod_eq_of_lt hi, Nat.mod_eq_of_lt hj] at h
  exact h

example : (updateNonce ⟨18446744073709551615, 7⟩) =
    (List.replicate 8 255 ++ [7, 0, 0, 0, 0, 0, 0, 0], ⟨0, 8⟩) := by decide +kernel

/-! ## Reading -/

theorem be16_rd16 (a b : UInt8) : be16 (rd16 a b) = [a, b] := by
  unfold be16 rd16
  have ha := a.toNat_lt
  have hb := b.toNat_lt
  have h1 : UInt8.ofNat ((a.toNat * 256 + b.toNat) / 256) = a := by
    apply UInt8.toNat_inj.mp
    rw [toNat_ofNat8]
    omega
  have h2 : UInt8.ofNat (a.toNat * 256 + b.toNat) = b := by
    apply UInt8.toNat_inj.mp
    rw [toNat_ofNat8]
    omega
  rw [h1, h2]

theorem parse_some {buf : Bytes} {len : Nat} (h : parse buf = some len) :
    ∃ a b l, buf = a :: b :: l ∧ len = rd16 a b ∧ len + 16 ≤ l.length := by
  unfold parse at h
  split at h
  · rename_i a b c l
    split at h
    · cases h
    · rename_i hn
      cases h
      simp only [List.length_cons] at hn
      exact ⟨a, b, c :: l, rfl, rfl, by simp only [List.length_cons]; omega⟩
  · cases h

theorem readMessage_ok (k : Eax) (size : Nat) {s : State} {i : Nat} (hr : Rep s.count i) :
    ∃ s' r, readMessage k size s = .ok (s', r) ∧ s'.net = s.net ∧ s'.closed = s.closed ∧
      ((r = .wait ∧ s' = s) ∨ (r = .bad ∧ s'.buf = s.buf) ∨
        ∃ t, r = .got t ∧ s.buf = frame k i t ++ s'.buf ∧ t.length < 65536 ∧ t.length ≤ size ∧ Rep s'.count (i + 1)) := by
  unfold readMessage
  cases hp : parse s.buf with
  | none => exact ⟨_, _, rfl, rfl, rfl, .inl ⟨rfl, rfl⟩⟩
  | some len =>
    simp only
    split
    · exact ⟨_, _, rfl, rfl, rfl, .inl ⟨rfl, rfl⟩⟩
    · rename_i hs
      obtain ⟨a, b, l, h1, h2, h3⟩ := parse_some hp
      have hl : s.buf.length = l.length + 2 := by rw [h1]; rfl
      rw [readAt_ok (by omega), Outcome.bind_ok, readAt_ok (by omega), Outcome.bind_ok]
      split
      · exact ⟨_, _, rfl, rfl, rfl, .inr (.inl ⟨rfl, rfl⟩)⟩
      · rename_i hm
        refine ⟨_, _, rfl, rfl, rfl, .inr (.inr ⟨_, rfl, ?_, ?_, ?_, rep_next hr⟩)⟩
        · unfold decrypt at hm ⊢
          simp only [Classical.not_not, ne_eq] at hm ⊢
          rw [nonce_eq hr] at hm ⊢
          unfold frame
          rw [k.ctr_ctr, k.ctr_length]
          have e1 : (List.drop 2 s.buf).take len = l.take len := by rw [h1]; rfl
          have e2 : (List.drop (2 + len) s.buf).take 16 = (l.drop len).take 16 := by rw [h1, Nat.add_comm]; rfl
          have e3 : List.drop (2 + 16 + len) s.buf = l.drop (len + 16) := by
            rw [h1, show 2 + 16 + len = (len + 16) + 2 by omega]
            rfl
          rw [e1] at hm ⊢
          rw [e2] at hm
          have e4 : (l.take len).length = len := by rw [List.length_take]; omega
          rw [e4, hm, e3, h1]
          have e5 : be16 len = [a, b] := by rw [h2, be16_rd16]
          rw [e5, List.append_assoc, List.append_assoc]
          show _ = a :: b :: _
          rw [← List.drop_drop, List.take_append_drop, List.take_append_drop]
          rfl
        · unfold decrypt
          simp only
          rw [k.ctr_length, List.length_take, h2]
          have := rd16_lt a b
          omega
        · unfold decrypt
          simp only
          rw [k.ctr_length, List.length_take]
          omega

theorem frames_append (k : Eax) (i : Nat) (ts ts' : List Bytes) :
    frames k i (ts ++ ts') = frames k i ts ++ frames k (i + ts.length) ts' := by
  induction ts generalizing i with
  | nil => rfl
  | cons t ts ih =>
    rw [List.cons_append, frames, frames, ih, List.append_assoc, List.length_cons, show i + 1 + ts.length = i + (ts.length + 1) by omega]

theorem readLoop_ok (k : Eax) : ∀ (n size : Nat) {s : State} {i : Nat} (acc : Bytes), Rep s.count i →
    ∃ s' r ts, readLoop k n size s acc = .ok (s', r) ∧ s'.net = s.net ∧ s'.closed = s.closed ∧
      s.buf = frames k i ts ++ s'.buf ∧ (∀ t ∈ ts, t.length < 65536) ∧ ts.flatten.length ≤ size ∧
      ∀ b, r = some b → b = acc ++ ts.flatten ∧ Rep s'.count (i + ts.length)
  | 0, size, s, i, acc, hr => ⟨s, some acc, [], rfl, rfl, rfl, rfl, nofun, Nat.zero_le _, fun b h => by
      cases h
      exact ⟨by simp, hr⟩⟩
  | n + 1, size, s, i, acc, hr => by
    obtain ⟨s1, r1, e1, h1, h2, h3⟩ := readMessage_ok k size hr
    rw [readLoop, e1, Outcome.bind_ok]
    simp only
    rcases h3 with ⟨rfl, rfl⟩ | ⟨rfl, h3⟩ | ⟨t, rfl, h3, h4, h5, h6⟩
    · exact ⟨s1, some acc, [], rfl, rfl, rfl, rfl, nofun, Nat.zero_le _, fun b h => by
        cases h
        exact ⟨by simp, hr⟩⟩
    · exact ⟨s1, none, [], rfl, h1, h2, h3.symm, nofun, Nat.zero_le _, nofun⟩
    · cases t with
      | nil =>
        refine ⟨s1, some acc, [[]], rfl, h1, h2, ?_, ?_, Nat.zero_le _, fun b h => ?_⟩
        · rw [frames, frames, List.append_nil]
          exact h3
        · intro t ht
          cases List.mem_singleton.mp ht
          exact h4
        · cases h
          exact ⟨by simp, h6⟩
      | cons x t =>
        obtain ⟨s2, r2, ts, e2, g1, g2, g3, g4, g5, g6⟩ := readLoop_ok k n (size - (x :: t).length) (acc ++ (x :: t)) h6
        refine ⟨s2, r2, (x :: t) :: ts, e2, g1.trans h1, g2.trans h2, ?_, ?_, ?_, fun b h => ?_⟩
        · rw [frames, h3, g3, List.append_assoc]
        · intro t' ht
          rcases List.mem_cons.mp ht with rfl | ht
          · exact h4
          · exact g4 t' ht
        · rw [List.flatten_cons, List.length_append]
          omega
        · obtain ⟨q1, q2⟩ := g6 b h
          refine ⟨by rw [q1, List.flatten_cons, List.append_assoc], ?_⟩
          rw [List.length_cons, show i + (ts.length + 1) = i + 1 + ts.length by omega]
          exact q2

theorem readInto_ok (n : Nat) (s : State) : (readInto n s).count = s.count ∧ (readInto n s).buf ++ (readInto n s).net = s.buf ++ s.net := by
  unfold readInto
  split
  · exact ⟨rfl, rfl⟩
  · split
    · exact ⟨rfl, rfl⟩
    · exact ⟨rfl, by simp only [List.append_assoc, List.take_append_drop]⟩

theorem read_ok (k : Eax) (n size : Nat) {s : State} {i : Nat} (hr : Rep s.count i) :
    ∃ s' r ts, read k n size s = .ok (s', r) ∧ s.buf ++ s.net = frames k i ts ++ s'.buf ++ s'.net ∧
      (∀ t ∈ ts, t.length < 65536) ∧ ts.flatten.length ≤ size ∧
      ∀ b, r = some b → b = ts.flatten ∧ Rep s'.count (i + ts.length) := by
  obtain ⟨h1, h2⟩ := readInto_ok n s
  unfold read
  split
  · exact ⟨_, _, [], rfl, by rw [← h2]; rfl, nofun, Nat.zero_le _, fun b h => by
      cases h
      exact ⟨rfl, by rw [h1]; exact hr⟩⟩
  · obtain ⟨s', r, ts, e, g1, -, g3, g4, g5, g6⟩ := readLoop_ok k ((readInto n s).buf.length + 1) size (s := readInto n s) []
      (by rw [h1]; exact hr)
    refine ⟨s', r, ts, e, by rw [← h2, g3, g1], g4, g5, fun b h => ?_⟩
    obtain ⟨q1, q2⟩ := g6 b h
    exact ⟨by rw [q1]; rfl, q2⟩

theorem run_ok (k : Eax) : ∀ (rs : List (Nat × Nat)) {s : State} {i : Nat} (acc : Bytes), Rep s.count i →
    ∃ s' out bad ts, run k rs s acc = .ok (s', out, bad) ∧ s.buf ++ s.net = frames k i ts ++ s'.buf ++ s'.net ∧
      (∀ t ∈ ts, t.length < 65536) ∧ (∃ l, out ++ l = acc ++ ts.flatten ∧ (bad = false → l = []))
  | [], s, i, acc, hr => ⟨s, acc, false, [], rfl, rfl, nofun, [], rfl, fun _ => rfl⟩
  | (n, size) :: rs, s, i, acc, hr => by
    obtain ⟨s1, r1, ts1, e1, h1, h2, -, h4⟩ := read_ok k n size hr
    rw [run, e1, Outcome.bind_ok]
    simp only
    cases r1 with
    | none => exact ⟨s1, acc, true, ts1, rfl, h1, h2, ts1.flatten, rfl, nofun⟩
    | some b =>
      obtain ⟨rfl, h6⟩ := h4 b rfl
      obtain ⟨s2, out, bad, ts2, e2, g1, g2, l, g3, g4⟩ := run_ok k rs (acc ++ ts1.flatten) h6
      refine ⟨s2, out, bad, ts1 ++ ts2, e2, ?_, ?_, l, ?_, g4⟩
      · rw [h1, List.append_assoc, g1, frames_append]
        simp only [List.append_assoc]
      · intro t ht
        rcases List.mem_append.mp ht with ht | ht
        · exact h2 t ht
        · exact g2 t ht
      · rw [g3, List.flatten_append, List.append_assoc]

/-- **C34**: whatever bytes come from the network, in whatever pieces, and whatever space there is for what is read: nothing
undefined happens, and what is delivered are the texts of messages that came from the network one after the other, of
which the code of the i-th is the one for its text and the i-th nonce.  It is all of them, unless the connection ends
with an error; then it is a first part. -/
theorem c34_authentic (k : Eax) (net : Bytes) (rs : List (Nat × Nat)) :
    ∃ s out bad ts, run k rs (fresh net) [] = .ok (s, out, bad) ∧ (∃ rest, net = frames k 0 ts ++ rest) ∧
      (∀ t ∈ ts, t.length < 65536) ∧ out <+: ts.flatten ∧ (bad = false → out = ts.flatten) := by
  obtain ⟨s, out, bad, ts, e, h1, h2, l, h3, h4⟩ := run_ok k rs (s := fresh net) [] rep_zero
  refine ⟨s, out, bad, ts, e, ⟨s.buf ++ s.net, ?_⟩, h2, ⟨l, by simpa using h3⟩, fun hb => ?_⟩
  · rw [← List.append_assoc]
    exact h1
  · rw [h4 hb, List.append_nil] at h3
    simpa using h3

/-- a cipher to try things with: the identity, and a code of the nonce's first byte -/
def demoEax : Eax where
  ctr _ b := b
  tag n _ _ := n.take 1 ++ List.replicate (16 - (n.take 1).length) 0xEE
  ctr_length _ _ := rfl
  ctr_ctr _ _ := rfl
  tag_length n _ _ := by
    rw [List.length_append, List.length_replicate, List.length_take]
    omega

def code (i : UInt8) : Bytes := i :: List.replicate 15 0xEE

example : run demoEax [(5, 100), (100, 100), (1, 100)] (fresh ([0, 2, 65, 66] ++ code 0 ++ [0, 1, 67] ++ code 1 ++ [0, 1])) [] =
    .ok (⟨[0, 1], ⟨2, 0⟩, false, []⟩, [65, 66, 67], false) := by decide +kernel

/-- the code of the second message is wrong -/
example : run demoEax [(22, 100), (100, 100), (1, 100)] (fresh ([0, 2, 65, 66] ++ code 0 ++ [0, 1, 67] ++ code 5 ++ [0, 1])) [] =
    .ok (⟨[0, 1, 67] ++ code 5 ++ [0, 1], ⟨2, 0⟩, false, []⟩, [65, 66], true) := by decide +kernel

/-! ## C35 -/

theorem frame_length (k : Eax) (i : Nat) (t : Bytes) : (frame k i t).length = t.length + 18 := by
  unfold frame
  rw [List.length_append, List.length_append, k.ctr_length, k.tag_length, be16_length]
  omega

/-- a message that is in the buffer -/
theorem readMessage_frame (k : Eax) (size : Nat) {s : State} {i : Nat} (hr : Rep s.count i) {t rest : Bytes} (ht : t.length < 65536)
    (hb : s.buf = frame k i t ++ rest) (hs : t.length ≤ size) :
    readMessage k size s = .ok ({ s with count := (updateNonce s.count).2, buf := rest }, .got t) := by
  have hl := frame_length k i t
  have hp : parse s.buf = some t.length := by
    have hbl : s.buf.length = t.length + 18 + rest.length := by rw [hb, List.length_append, hl]
    have : s.buf = UInt8.ofNat (t.length / 256) :: UInt8.ofNat t.length :: s.buf.drop 2 := by rw [hb]; rfl
    rw [this] at hbl ⊢
    cases hd : s.buf.drop 2 with
    | nil =>
      rw [hd] at hbl
      simp only [List.length_cons, List.length_nil] at hbl
      omega
    | cons x l =>
      rw [hd] at hbl
      unfold parse
      simp only
      rw [rd16_be16 _ ht, if_neg (by omega)]
  unfold readMessage
  rw [hp]
  simp only
  rw [if_neg (by omega)]
  have hbl : s.buf.length = t.length + 18 + rest.length := by rw [hb, List.length_append, hl]
  rw [readAt_ok (by omega), Outcome.bind_ok, readAt_ok (by omega), Outcome.bind_ok]
  have e1 : (List.drop 2 s.buf).take t.length = k.ctr (nonce i) t := by
    rw [hb]
    unfold frame
    rw [List.append_assoc, List.append_assoc]
    show List.take t.length (k.ctr (nonce i) t ++ _) = _
    rw [List.take_left' (k.ctr_length _ _)]
  have e2 : (List.drop (2 + t.length) s.buf).take 16 = k.tag (nonce i) (be16 t.length) (k.ctr (nonce i) t) := by
    rw [hb]
    unfold frame
    rw [List.append_assoc, List.drop_left' (by rw [List.length_append, k.ctr_length, be16_length]),
      List.take_left' (k.tag_length ..)]
  have e3 : List.drop (2 + 16 + t.length) s.buf = rest := by
    rw [hb, List.drop_left' (by rw [hl]; omega)]
  unfold decrypt
  simp only
  rw [e1, e2, e3, nonce_eq hr, k.ctr_ctr, if_neg (fun h => h rfl)]

/-- a message that is not all in the buffer -/
theorem parse_short {k : Eax} {i : Nat} {t buf x y : Bytes} (ht : t.length < 65536) (hb : buf ++ x = frame k i t ++ y)
    (hs : buf.length < t.length + 18) : parse buf = none := by
  unfold parse
  split
  · rename_i a b c l
    have : frame k i t = UInt8.ofNat (t.length / 256) :: UInt8.ofNat t.length :: (frame k i t).drop 2 := rfl
    rw [this] at hb
    injection hb with h1 hb
    injection hb with h2 hb
    have hl : rd16 a b = t.length := by rw [h1, h2, rd16_be16 _ ht]
    rw [hl, if_pos (by omega)]
  · rfl

/-- what is in the buffer is less than a message -/
def Short (buf : Bytes) : List Bytes → Prop
  | [] => buf = []
  | t :: _ => buf.length < t.length + 18

theorem readLoop_all (k : Eax) : ∀ (n size : Nat) {s : State} {i : Nat} {todo : List Bytes} (acc : Bytes), Rep s.count i →
    s.buf.length < n → s.buf.length ≤ size + 18 → s.buf ++ s.net = frames k i todo → (∀ t ∈ todo, 0 < t.length ∧ t.length < 65536) →
    ∃ s' gone todo', todo = gone ++ todo' ∧ readLoop k n size s acc = .ok (s', some (acc ++ gone.flatten)) ∧ s'.net = s.net ∧
      s'.closed = s.closed ∧ s'.buf ++ s'.net = frames k (i + gone.length) todo' ∧ Short s'.buf todo' ∧
      Rep s'.count (i + gone.length) ∧ s'.buf.length ≤ s.buf.length
  | 0, _, _, _, _, _, _, h, _, _, _ => by omega
  | n + 1, size, s, i, todo, acc, hr, hn, hs, hb, ht => by
    rw [readLoop]
    have quiet : parse s.buf = none → Short s.buf todo → ∃ s' gone todo', todo = gone ++ todo' ∧ (do
        let (s, r) ← readMessage k size s
        match r with
        | .wait => .ok (s, some acc)
        | .bad => .ok (s, none)
        | .got [] => .ok (s, some acc)
        | .got b => readLoop k n (size - b.length) s (acc ++ b)) = .ok (s', some (acc ++ gone.flatten)) ∧ s'.net = s.net ∧
      s'.closed = s.closed ∧ s'.buf ++ s'.net = frames k (i + gone.length) todo' ∧ Short s'.buf todo' ∧
      Rep s'.count (i + gone.length) ∧ s'.buf.length ≤ s.buf.length := by
      intro hp hsh
      refine ⟨s, [], todo, rfl, ?_, rfl, rfl, hb, hsh, hr, Nat.le_refl _⟩
      unfold readMessage
      rw [hp]
      simp [Outcome.bind_ok]
    cases todo with
    | nil =>
      have he : s.buf = [] := (List.append_eq_nil_iff.mp hb).1
      exact quiet (by rw [he]; rfl) he
    | cons t ts =>
      obtain ⟨t0, t1⟩ := ht t List.mem_cons_self
      rw [frames] at hb
      by_cases hl : s.buf.length < t.length + 18
      · exact quiet (parse_short t1 hb hl) hl
      · have hfl := frame_length k i t
        have hpre : s.buf = frame k i t ++ s.buf.drop (t.length + 18) := by
          have h1 : s.buf.take (t.length + 18) = frame k i t := by
            have := congrArg (List.take (t.length + 18)) hb
            rw [List.take_append_of_le_length (by omega), List.take_left' hfl] at this
            exact this
          rw [← h1, List.take_append_drop]
        have hrest : s.buf.drop (t.length + 18) ++ s.net = frames k (i + 1) ts := by
          rw [hpre, List.append_assoc] at hb
          exact List.append_cancel_left hb
        rw [readMessage_frame k size hr t1 hpre (by omega), Outcome.bind_ok]
        obtain ⟨x, t', rfl⟩ : ∃ x t', t = x :: t' := by
          cases t with
          | nil => simp at t0
          | cons x t' => exact ⟨x, t', rfl⟩
        simp only
        have hdl : (s.buf.drop ((x :: t').length + 18)).length = s.buf.length - ((x :: t').length + 18) := List.length_drop ..
        obtain ⟨s', gone, todo', g1, g2, g3, g4, g5, g6, g7, g8⟩ := readLoop_all k n (size - (x :: t').length)
          (s := { s with count := (updateNonce s.count).2, buf := s.buf.drop ((x :: t').length + 18) }) (i := i + 1)
          (todo := ts) (acc ++ (x :: t')) (rep_next hr) (by simp only; omega) (by simp only; omega) hrest
          (fun t h => ht t (List.mem_cons_of_mem _ h))
        refine ⟨s', (x :: t') :: gone, todo', by rw [g1]; rfl, ?_, g3, g4, ?_, g6, ?_, ?_⟩
        · rw [g2, List.flatten_cons, List.append_assoc]
        · rw [g5, List.length_cons, show i + 1 + gone.length = i + (gone.length + 1) by omega]
        · rw [List.length_cons, show i + (gone.length + 1) = i + 1 + gone.length by omega]
          exact g7
        · simp only at g8
          omega

theorem run_all (k : Eax) : ∀ (rs : List (Nat × Nat)) {s : State} {i : Nat} {todo : List Bytes} (acc : Bytes), (∀ r ∈ rs, 8174 ≤ r.2) →
    Rep s.count i → s.buf ++ s.net = frames k i todo → (∀ t ∈ todo, 0 < t.length ∧ t.length ≤ 8174) → Short s.buf todo →
    s.buf.length < 8192 → s.closed = false →
    ∃ s' gone todo', todo = gone ++ todo' ∧ run k rs s acc = .ok (s', acc ++ gone.flatten, false) ∧ s'.closed = false ∧
      s'.buf ++ s'.net = frames k (i + gone.length) todo' ∧ Short s'.buf todo'
  | [], s, i, todo, acc, _, hr, hb, ht, hsh, hl, hc => ⟨s, [], todo, rfl, by simp [run], hc, hb, hsh⟩
  | (n, size) :: rs, s, i, todo, acc, hrs, hr, hb, ht, hsh, hl, hc => by
    obtain ⟨k1, k2⟩ := readInto_ok n s
    have k3 : (readInto n s).closed = false ∧ (readInto n s).buf.length ≤ 8192 := by
      unfold readInto bufferSize
      rw [hc, if_neg (by decide), if_neg (by omega)]
      refine ⟨rfl, ?_⟩
      simp only [List.length_append, List.length_take]
      omega
    have hsz := hrs (n, size) List.mem_cons_self
    simp only at hsz
    obtain ⟨s1, gone, todo', g1, g2, g3, g4, g5, g6, g7, g8⟩ := readLoop_all k ((readInto n s).buf.length + 1) size
      (s := readInto n s) (i := i) (todo := todo) [] (by rw [k1]; exact hr) (by omega) (by omega) (by rw [k2]; exact hb)
      (fun t h => ⟨(ht t h).1, by have := (ht t h).2; omega⟩)
    have hl1 : s1.buf.length < 8192 := by
      cases todo' with
      | nil =>
        have : s1.buf = [] := g6
        rw [this]
        decide
      | cons t ts =>
        have h1 : s1.buf.length < t.length + 18 := g6
        have := (ht t (by rw [g1]; exact List.mem_append_right _ List.mem_cons_self)).2
        omega
    obtain ⟨s2, gone2, todo2, q1, q2, q3, q4, q5⟩ := run_all k rs (acc ++ gone.flatten) (fun r h => hrs r (List.mem_cons_of_mem _ h)) g7 g5
      (fun t h => ht t (by rw [g1]; exact List.mem_append_right _ h)) g6 hl1 (by rw [g4, k3.1])
    refine ⟨s2, gone ++ gone2, todo2, by rw [g1, q1, List.append_assoc], ?_, q3, ?_, q5⟩
    · rw [run]
      unfold read
      rw [k3.1, if_neg (by decide), g2, Outcome.bind_ok]
      simp only [List.nil_append]
      rw [q2, List.flatten_append, List.append_assoc]
    · rw [q4, List.length_append, Nat.add_assoc]

/-- **C35** (part): when a peer sends messages of 1 to 8174 bytes, then whatever pieces they come in, all that it sent is
delivered as soon as it came, and the stream stays open, as long as there always is space for 8174 bytes.

What is missing: longer messages, and those for which there is not enough space, see `c35_long_violated` and
`c35_stuck_violated`; and messages without text, see `c35_empty_violated`. -/
theorem c35_receive_partial (k : Eax) {msgs : List Bytes} (hm : ∀ t ∈ msgs, 0 < t.length ∧ t.length ≤ 8174) {rs : List (Nat × Nat)}
    (hrs : ∀ r ∈ rs, 8174 ≤ r.2) : ∃ s n, run k rs (fresh (frames k 0 msgs)) [] = .ok (s, (msgs.take n).flatten, false) ∧
      s.closed = false ∧ (s.net = [] → (msgs.take n).flatten = msgs.flatten) := by
  obtain ⟨s, gone, todo, h1, h2, h3, h4, h5⟩ := run_all k rs (s := fresh (frames k 0 msgs)) (i := 0) (todo := msgs) [] hrs rep_zero rfl hm
    (by
      cases msgs with
      | nil => rfl
      | cons t ts => exact Nat.lt_of_lt_of_le (Nat.zero_lt_succ 17) (Nat.le_add_left ..)) (Nat.zero_lt_succ _) rfl
  have ht : msgs.take gone.length = gone := by rw [h1, List.take_left' rfl]
  refine ⟨s, gone.length, by rw [ht]; exact h2, h3, fun hn => ?_⟩
  rw [ht, h1]
  cases todo with
  | nil => rw [List.append_nil]
  | cons t ts =>
    have hs : s.buf.length < t.length + 18 := h5
    rw [hn, List.append_nil, frames] at h4
    have := congrArg List.length h4
    rw [List.length_append, frame_length] at this
    omega

example : run demoEax [(5, 8174), (30, 8174), (100, 8174)] (fresh (frames demoEax 0 [[65, 66], [67], [68, 69, 70]])) [] =
    .ok (⟨[], ⟨3, 0⟩, false, []⟩, [65, 66, 67, 68, 69, 70], false) := by decide +kernel

/-- C35 is violated when a message is longer than 8174 bytes, as those of a peer that sends like this stream does may be, or
than the space there is, which is 4096 bytes at most (common.h 40): in whatever pieces it comes, nothing is ever delivered -/
theorem c35_stuck_violated (k : Eax) {t rest : Bytes} (ht : t.length < 65536) {rs : List (Nat × Nat)}
    (hrs : 8174 < t.length ∨ ∀ r ∈ rs, r.2 < t.length) :
    ∃ s, run k rs (fresh (frame k 0 t ++ rest)) [] = .ok (s, [], false) := by
  have key : ∀ (rs : List (Nat × Nat)) (s : State), (8174 < t.length ∨ ∀ r ∈ rs, r.2 < t.length) → s.buf.length ≤ 8192 →
      s.buf ++ s.net = frame k 0 t ++ rest → ∃ s', run k rs s [] = .ok (s', [], false) := by
    intro rs
    induction rs with
    | nil => exact fun s _ _ _ => ⟨s, rfl⟩
    | cons r rs ih =>
      intro s h hl hb
      obtain ⟨n, size⟩ := r
      have h' : 8174 < t.length ∨ ∀ r ∈ rs, r.2 < t.length := h.imp id fun h r hr => h r (List.mem_cons_of_mem _ hr)
      obtain ⟨k1, k2⟩ := readInto_ok n s
      have k3 : (readInto n s).buf.length ≤ 8192 := by
        unfold readInto bufferSize
        split
        · exact hl
        · split
          · exact hl
          · simp only [List.length_append, List.length_take]
            omega
      rw [run]
      unfold read
      split
      · rw [Outcome.bind_ok]
        exact ih _ h' k3 (by rw [k2]; exact hb)
      · have hw : readMessage k size (readInto n s) = .ok (readInto n s, .wait) := by
          unfold readMessage
          by_cases hs : (readInto n s).buf.length < t.length + 18
          · rw [parse_short ht (by rw [k2]; exact hb) hs]
          · cases hp : parse (readInto n s).buf with
            | none => rfl
            | some len =>
              obtain ⟨a, b, l, e1, e2, e3⟩ := parse_some hp
              have hsz : size < t.length := by
                rcases h with h | h
                · omega
                · exact h _ List.mem_cons_self
              have hlen : len = t.length := by
                have hb' := hb
                rw [← k2, e1] at hb'
                have : frame k 0 t = UInt8.ofNat (t.length / 256) :: UInt8.ofNat t.length :: (frame k 0 t).drop 2 := rfl
                rw [this] at hb'
                injection hb' with h1 hb'
                injection hb' with h2 hb'
                rw [e2, h1, h2, rd16_be16 _ ht]
              simp only
              rw [if_pos (by omega)]
        rw [readLoop, hw]
        simp only [Outcome.bind_ok]
        exact ih _ h' k3 (by rw [k2]; exact hb)
  exact key rs _ hrs (Nat.zero_le _) rfl

/-- C35 is violated: once the buffer is full with a part of a long message, the stream is closed as if by the peer -/
theorem c35_long_violated (k : Eax) {t rest : Bytes} (ht : t.length < 65536) (hl : 8174 < t.length) (n size size' : Nat) :
    ∃ s, run k [(8192, size), (n, size')] (fresh (frame k 0 t ++ rest)) [] = .ok (s, [], false) ∧ s.closed = true := by
  obtain ⟨s, h⟩ := c35_stuck_violated k (rest := rest) ht (rs := [(8192, size), (n, size')]) (.inl hl)
  refine ⟨s, h, ?_⟩
  have hfl := frame_length k 0 t
  have h1 : readInto 8192 (fresh (frame k 0 t ++ rest)) =
      ⟨(frame k 0 t ++ rest).take 8192, ⟨0, 0⟩, false, (frame k 0 t ++ rest).drop 8192⟩ := rfl
  have hbl : ((frame k 0 t ++ rest).take 8192).length = 8192 := by
    rw [List.length_take, List.length_append, hfl]
    omega
  have h2 : read k 8192 size (fresh (frame k 0 t ++ rest)) =
      .ok (⟨(frame k 0 t ++ rest).take 8192, ⟨0, 0⟩, false, (frame k 0 t ++ rest).drop 8192⟩, some []) := by
    unfold read
    rw [h1]
    simp only
    rw [if_neg (by decide), readLoop]
    unfold readMessage
    simp only
    rw [parse_short (k := k) (i := 0) (t := t) (x := (frame k 0 t ++ rest).drop 8192) (y := rest) ht
      (List.take_append_drop ..) (by omega)]
    rfl
  rw [run, h2, Outcome.bind_ok] at h
  simp only [List.append_nil] at h
  rw [run] at h
  unfold read readInto at h
  simp only at h
  rw [hbl] at h
  simp only [bufferSize, if_true, Bool.false_eq_true, if_false] at h
  rw [Outcome.bind_ok] at h
  simp only [run] at h
  cases h
  rfl

/-- C35 is violated when a message is empty: what came after it is not delivered before more comes -/
theorem c35_empty_violated : run demoEax [(100, 8174)] (fresh (frames demoEax 0 [[], [65]])) [] =
    .ok (⟨frame demoEax 1 [65], ⟨1, 0⟩, false, []⟩, [], false) := by decide +kernel

/-! ## Sending -/

theorem append_ok {m : Heap} {v : Vec} {b : Bytes} (hm : Plenty m) (h : Ok v) (hs : v.len + b.length < sizeT / 2) :
    ∃ v', step (.append m b) v = .ok (v', true) ∧ Ok v' ∧ v'.bytes = v.bytes ++ b ∧ v'.len = v.len + b.length := by
  rcases step_ok (o := .append m b) h hs with ⟨why, hf, -⟩ | ⟨v', r, e, h1, h2, h3, h4⟩
  · cases hf
  · cases h4 hm
    refine ⟨v', e, h1, h2, ?_⟩
    have h5 := bytes_length h1
    rw [h2] at h5
    have h6 := bytes_length h
    have : specStep (.append m b) true v.bytes = v.bytes ++ b := rfl
    rw [this, List.length_append] at h5
    omega

theorem encrypt_ok (k : Eax) {m : Heap} {src ad : Bytes} {c : Count} {v : Vec} {i : Nat} (hm : Plenty m) (h : Ok v) (hr : Rep c i) :
    ∃ v' c', encrypt k m src ad c v = .ok (v', k.tag (nonce i) ad (k.ctr (nonce i) src), c') ∧ Ok v' ∧
      v'.bytes = v.bytes ++ k.ctr (nonce i) src ∧ v'.len = v.len + src.length ∧ Rep c' (i + 1) := by
  unfold encrypt
  rw [nonce_eq hr]
  generalize e : reserve m (v.len + src.length) v = q
  obtain ⟨v1, r⟩ := q
  obtain ⟨h1, h2, h3, -, h5, h6⟩ := reserve_ok h e
  have hrt : r = true := by
    cases r with
    | true => rfl
    | false =>
      have := hm (v.len + src.length)
      rw [h6 rfl] at this
      cases this
  have hc := h5 hrt
  obtain ⟨d, w1, w2, w3⟩ := write_end h1 (b := k.ctr (nonce i) src) (by rw [k.ctr_length]; omega)
  simp only
  rw [← h2, w1, Outcome.bind_ok]
  refine ⟨_, _, rfl, ⟨w2, by simp only; omega⟩, ?_, rfl, rep_next hr⟩
  unfold Vec.bytes
  simp only
  rw [k.ctr_length] at w3
  rw [w3]
  unfold Vec.bytes at h3 ⊢
  rw [h3]

theorem sendLoop_ok (k : Eax) {m : Nat → Nat → Heap} (hm : ∀ i j, Plenty (m i j)) (payload : Bytes) :
    ∀ (n i : Nat) {v : Vec} {c : Count} {j : Nat}, Ok v → Rep c j → v.len + n * 8210 + 16 < sizeT / 2 →
    ∃ v' c', sendLoop k m payload n i v c = .ok (v', c') ∧
      v'.bytes = v.bytes ++ frames k j ((List.range' i n).map (chunk payload)) ∧ Rep c' (j + n)
  | 0, i, v, c, j, h, hr, _ => ⟨v, c, rfl, by simp [frames], hr⟩
  | n + 1, i, v, c, j, h, hr, hs => by
    have hcl : (chunk payload i).length ≤ 8192 := by
      unfold chunk bufferSize
      rw [List.length_take]
      omega
    rw [sendLoop]
    obtain ⟨v1, e1, a1, a2, a3⟩ := append_ok (hm i 0) (b := be16 (chunk payload i).length) h (by rw [be16_length]; omega)
    rw [be16_length] at a3
    rw [e1, Outcome.bind_ok]
    simp only
    obtain ⟨v2, c2, e2, b1, b2, b3, b4⟩ := encrypt_ok k (src := chunk payload i) (ad := be16 (chunk payload i).length) (hm i 1) a1 hr
    rw [e2, Outcome.bind_ok]
    simp only
    obtain ⟨v3, e3, d1, d2, d3⟩ := append_ok (hm i 2)
      (b := k.tag (nonce j) (be16 (chunk payload i).length) (k.ctr (nonce j) (chunk payload i))) b1 (by rw [k.tag_length]; omega)
    rw [k.tag_length] at d3
    rw [e3, Outcome.bind_ok]
    simp only
    obtain ⟨v4, c4, e4, f1, f2⟩ := sendLoop_ok k hm payload n (i + 1) d1 b4 (by omega)
    refine ⟨v4, c4, e4, ?_, by rw [show j + (n + 1) = j + 1 + n by omega]; exact f2⟩
    rw [f1, d2, b2, a2, List.range'_succ, List.map_cons, frames]
    unfold frame
    simp only [List.append_assoc]

theorem pieces_flatten (payload : Bytes) (B n : Nat) : ∀ i, payload.length ≤ (i + n) * B →
    ((List.range' i n).map fun i => (payload.drop (i * B)).take B).flatten = payload.drop (i * B) := by
  induction n with
  | zero =>
    intro i h
    rw [List.drop_eq_nil_of_le (by simpa using h)]
    rfl
  | succ n ih =>
    intro i h
    rw [List.range'_succ, List.map_cons, List.flatten_cons, ih (i + 1) (by
      rw [show i + 1 + n = i + (n + 1) by omega]; exact h), Nat.add_mul, Nat.one_mul, ← List.drop_drop, List.take_append_drop]

theorem chunks_flatten (payload : Bytes) (n : Nat) (h : payload.length ≤ n * bufferSize) :
    ((List.range' 0 n).map (chunk payload)).flatten = payload := by
  have := pieces_flatten payload bufferSize n 0 (by rw [Nat.zero_add]; exact h)
  rw [Nat.zero_mul, List.drop_zero] at this
  exact this

/-- all sends, with the memory for each -/
def sendAll (k : Eax) : List (Heap × (Nat → Nat → Heap) × Bytes) → Count → Outcome Bytes
  | [], _ => .ok []
  | (m0, m, p) :: ps, c => do
    let (b, c) ← send k m0 m p c
    let b' ← sendAll k ps c
    .ok (b ++ b')

theorem send_ok (k : Eax) {m0 : Heap} {m : Nat → Nat → Heap} (hm : ∀ i j, Plenty (m i j)) {payload : Bytes}
    (hp : payload.length < sizeT / 8) {c : Count} {j : Nat} (hr : Rep c j) :
    ∃ msgs c', send k m0 m payload c = .ok (frames k j msgs, c') ∧ Rep c' (j + msgs.length) ∧ msgs.flatten = payload ∧
      ∀ t ∈ msgs, 0 < t.length ∧ t.length ≤ 8192 := by
  have hn : nMsg payload * 8192 < payload.length + 8192 := by
    unfold nMsg bufferSize
    omega
  have hn' : payload.length ≤ nMsg payload * 8192 := by
    unfold nMsg bufferSize
    omega
  have hi : Ok (init m0 (payload.length + nMsg payload * 18)).1 ∧ (init m0 (payload.length + nMsg payload * 18)).1.len = 0 := by
    generalize e : init m0 (payload.length + nMsg payload * 18) = q
    obtain ⟨v, r⟩ := q
    unfold init at e
    obtain ⟨h1, h2, -⟩ := reserve_ok (v := { data := [], len := 0, cap := 0 }) ⟨rfl, Nat.le_refl _⟩ e
    exact ⟨h1, h2⟩
  obtain ⟨v, c', e, h1, h2⟩ := sendLoop_ok k hm payload (nMsg payload) 0 hi.1 hr (by rw [hi.2]; unfold sizeT at *; omega)
  have hb : (init m0 (payload.length + nMsg payload * 18)).1.bytes = [] := by
    unfold Vec.bytes
    rw [hi.2]
    rfl
  refine ⟨(List.range' 0 (nMsg payload)).map (chunk payload), c', ?_, ?_, ?_, ?_⟩
  · unfold send
    rw [e, Outcome.bind_ok]
    simp only
    rw [h1, hb, List.nil_append]
  · rw [List.length_map, List.length_range']
    exact h2
  · exact chunks_flatten payload _ hn'
  · intro t ht
    obtain ⟨i, h3, rfl⟩ := List.mem_map.mp ht
    have h4 := (List.mem_range'_1.mp h3).2
    unfold chunk bufferSize
    rw [List.length_take, List.length_drop]
    omega

theorem peerRead_frame (k : Eax) (i : Nat) {t rest : Bytes} (ht : t.length < 65536) :
    peerRead k i (frame k i t ++ rest) = some (t, rest) := by
  have h1 : frame k i t ++ rest = UInt8.ofNat (t.length / 256) :: UInt8.ofNat t.length ::
      (k.ctr (nonce i) t ++ (k.tag (nonce i) (be16 t.length) (k.ctr (nonce i) t) ++ rest)) := by
    unfold frame
    simp only [List.append_assoc]
    rfl
  have hl := k.ctr_length (nonce i) t
  have htl := k.tag_length (nonce i) (be16 t.length) (k.ctr (nonce i) t)
  rw [h1, peerRead, rd16_be16 _ ht, if_neg (by simp only [List.length_append, hl, htl]; omega), List.drop_left' hl,
    List.take_left' htl, List.take_left' hl]
  have : [UInt8.ofNat (t.length / 256), UInt8.ofNat t.length] = be16 t.length := rfl
  rw [this, if_pos rfl, k.ctr_ctr, ← List.drop_drop, List.drop_left' hl, List.drop_left' htl]

theorem peer_frames (k : Eax) (i : Nat) {msgs : List Bytes} (h : ∀ t ∈ msgs, t.length < 65536) (rest : Bytes) :
    peer k msgs.length i (frames k i msgs ++ rest) = some (msgs.flatten, rest) := by
  induction msgs generalizing i with
  | nil => rfl
  | cons t ts ih =>
    rw [List.length_cons, peer, frames, List.append_assoc, peerRead_frame k i (h t List.mem_cons_self)]
    simp only [Option.bind_eq_bind, Option.bind_some]
    rw [ih _ fun t' h' => h t' (List.mem_cons_of_mem _ h')]
    rfl

/-- **C35**, sending: for all payloads sent one after the other, while there is memory, the bytes handed on are messages of
at most 8192 bytes, and a peer that follows the protocol gets from them what was sent. -/
theorem c35_send (k : Eax) {ps : List (Heap × (Nat → Nat → Heap) × Bytes)}
    (h : ∀ p ∈ ps, (∀ i j, Plenty (p.2.1 i j)) ∧ p.2.2.length < sizeT / 8) :
    ∃ wire msgs, sendAll k ps ⟨0, 0⟩ = .ok wire ∧ wire = frames k 0 msgs ∧ (∀ t ∈ msgs, 0 < t.length ∧ t.length ≤ 8192) ∧
      ∀ rest, peer k msgs.length 0 (wire ++ rest) = some ((ps.map (·.2.2)).flatten, rest) := by
  have key : ∀ (ps : List (Heap × (Nat → Nat → Heap) × Bytes)) (c : Count) (j : Nat), Rep c j →
      (∀ p ∈ ps, (∀ i j, Plenty (p.2.1 i j)) ∧ p.2.2.length < sizeT / 8) →
      ∃ msgs, sendAll k ps c = .ok (frames k j msgs) ∧ msgs.flatten = (ps.map (·.2.2)).flatten ∧
        ∀ t ∈ msgs, 0 < t.length ∧ t.length ≤ 8192 := by
    intro ps
    induction ps with
    | nil => exact fun c j _ _ => ⟨[], rfl, rfl, nofun⟩
    | cons p ps ih =>
      intro c j hr h
      obtain ⟨m0, m, payload⟩ := p
      obtain ⟨p2, p3⟩ := h _ List.mem_cons_self
      obtain ⟨msgs, c', e1, h1, h2, h3⟩ := send_ok k p2 p3 hr
      obtain ⟨msgs', e2, h4, h5⟩ := ih c' _ h1 fun p' h' => h p' (List.mem_cons_of_mem _ h')
      refine ⟨msgs ++ msgs', ?_, ?_, ?_⟩
      · rw [sendAll, e1, Outcome.bind_ok]
        simp only
        rw [e2, Outcome.bind_ok, frames_append]
      · rw [List.flatten_append, h2, h4, List.map_cons, List.flatten_cons]
      · intro t ht
        rcases List.mem_append.mp ht with ht | ht
        · exact h3 t ht
        · exact h5 t ht
  obtain ⟨msgs, e, h1, h2⟩ := key ps ⟨0, 0⟩ 0 rep_zero h
  exact ⟨_, msgs, e, rfl, h2, fun rest => by
    rw [peer_frames k 0 (fun t ht => by have := (h2 t ht).2; omega), h1]⟩

def okHeap : Heap := fun _ => some fun _ => 0xAA

example : sendAll demoEax [(okHeap, fun _ _ => okHeap, [65, 66]), (okHeap, fun _ _ => okHeap, []), (okHeap, fun _ _ => okHeap, [67])] ⟨0, 0⟩ =
    .ok ([0, 2, 65, 66] ++ code 0 ++ [0, 1, 67] ++ code 1) := by decide +kernel

/-- C35 is violated when there is no memory -/
theorem c35_memory_violated : sendAll demoEax [(fun _ => none, fun _ _ _ => none, [65, 66])] ⟨0, 0⟩ = .ub "write out of bounds" := by decide +kernel

end Verif.RsaStream
