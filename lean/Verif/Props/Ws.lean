import Verif.Lemmas.Ws

/-! # Properties of WebSocket framing (C29-C31) -/

namespace Verif.Ws

/-- C29.  The header parser never reads outside the bytes it was given, whatever they are, and when
it succeeds the header lies within them. -/
theorem c29_parse_safe (h : Header) (p : Bytes) :
    ∃ h' ok, parse h p = .ok (h', ok) ∧ (ok = true → 2 ≤ h'.hlen ∧ h'.hlen ≤ p.length) := by
  by_cases h2 : p.length < 2
  · exact ⟨_, _, parse_short h p h2, by simp⟩
  · rcases p with _ | ⟨b0, _ | ⟨b1, rest⟩⟩
    · simp at h2
    · simp at h2
    · obtain ⟨ha, hb⟩ := parse_eq h b0 b1 rest
      by_cases hc : headerSize b1 ≤ rest.length + 2
      · exact ⟨_, _, ha hc, fun _ => ⟨headerSize_ge b1, by simpa using hc⟩⟩
      · obtain ⟨h', e⟩ := hb (by omega)
        exact ⟨_, _, e, by simp⟩

/-- C29.  The parser succeeds exactly when the RFC 6455 header is complete. -/
theorem c29_parse_iff_complete (h : Header) (b0 b1 : UInt8) (rest : Bytes) :
    (∃ h', parse h (b0 :: b1 :: rest) = .ok (h', true)) ↔ headerSize b1 ≤ rest.length + 2 := by
  obtain ⟨ha, hb⟩ := parse_eq h b0 b1 rest
  constructor
  · rintro ⟨h', e⟩
    by_cases hc : headerSize b1 ≤ rest.length + 2
    · exact hc
    · obtain ⟨h'', e'⟩ := hb (by omega)
      rw [e] at e'; simp at e'
  · exact fun hc => ⟨_, ha hc⟩

/-- C29.  Writing a header without mask (the server never masks) into a buffer of
`WS_HEADER_MIN_SIZE` stays inside it; parsing what was written, followed by anything, gives back
fin, opcode and length, for every length below 2^64. -/
theorem c29_round_trip (dst : Bytes) (h h0 : Header) (tail : Bytes) (hd : headerMinSize ≤ dst.length)
    (hm : h.mask = false) (hop : h.opcode < 16) (hlen : h.len < 2 ^ 64) :
    ∃ d n, writeHeader dst h = .ok (d, n) ∧ d.length = dst.length ∧ n ≤ 10 ∧
      parse h0 (d.take n ++ tail) =
        .ok ({ fin := h.fin, opcode := h.opcode, mask := false, len := h.len, key := h0.key, hlen := n }, true) := by
  obtain ⟨d, h1, h2, h3⟩ := writeHeader_plain dst h hd hm
  obtain ⟨b0, b1, rest, k1, k2, k3, k4, k5⟩ := plainHeader_shape h.fin h.opcode h.len hop (by simpa using hlen)
  refine ⟨d, _, h1, h2, ?_, ?_⟩
  · exact plainHeader_length h.fin h.opcode h.len
  · have hp := (parse_eq h0 b0 b1 (rest ++ tail)).1 (by simp; omega)
    have e : b0 :: b1 :: (rest ++ tail) = (b0 :: b1 :: rest) ++ tail := by simp
    have hl : (b0 :: b1 :: rest).length = headerSize b1 := by simpa using k2
    rw [h3, k1, hl]
    rw [e, List.take_left' hl, k5] at hp
    rw [hp]
    have hb : ¬ b1.toNat ≥ 128 := by omega
    congr 3
    · rw [k4]; cases h.fin <;> simp; omega
    · rw [k4]; cases h.fin <;> simp <;> omega
    · simp [hb]
    · simp [hb]

example : (writeHeader (List.replicate 14 7) { fin := true, opcode := 2, len := 70000 }) =
    .ok ([130, 127, 0, 0, 0, 0, 0, 1, 17, 112, 7, 7, 7, 7], 10) := by decide

/-- C29, masked headers: the writer puts the key over the first four bytes, so the result does not
parse to what was written.  (The library itself never writes masked headers.) -/
theorem c29_masked_violated :
    ∃ dst h d n, headerMinSize ≤ dst.length ∧ h.opcode < 16 ∧ h.len < 2 ^ 64 ∧ writeHeader dst h = .ok (d, n) ∧
      ∃ h', parse {} (d.take n) = .ok (h', true) ∧ (h'.opcode ≠ h.opcode ∧ h'.len ≠ h.len) := by
  refine ⟨List.replicate 14 0, { fin := true, opcode := 2, mask := true, len := 5, key := [1, 2, 3, 4] },
    [1, 2, 3, 4, 0, 0, 0, 0, 0, 0, 0, 0, 0, 0], 6, by decide, by decide, by decide, by decide,
    { opcode := 1, len := 2, hlen := 2 }, by decide, by decide⟩

/-- C29.  A sequence of messages sent through the WebSocket layer is received by any RFC 6455
decoder as the concatenation of the messages. -/
theorem c29_sent_frames_decode (junk : Bytes) (hj : junk.length = headerMinSize) (msgs : List Bytes)
    (hm : ∀ m ∈ msgs, m ≠ [] ∧ m.length < 2 ^ 64) :
    ∃ outs : List (List Bytes), outs.length = msgs.length ∧
      (∀ (i : Nat) o m, outs[i]? = some o → msgs[i]? = some m → send junk m = .ok o) ∧
      (decRun {} outs.flatten.flatten).2 = msgs.flatten := by
  have gen : ∀ (msgs : List Bytes) (st : Bool), (∀ m ∈ msgs, m ≠ [] ∧ m.length < 2 ^ 64) →
      ∃ outs : List (List Bytes), outs.length = msgs.length ∧
      (∀ (i : Nat) o m, outs[i]? = some o → msgs[i]? = some m → send junk m = .ok o) ∧
      (decRun ⟨.hdr [], st⟩ outs.flatten.flatten).2 = msgs.flatten := by
    intro msgs
    induction msgs with
    | nil => intro st _; exact ⟨[], rfl, by simp, rfl⟩
    | cons m msgs ih =>
      intro st hm
      obtain ⟨outs, h1, h2, h3⟩ := ih true fun x hx => hm x (by simp [hx])
      obtain ⟨hm1, hm2⟩ := hm m (by simp)
      obtain ⟨d, k1, k2, k3⟩ := writeHeader_plain junk { fin := true, opcode := 2, len := m.length } (by rw [hj]; decide) rfl
      simp only at k1 k3
      refine ⟨[plainHeader true 2 m.length, m] :: outs, by simp [h1], ?_, ?_⟩
      · intro i o m' ho hm'
        cases i with
        | zero =>
          simp only [List.getElem?_cons_zero, Option.some.injEq] at ho hm'
          subst ho; subst hm'
          simp only [send, k1, Outcome.bind_ok, k3, Outcome.pure_eq]
        | succ i =>
          simp only [List.getElem?_cons_succ] at ho hm'
          exact h2 i o m' ho hm'
      · simp only [List.flatten_cons, List.cons_append, List.nil_append]
        rw [← List.append_assoc, decRun_append, decRun_frame st m hm1 (by simpa using hm2)]
        simp only
        rw [h3]
  exact gen msgs false hm

/-- C29.  The same for a message produced at send time. -/
theorem c29_exec_frame (junk : Bytes) (hj : headerMinSize ≤ junk.length) (m : Bytes) (st : Bool)
    (hm : m ≠ []) (hl : m.length < 2 ^ 64) :
    ∃ b, chainedExec junk m = .ok b ∧ decRun ⟨.hdr [], st⟩ b = (⟨.hdr [], true⟩, m) := by
  obtain ⟨d, k1, k2, k3⟩ := writeHeader_plain junk { fin := true, opcode := 2, len := m.length } hj rfl
  simp only at k1 k3
  refine ⟨plainHeader true 2 m.length ++ m, ?_, decRun_frame st m hm (by simpa using hl)⟩
  simp only [chainedExec, k1, Outcome.bind_ok, k3, Outcome.pure_eq]

example : (send (List.replicate 14 0) [1, 2, 3]) = .ok [[130, 3], [1, 2, 3]] := by decide
example : (decRun {} [130, 3, 1, 2, 3, 130, 1, 9]).2 = [1, 2, 3, 9] := by decide

/-- a fresh reader with arbitrary memory contents -/
def fresh (mem : Bytes) : State := { mem := mem }

/-- C30, partly.  For every sequence of binary frames and every segmentation whose cuts are fine
(inside a header at most after its first byte; inside a payload at multiples of four unless the key
is uniform), with the caller's buffer not smaller than the stream's: the delivered bytes are those
of RFC 6455, nothing is sent back, the stream stays open and no undefined behaviour occurs.
Missing: other cuts, control and empty frames, small caller buffers; see the violations below. -/
theorem c30_delivery_partial (junk mem : Bytes) (eagain : Bool) (segs : List (Bytes × Nat))
    (hmem : mem.length = bufSize)
    (hsegs : ∀ x ∈ segs, x.1 ≠ [] ∧ x.1.length < bufSize ∧ bufSize ≤ x.2)
    (hcuts : FineCuts {} (segs.map Prod.fst)) :
    ∃ s, run junk eagain (fresh mem) (segs.map fun x => (.data x.1, x.2)) =
        .ok (s, (decRun {} (segs.map Prod.fst).flatten).2) ∧ s.closed = false ∧ s.sent = [] := by
  have gen : ∀ (segs : List (Bytes × Nat)) (s : State) (d : DecState), Between s d →
      (∀ x ∈ segs, x.1 ≠ [] ∧ x.1.length < bufSize ∧ bufSize ≤ x.2) → FineCuts d (segs.map Prod.fst) →
      ∃ s', run junk eagain s (segs.map fun x => (.data x.1, x.2)) =
        .ok (s', (decRun d (segs.map Prod.fst).flatten).2) ∧ s'.closed = false ∧ s'.sent = s.sent := by
    intro segs
    induction segs with
    | nil =>
      intro s d h _ _
      refine ⟨s, rfl, ?_, rfl⟩
      obtain ⟨st, started⟩ := d
      cases st with
      | outside => simp [Between] at h
      | hdr a => exact h.2.opn
      | pay => exact h.opn
    | cons x segs ih =>
      intro s d h hs hc
      simp only [List.map_cons, FineCuts] at hc
      obtain ⟨h1, h2, h3⟩ := hs x (by simp)
      obtain ⟨s1, k1, k2, k3⟩ := read_spec junk eagain h x.1 x.2 h1 h2 h3 hc.1
      obtain ⟨s2, l1, l2, l3⟩ := ih s1 _ k2 (fun y hy => hs y (by simp [hy])) hc.2
      refine ⟨s2, ?_, l2, by rw [l3, k3]⟩
      simp only [List.map_cons, run, k1, Outcome.bind_ok, l1, List.flatten_cons, decRun_append, Outcome.pure_eq]
  have hb : Between (fresh mem) {} := by
    refine ⟨by simp, ⟨hmem, rfl, by simp [fresh], by simp [fresh], rfl, by simp, ?_⟩⟩
    simp [fresh]
  obtain ⟨s, h1, h2, h3⟩ := gen segs _ _ hb hsegs hcuts
  exact ⟨s, h1, h2, h3⟩

/-- two masked frames, the first split four bytes into its payload, the second after one header
byte -/
example : FineCuts {} [[130, 133, 1, 2, 3, 4, 96, 96, 96, 96], [97, 130], [130, 9, 9, 9, 9, 0, 1]] ∧
    (decRun {} [130, 133, 1, 2, 3, 4, 96, 96, 96, 96, 97, 130, 130, 9, 9, 9, 9, 0, 1]).2 =
      [97, 98, 99, 100, 96, 9, 8] := by
  refine ⟨⟨.inl (by decide), ?_, ?_, trivial⟩, by decide⟩
  · show (1 : Nat) < 2; decide
  · show (0 : Nat) < 2; decide

/-- what a reader with an all-zero buffer delivers and sends, for the witnesses below -/
def deliver (segs : List Bytes) : Option (Bytes × List Bytes × Bool) :=
  match run (List.replicate 14 0) false (fresh (List.replicate 4096 0)) (segs.map fun x => (.data x, 4096)) with
  | .ok (s, out) => some (out, s.sent, s.closed)
  | _ => none

/-- C30 is violated: one masked frame whose payload is split after one byte is delivered with the
wrong masking phase. -/
theorem c30_mask_phase_violated :
    ∃ segs : List Bytes, (deliver segs).map Prod.fst = some [97, 97, 98] ∧
      (decRun {} segs.flatten).2 = [97, 98, 99] := by
  refine ⟨[[130, 131, 1, 2, 3, 4, 96], [96, 96]], ?_, by decide⟩
  decide +kernel

/-- C30 is violated: one frame split inside its header is delivered with header bytes as payload. -/
theorem c30_split_header_violated :
    ∃ segs : List Bytes, (decRun {} segs.flatten).2 = [97, 98] ∧
      (deliver segs).map Prod.fst = some [] ∧
      ∃ segs', segs'.flatten = segs.flatten ∧ (deliver segs').map Prod.fst = some [97, 98] := by
  refine ⟨[[130, 130], [0, 0, 0, 0, 97, 98]], by decide, by decide +kernel,
    [[130, 130, 0, 0, 0, 0, 97, 98]], by decide, by decide +kernel⟩

/-- C30 is violated: a ping between two fragments of a message makes the rest of the message be
treated as part of the ping: it is sent back instead of delivered. -/
theorem c30_interleaved_control_violated :
    ∃ segs : List Bytes, segs.flatten = [2, 1, 97] ++ [137, 0] ++ [128, 1, 98] ∧
      (deliver segs).map Prod.fst = some [97] := by
  refine ⟨[[2, 1, 97], [137, 0], [128, 1, 98]], by decide, by decide +kernel⟩

/-- C30 is violated: after a frame that delivers nothing (here an empty ping) the reader stops, so a
complete binary message behind it in the same segment is not delivered until more data arrives. -/
theorem c30_stall_violated :
    ∃ seg : Bytes, seg = [137, 0] ++ [130, 1, 97] ∧ (deliver [seg]).map Prod.fst = some [] ∧
      (deliver [[137, 0], [130, 1, 97]]).map Prod.fst = some [97] := by
  refine ⟨_, rfl, by decide +kernel, by decide +kernel⟩

/-- Steps of the reader: data arriving, and one iteration of the frame loop -/
inductive Steps (junk : Bytes) : State → State → Prop
  | refl (s) : Steps junk s s
  | arrive {s s' t} (k : Kernel) : readIntoBuffer s k = .ok s' → Steps junk s' t → Steps junk s t
  | frame {s s' t n out} (size : Nat) : readFrame junk s size = .ok (s', n, out) → Steps junk s' t → Steps junk s t

theorem Steps.trans {junk a b c} (h : Steps junk a b) (h' : Steps junk b c) : Steps junk a c := by
  induction h with
  | refl => exact h'
  | arrive k e _ ih => exact .arrive k e (ih h')
  | frame size e _ ih => exact .frame size e (ih h')

/-- the read buffer is where it should be -/
def WF (s : State) : Prop := s.mem.length = bufSize ∧ s.idx ≤ bufSize

/-- A state about to process a ping frame whose header and payload do not fit the read buffer -/
def BigPing (s : State) : Prop :=
  s.hdr.len = 0 ∧ ∃ h, parse s.hdr (s.mem.take s.idx) = .ok (h, true) ∧
    (h.opcode = 9 ∨ h.opcode = 0 ∧ s.curOp = 9) ∧ bufSize < h.hlen + h.len

theorem advance_wf {s : State} (h : WF s) (size offset : Nat) (ho : offset ≤ s.idx) :
    ∃ s', advance s size offset = .ok s' ∧ WF s' ∧ s'.sent = s.sent ∧ s'.closed = s.closed ∧
      s'.idx ≤ s.idx - offset := by
  obtain ⟨m', a1, a2, a3⟩ := advance_ok s size offset h.1 h.2 ho
  refine ⟨_, a1, ⟨a2, ?_⟩, rfl, rfl, ?_⟩
  · have := h.2
    show s.idx - _ ≤ _
    omega
  · show s.idx - _ ≤ _
    omega

theorem processPing_wf {junk : Bytes} (hj : headerMinSize ≤ junk.length) {s : State} (h : WF s) (offset : Nat)
    (ho : offset ≤ s.idx) (hb : offset + min s.idx s.hdr.len ≤ bufSize) :
    ∃ s', processPing junk s offset = .ok s' ∧ WF s' := by
  obtain ⟨d, w1, w2, w3⟩ := writeHeader_plain junk { fin := true, opcode := 10, len := s.hdr.len } hj rfl
  have key : ∀ s1 : State, s1.mem = s.mem → s1.idx = s.idx → s1.hdr = s.hdr →
      ∃ s', (readAt s1.mem offset (min s1.idx s1.hdr.len) >>= fun echo =>
        advance { s1 with sent := s1.sent ++ [echo] } (min s1.idx s1.hdr.len) offset) = .ok s' ∧ WF s' := by
    intro s1 e1 e2 e3
    obtain ⟨mem1, idx1, hdr1, c1, c2, c3⟩ := s1
    simp only at e1 e2 e3
    subst e1; subst e2; subst e3
    rw [readAt_ok (by rw [h.1]; exact hb)]
    simp only [Outcome.bind_ok]
    obtain ⟨s', k1, k2, _⟩ := advance_wf (s := ⟨s.mem, s.idx, s.hdr, c1, c2, c3 ++ [(s.mem.drop offset).take (min s.idx s.hdr.len)]⟩)
      h (min s.idx s.hdr.len) offset ho
    exact ⟨s', k1, k2⟩
  unfold processPing
  by_cases hp : offset > 0
  · rw [if_pos hp, w1]
    exact key _ rfl rfl rfl
  · rw [if_neg hp]
    exact key _ rfl rfl rfl

theorem processPayload_wf {junk : Bytes} (hj : headerMinSize ≤ junk.length) {s : State} (h : WF s) (size offset : Nat)
    (ho : offset ≤ s.idx) (hb : s.curOp = 9 → offset + min s.idx s.hdr.len ≤ bufSize) :
    ∃ s' n out, processPayload junk s size offset = .ok (s', n, out) ∧ WF s' := by
  unfold processPayload
  split
  · exact ⟨_, _, _, rfl, h⟩
  split
  · obtain ⟨s', k1, k2, _⟩ := advance_wf h sizeMax offset ho
    exact ⟨s', 0, [], by rw [k1]; rfl, k2⟩
  split
  · rw [if_neg (by omega)]
    obtain ⟨s', k1, k2, _⟩ := advance_wf h size offset ho
    have hr : offset + min (min size (s.idx - offset)) s.hdr.len ≤ s.mem.length := by
      have := h.1; have := h.2; omega
    refine ⟨s', ((min (min size (s.idx - offset)) s.hdr.len : Nat) : Int), copyPayload s.hdr ((s.mem.drop offset).take (min (min size (s.idx - offset)) s.hdr.len)), ?_, k2⟩
    simp only [readAt_ok hr, Outcome.bind_ok, k1]
    rfl
  split
  · exact ⟨_, _, _, rfl, h⟩
  split
  · rename_i h9
    obtain ⟨s', k1, k2⟩ := processPing_wf hj h offset ho (hb h9)
    exact ⟨s', 0, [], by rw [k1]; rfl, k2⟩
  split
  · obtain ⟨s', k1, k2, _⟩ := advance_wf h sizeMax offset ho
    exact ⟨s', 0, [], by rw [k1]; rfl, k2⟩
  · exact ⟨_, _, _, rfl, h⟩

theorem readFrame_wf {junk : Bytes} (hj : headerMinSize ≤ junk.length) {s : State} (h : WF s) (size : Nat) :
    (∃ s' n out, readFrame junk s size = .ok (s', n, out) ∧ WF s') ∨ BigPing s := by
  unfold readFrame
  by_cases h0 : s.hdr.len > 0
  · rw [if_pos h0]
    exact .inl (processPayload_wf hj h size 0 (by omega) (fun _ => by have := h.2; omega))
  · rw [if_neg h0]
    obtain ⟨hd, ok, e, hok⟩ := c29_parse_safe s.hdr (s.mem.take s.idx)
    rw [e]
    simp only [Outcome.bind_ok]
    cases ok with
    | false => exact .inl ⟨_, _, _, rfl, h⟩
    | true =>
      simp only [not_true_eq_false, if_false]
      have hlen : (s.mem.take s.idx).length = s.idx := by have := h.1; have := h.2; simp; omega
      obtain ⟨_, hle⟩ := hok rfl
      rw [hlen] at hle
      by_cases hbig : bufSize < hd.hlen + hd.len ∧ (hd.opcode = 9 ∨ hd.opcode = 0 ∧ s.curOp = 9)
      · exact .inr ⟨by omega, hd, e, hbig.2, hbig.1⟩
      · refine .inl (processPayload_wf hj ?_ size hd.hlen ?_ ?_)
        · split <;> exact h
        · split <;> exact hle
        · intro h9
          have : (hd.opcode = 9 ∨ hd.opcode = 0 ∧ s.curOp = 9) := by
            by_cases h0' : hd.opcode ≠ 0
            · rw [if_pos h0'] at h9; exact .inl h9
            · rw [if_neg h0'] at h9; exact .inr ⟨by omega, h9⟩
          have e1 : (if hd.opcode ≠ 0 then { ({ s with hdr := hd } : State) with curOp := hd.opcode }
            else ({ s with hdr := hd } : State)).hdr = hd := by split <;> rfl
          rw [e1]
          have : hd.hlen + hd.len ≤ bufSize := by
            by_cases hb : bufSize < hd.hlen + hd.len
            · exact absurd ⟨hb, this⟩ hbig
            · omega
          omega

theorem readIntoBuffer_wf {s : State} (h : WF s) (k : Kernel) : ∃ s', readIntoBuffer s k = .ok s' ∧ WF s' := by
  unfold readIntoBuffer
  split
  · exact ⟨_, rfl, h⟩
  · cases k with
    | again => dsimp only; split <;> exact ⟨_, rfl, h⟩
    | eof => exact ⟨_, rfl, h⟩
    | data b =>
      dsimp only
      split
      · exact ⟨_, rfl, h⟩
      · have hm := h.1
        have hi := h.2
        have hl : (b.take (bufSize - s.idx)).length ≤ bufSize - s.idx := by simp; omega
        rw [writeAt_ok (by omega)]
        refine ⟨_, rfl, ?_, ?_⟩
        · simp only [List.length_append, List.length_drop]
          rw [List.length_take, hm]; omega
        · show s.idx + _ ≤ _
          omega

theorem readLoop_wf {junk : Bytes} (hj : headerMinSize ≤ junk.length) (eagain : Bool) : ∀ (fuel : Nat) (s : State)
    (size : Nat) (acc : Bytes), WF s →
    (∃ s' n out, readLoop junk eagain fuel s size acc = .ok (s', n, out) ∧ WF s' ∧ Steps junk s s') ∨
    readLoop junk eagain fuel s size acc = .abort "fuel" ∨ ∃ s', Steps junk s s' ∧ BigPing s' := by
  intro fuel
  induction fuel with
  | zero => intro s size acc h; exact .inr (.inl rfl)
  | succ fuel ih =>
    intro s size acc h
    rcases readFrame_wf hj h size with ⟨s1, n, out, e, h1⟩ | hb
    · unfold readLoop
      rw [e]
      simp only [Outcome.bind_ok]
      split
      · exact .inl ⟨_, _, _, rfl, h1, .frame size e (.refl _)⟩
      split
      · exact .inl ⟨_, _, _, rfl, h1, .frame size e (.refl _)⟩
      · rcases ih s1 (size - out.length) (acc ++ out) h1 with ⟨s', n', out', e', h', hs⟩ | hab | ⟨s', hs, hb⟩
        · exact .inl ⟨_, _, _, e', h', .frame size e hs⟩
        · exact .inr (.inl hab)
        · exact .inr (.inr ⟨s', .frame size e hs, hb⟩)
    · exact .inr (.inr ⟨s, .refl _, hb⟩)

/-- C30.  The reader accesses its buffer out of bounds only after receiving a ping frame that does
not fit the buffer (RFC 6455 limits pings to 125 bytes): for every sequence of reads, caller sizes
and received bytes. -/
theorem c30_no_overrun (junk mem : Bytes) (eagain : Bool) (hj : headerMinSize ≤ junk.length)
    (hmem : mem.length = bufSize) (evs : List (Kernel × Nat)) (w : String)
    (hub : run junk eagain (fresh mem) evs = .ub w) :
    ∃ s, Steps junk (fresh mem) s ∧ BigPing s := by
  have gen : ∀ (evs : List (Kernel × Nat)) (s : State), WF s → run junk eagain s evs = .ub w →
      ∃ s', Steps junk s s' ∧ BigPing s' := by
    intro evs
    induction evs with
    | nil => intro s _ h; simp [run] at h
    | cons ev evs ih =>
      intro s h hu
      obtain ⟨k, size⟩ := ev
      obtain ⟨s1, e1, h1⟩ := readIntoBuffer_wf h k
      simp only [run, read, e1, Outcome.bind_ok] at hu
      by_cases hc : s1.closed = true
      · simp only [hc, if_true, Outcome.pure_eq, Outcome.bind_ok] at hu
        cases hr : run junk eagain s1 evs with
        | ok r => rw [hr] at hu; simp at hu
        | abort _ => rw [hr] at hu; simp at hu
        | ub w' =>
          rw [hr] at hu
          simp only [Outcome.bind_ub, Outcome.ub.injEq] at hu
          subst hu
          obtain ⟨s', a, b⟩ := ih s1 h1 hr
          exact ⟨s', .arrive k e1 a, b⟩
      · simp only [hc, if_false, Bool.false_eq_true, readReady] at hu
        rcases readLoop_wf hj eagain (size + 1) s1 size [] h1 with ⟨s', n', out', e', h', hs⟩ | hab | ⟨s', hs, hb⟩
        · rw [e'] at hu
          simp only [Outcome.bind_ok] at hu
          cases hr : run junk eagain s' evs with
          | ok r => rw [hr] at hu; simp at hu
          | abort _ => rw [hr] at hu; simp at hu
          | ub w' =>
            rw [hr] at hu
            simp only [Outcome.bind_ub, Outcome.ub.injEq] at hu
            subst hu
            obtain ⟨s'', a, b⟩ := ih s' h' hr
            exact ⟨s'', .arrive k e1 (hs.trans a), b⟩
        · rw [hab] at hu; simp at hu
        · exact ⟨s', .arrive k e1 hs, hb⟩
  exact gen evs _ ⟨hmem, by simp [fresh]⟩ hub

/-- the exception is real: a full buffer holding the start of an oversized ping is read past its
end -/
theorem c30_overrun_violated :
    ∃ evs : List (Kernel × Nat), ∃ w,
      run (List.replicate 14 0) false (fresh (List.replicate 4096 0)) evs = .ub w := by
  refine ⟨[(.data ([137, 126, 255, 255] ++ List.replicate 4092 0), 4096)], "read out of bounds", ?_⟩
  decide +kernel

/-- C30.  Text and pong frames are discarded whatever they contain: an idle reader that receives one
in one piece delivers nothing, sends nothing and is idle again. -/
theorem c30_ignored_frames (junk mem : Bytes) (eagain : Bool) (size : Nat) (hmem : mem.length = bufSize)
    (op : UInt8) (hop : op = 129 ∨ op = 138) (p : Bytes) (key : Bytes) (hk : key.length = 4) (hp : p.length ≤ 125) :
    ∃ s, read junk eagain (fresh mem) (.data ([op, UInt8.ofNat (128 + p.length)] ++ key ++ p)) size = .ok (s, 0, []) ∧
      s.closed = false ∧ s.idx = 0 ∧ s.hdr.len = 0 ∧ s.sent = [] := by
  have hb1 : (UInt8.ofNat (128 + p.length)).toNat = 128 + p.length := by simp; omega
  generalize UInt8.ofNat (128 + p.length) = b1 at hb1
  have hx : extLen b1 = 0 := by unfold extLen; rw [if_neg (by omega), if_neg (by omega)]
  have hs : headerSize b1 = 6 := by unfold headerSize; rw [hx, if_pos (by omega)]
  generalize hseg : [op, b1] ++ key ++ p = seg
  have hsl : seg.length = 6 + p.length := by rw [← hseg]; simp; omega
  have hbz : bufSize = 4096 := rfl
  have hne : seg ≠ [] := by intro h; rw [h] at hsl; simp at hsl; omega
  obtain ⟨s0, r1, r2, r3⟩ := readIntoBuffer_rel (s := fresh mem) (d := {}) (B := [])
    ⟨hmem, rfl, by simp [fresh], by simp [fresh], rfl, by simp, by simp [fresh]⟩ seg hne (by rw [List.length_nil]; omega)
  have hs0 : s0.hdr = {} := by
    have ht : seg.take bufSize = seg := List.take_of_length_le (by omega)
    simp only [readIntoBuffer, fresh, Nat.sub_zero, ht, hne, if_false, Bool.false_eq_true] at r1
    rw [writeAt_ok (by rw [hmem]; omega)] at r1
    simp only [Outcome.bind_ok, Outcome.pure_eq, Outcome.ok.injEq] at r1
    rw [← r1]
  simp only [List.nil_append] at r2
  have hidx := r2.idx
  have hparse := (parse_eq {} op b1 (key ++ p)).1 (by rw [hs]; simp; omega)
  have hlen : payloadLen ((op :: b1 :: (key ++ p)).take (headerSize b1)) = p.length := by
    rw [hs]
    simp only [payloadLen, List.take_succ_cons, hx, if_true]
    omega
  rw [hlen, show op :: b1 :: (key ++ p) = seg by rw [← hseg]; simp] at hparse
  obtain ⟨H, hH⟩ : ∃ H : Header, H = {
    fin := decide (op.toNat ≥ 128), opcode := op.toNat % 16, mask := decide (b1.toNat ≥ 128), len := p.length
    key := if b1.toNat ≥ 128 then maskKey (List.take (headerSize b1) seg) else ({} : Header).key
    hlen := headerSize b1 } := ⟨_, rfl⟩
  rw [← hH] at hparse
  have hHl : H.len = p.length := by rw [hH]
  have hHh : H.hlen = 6 := by rw [hH, ← hs]
  have hHo : H.opcode = 1 ∨ H.opcode = 10 := by rw [hH]; rcases hop with h | h <;> subst h <;> simp
  let s1 : State := { s0 with hdr := H, curOp := H.opcode }
  obtain ⟨m', a1, a2, a3⟩ := advance_ok s1 sizeMax 6 r2.mlen r2.idxle (by show 6 ≤ s0.idx; omega)
  have hmin : min (min sizeMax (s1.idx - 6)) s1.hdr.len = p.length := by
    show min (min sizeMax (s0.idx - 6)) H.len = p.length
    have : sizeMax = 18446744073709551615 := rfl
    rw [hHl]; omega
  rw [hmin] at a1
  have hfin : processPayload junk s1 size 6 = .ok ({ s1 with
      mem := m', idx := s1.idx - (6 + p.length), hdr := { s1.hdr with len := s1.hdr.len - p.length } }, 0, []) := by
    unfold processPayload
    rcases hHo with h | h
    · have hc : s1.curOp = 1 := h
      rw [if_neg (by omega), if_pos hc, a1]; rfl
    · have hc : s1.curOp = 10 := h
      rw [if_neg (by omega), if_neg (by omega), if_neg (by omega), if_neg (by omega), if_neg (by omega), if_pos hc, a1]
      rfl
  refine ⟨{ s1 with
      mem := m', idx := s1.idx - (6 + p.length), hdr := { s1.hdr with len := s1.hdr.len - p.length } }, ?_, r2.opn,
    (by show s0.idx - (6 + p.length) = 0; omega), (by show H.len - p.length = 0; omega), r3⟩
  simp only [read, r1, Outcome.bind_ok, r2.opn, Bool.false_eq_true, if_false, readReady, readLoop, readFrame, hs0,
    Nat.lt_irrefl, gt_iff_lt, r2.buf, hparse, not_true_eq_false]
  have hne0 : H.opcode ≠ 0 := by omega
  have e1 : ({ s0 with hdr := H, curOp := H.opcode, closed := false } : State) = s1 := by
    simp only [s1]; rw [r2.opn]
  rw [if_pos hne0]
  have e2 : ({ mem := s0.mem, idx := s0.idx, hdr := H, curOp := H.opcode, sent := s0.sent } : State) = s1 := e1
  rw [e2]
  have hh : processPayload junk s1 size H.hlen = processPayload junk s1 size 6 := by rw [hHh]
  rw [hh, hfin]; rfl

example : (deliver [[138, 129, 1, 2, 3, 4, 5]]).map (fun x => (x.1, x.2.1, x.2.2)) = some ([], [], false) := by
  decide +kernel

/-- C31, partly.  A ping frame of at most 125 bytes that arrives in one piece and is not masked (or
masked with the zero key) is answered by one pong frame with exactly its payload.
Missing: real masks and split pings, for which the claim is false. -/
theorem c31_ping_partial (junk mem : Bytes) (eagain : Bool) (size : Nat) (hj : junk.length = headerMinSize)
    (hmem : mem.length = bufSize) (p : Bytes) (masked : Bool) (hp : p.length ≤ 125) :
    let ping := [137, UInt8.ofNat ((if masked then 128 else 0) + p.length)] ++
      (if masked then [0, 0, 0, 0] else []) ++ p
    ∃ s, read junk eagain (fresh mem) (.data ping) size = .ok (s, 0, []) ∧ s.closed = false ∧
      s.idx = 0 ∧ s.hdr.len = 0 ∧
      s.sent.flatten = [138, UInt8.ofNat p.length] ++ p := by
  intro ping
  obtain ⟨b1, kb, hping, hb1, hkb⟩ : ∃ (b1 : UInt8) (kb : Bytes), ping = 137 :: b1 :: (kb ++ p) ∧
      b1.toNat = (if masked then 128 else 0) + p.length ∧ kb = (if masked then [0, 0, 0, 0] else []) := by
    refine ⟨UInt8.ofNat ((if masked then 128 else 0) + p.length), (if masked then [0, 0, 0, 0] else []), ?_, ?_, rfl⟩
    · simp [ping]
    · cases masked <;> simp <;> omega
  have hkl : kb.length ≤ 4 := by rw [hkb]; split <;> simp
  have hx : extLen b1 = 0 := by
    have : b1.toNat % 128 = p.length := by rw [hb1]; split <;> omega
    unfold extLen; rw [this, if_neg (by omega), if_neg (by omega)]
  have hs : headerSize b1 = 2 + kb.length := by
    unfold headerSize; rw [hx, hb1, hkb]; cases masked <;> simp <;> omega
  have hlen : payloadLen ((137 :: b1 :: (kb ++ p)).take (headerSize b1)) = p.length := by
    rw [hs]
    simp only [payloadLen, Nat.add_comm 2, List.take_succ_cons, hx, if_true]
    rw [hb1]; cases masked <;> simp <;> omega
  have hparse := (parse_eq {} 137 b1 (kb ++ p)).1 (by rw [hs]; simp; omega)
  rw [hlen] at hparse
  have hpl : ping.length = kb.length + p.length + 2 := by rw [hping]; simp
  have hne : ping ≠ [] := by rw [hping]; simp
  have hb : bufSize = 4096 := rfl
  obtain ⟨s0, r1, r2, r3⟩ := readIntoBuffer_rel (s := fresh mem) (d := {}) (B := [])
    ⟨hmem, rfl, by simp [fresh], by simp [fresh], rfl, by simp, by simp [fresh]⟩ ping hne (by rw [List.length_nil]; omega)
  have hs0 : s0.hdr = {} := by
    have ht : ping.take bufSize = ping := List.take_of_length_le (by omega)
    simp only [readIntoBuffer, fresh, Nat.sub_zero, ht, hne, if_false, Bool.false_eq_true] at r1
    rw [writeAt_ok (by rw [hmem]; omega)] at r1
    simp only [Outcome.bind_ok, Outcome.pure_eq, Outcome.ok.injEq] at r1
    rw [← r1]
  simp only [List.nil_append] at r2
  have hidx := r2.idx
  rw [hpl] at hidx
  let H : Header := {
    fin := true, opcode := 9, mask := b1.toNat ≥ 128, len := p.length
    key := if b1.toNat ≥ 128 then maskKey ((137 :: b1 :: (kb ++ p)).take (headerSize b1)) else [0, 0, 0, 0]
    hlen := headerSize b1 }
  have hH : parse {} ping = .ok (H, true) := by rw [hping, hparse]; rfl
  let s1 : State := { s0 with hdr := H, curOp := 9, closed := false }
  obtain ⟨d, w1, w2, w3⟩ := writeHeader_plain junk { fin := true, opcode := 10, len := p.length } (by rw [hj]; decide) rfl
  simp only at w1 w3
  let s2 : State := { s1 with sent := s0.sent ++ [plainHeader true 10 p.length] ++ [p] }
  obtain ⟨m', a1, a2, a3⟩ := advance_ok s2 p.length (headerSize b1) r2.mlen r2.idxle (by show _ ≤ s0.idx; omega)
  have hmin : min (min p.length (s2.idx - headerSize b1)) s2.hdr.len = p.length := by
    show min (min p.length (s0.idx - headerSize b1)) p.length = p.length
    omega
  rw [hmin] at a1
  have hecho : readAt s0.mem (headerSize b1) p.length = .ok p := by
    have h1 := r2.mlen
    have h2 := r2.idxle
    rw [readAt_ok (by omega)]
    have hbuf := r2.buf
    have e : (s0.mem.drop (headerSize b1)).take p.length = (s0.mem.take s0.idx).drop (headerSize b1) := by
      rw [List.drop_take]; congr 1; omega
    rw [e, hbuf, hping, hs]
    simp only [Nat.add_comm 2, List.drop_succ_cons, List.drop_left]
  have hfin : ∃ s, processPing junk s1 (headerSize b1) = .ok s ∧ s.closed = false ∧ s.idx = 0 ∧ s.hdr.len = 0 ∧
      s.sent = [plainHeader true 10 p.length, p] := by
    refine ⟨{ s2 with
      mem := m', idx := s2.idx - (headerSize b1 + p.length)
      hdr := { s2.hdr with len := s2.hdr.len - p.length } }, ?_, ?_, ?_, ?_, ?_⟩
    · unfold processPing
      rw [if_pos (by have := headerSize_ge b1; omega)]
      show ((do
        let __x ← writeHeader junk { fin := true, opcode := 10, len := p.length }
        pure { s1 with sent := s1.sent ++ [__x.1.take __x.2] }) >>= _) = _
      rw [w1]
      simp only [Outcome.bind_ok, Outcome.pure_eq, w3]
      have : min s1.idx s1.hdr.len = p.length := by show min s0.idx p.length = p.length; omega
      rw [show (min ({ s1 with sent := s1.sent ++ [plainHeader true 10 p.length] } : State).idx
        ({ s1 with sent := s1.sent ++ [plainHeader true 10 p.length] } : State).hdr.len) = p.length from this]
      rw [show ({ s1 with sent := s1.sent ++ [plainHeader true 10 p.length] } : State).mem = s0.mem from rfl, hecho]
      exact a1
    · rfl
    · show s0.idx - (headerSize b1 + p.length) = 0
      omega
    · show p.length - p.length = 0
      omega
    · show s0.sent ++ [plainHeader true 10 p.length] ++ [p] = _
      rw [r3]; rfl
  obtain ⟨s, f1, f2, f3, f4, f5⟩ := hfin
  refine ⟨s, ?_, f2, f3, f4, ?_⟩
  · simp only [read, r1, Outcome.bind_ok, r2.opn, Bool.false_eq_true, if_false, readReady, readLoop, readFrame]
    rw [hs0]
    simp only [Nat.lt_irrefl, gt_iff_lt, if_false, r2.buf, hH, Outcome.bind_ok, not_true_eq_false]
    have : processPayload junk s1 size (headerSize b1) = .ok (s, 0, []) := by
      unfold processPayload
      simp [s1] at f1 ⊢
      rw [f1]; rfl
    show (processPayload junk s1 size (headerSize b1) >>= _) = _
    rw [this]; rfl
  · rw [f5]
    simp [plainHeader, hp]

/-- C31 is violated: the payload of a masked ping (every client masks) is sent back still masked. -/
theorem c31_masked_ping_violated :
    (deliver [[137, 131, 1, 2, 3, 4, 96, 96, 96]]).map (fun x => x.2.1.flatten) = some [138, 3, 96, 96, 96] ∧
    copyPayload { mask := true, key := [1, 2, 3, 4] } [96, 96, 96] = [97, 98, 99] := by
  refine ⟨by decide +kernel, by decide⟩

/-- C31 is violated: a ping whose header and payload arrive separately is answered with more bytes
than its pong header announces, so everything sent afterwards is misinterpreted. -/
theorem c31_split_ping_violated :
    (deliver [[137, 3, 1], [2, 3]]).map (fun x => x.2.1.flatten) = some [138, 3, 1, 0, 0, 2, 3] := by
  decide +kernel

end Verif.Ws
