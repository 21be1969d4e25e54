import Verif.Props.Clipboard

/-!
# What the application gets of a compressed clipboard text (C123)
-/

namespace Verif.Server

variable {env : Env} {table : List Nat} {r : St → Outcome St}

/-- what a provide message of any contents does -/
theorem msg_provide {s : St} (hr : s.cl.st = .ready) (hx : extClipboard ∈ s.cl.encodings) {p : UInt8}
    {z : Bytes} (hl : z.length ≤ 10000000) (rest) :
    tryRead env table r s (extClip p (fProvide + fText) z ++ rest) =
      (do let s ← clipProvideText env z (emit (.clipMsg (fProvide + fText) z) s)
          .ok (s, (extClip p (fProvide + fText) z).length)) := by
  rw [msg_extClip hr (by simpa [hasEnc, encExtClipboard, extClipboard] using hx) (by decide) hl]
  have h1 : (extClip p (fProvide + fText) z).length = 12 + z.length := by
    simp [extClip, wire32, be32]; omega
  unfold clipAction
  rw [if_neg (by decide), if_neg (by
      rw [show (fProvide + fText).testBit clipRequest = false by decide]; simp),
    if_neg (by rw [show (fProvide + fText).testBit clipPeek = false by decide]; simp),
    if_neg (by rw [show (fProvide + fText).testBit clipNotify = false by decide]; simp),
    if_pos (by decide), if_neg (by omega),
    show z.take ((z.length : Int)).toNat = z by simp, h1]

/-- line endings are independent of what follows the zero byte -/
theorem cstr_toLf : ∀ t : Bytes, cstr (toLf t) = toLf (t.takeWhile (· ≠ 0))
  | [] => rfl
  | [c] => by
    by_cases h0 : c = 0
    · subst h0; rfl
    · have h1 : [c].takeWhile (· ≠ 0) = [c] := by simp [h0]
      rw [h1, cstr_id]
      intro h
      rcases toLf_mem _ h with h | h
      · simp at h; exact h0 h.symm
      · cases h
  | c :: d :: t => by
    have ih1 := cstr_toLf (d :: t)
    have ih2 := cstr_toLf t
    by_cases h0 : c = 0
    · subst h0; rfl
    by_cases h13 : c = 13
    · subst h13
      by_cases h10 : d = 10
      · subst h10
        have h1 : ((13 : UInt8) :: 10 :: t).takeWhile (· ≠ 0) = 13 :: 10 :: t.takeWhile (· ≠ 0) := by simp
        rw [h1, toLf, toLf, ← ih2]
        unfold cstr
        rw [List.takeWhile_cons, if_pos (by decide)]
      · have h1 : ((13 : UInt8) :: d :: t).takeWhile (· ≠ 0) = 13 :: (d :: t).takeWhile (· ≠ 0) := by simp
        rw [h1, toLf, toLf, ← ih1]
        · unfold cstr
          rw [List.takeWhile_cons, if_pos (by decide)]
        · intro r h
          rw [List.takeWhile_cons] at h
          split at h
          · exact h10 (List.cons.inj h).1
          · cases h
        · rintro r h; exact h10 (List.cons.inj h).1
    · have h1 : (c :: d :: t).takeWhile (· ≠ 0) = c :: (d :: t).takeWhile (· ≠ 0) := by
        rw [List.takeWhile_cons, if_pos (by simpa using h0)]
      have h2 : ∀ t, toLf (c :: t) = c :: toLf t := fun t => by
        rw [toLf]
        · rintro _ rfl; exact absurd rfl h13
        · rintro rfl; exact absurd rfl h13
      rw [h1, h2, h2, ← ih1]
      unfold cstr
      rw [List.takeWhile_cons, if_pos (by simpa using h0)]

/-- C123, the part that holds: of a message that holds as many bytes as it announces, the
application gets exactly the text before the first zero byte, with its line endings replaced; if
the last byte that is announced is not zero, or none or one is, it gets nothing.

Missing: messages that hold fewer bytes than they announce, see `c123_short_violated` and
`c123_length_violated`. -/
theorem c123_text_partial {s : St} (hr : s.cl.st = .ready) (hx : extClipboard ∈ s.cl.encodings) {p : UInt8}
    {z text more : Bytes} (hl : z.length ≤ 10000000) (hn : text.length < 4294967296)
    (hz : Inflates env z (be32 text.length ++ text ++ more)) (rest) :
    tryRead env table r s (extClip p (fProvide + fText) z ++ rest) =
      .ok (if 2 ≤ text.length ∧ text.getLast? = some 0
        then emit (.cutText (toLf (text.takeWhile (· ≠ 0)))) (emit (.clipMsg (fProvide + fText) z) s)
        else emit (.clipMsg (fProvide + fText) z) s, (extClip p (fProvide + fText) z).length) := by
  rw [msg_provide hr hx hl]
  have h2 := hz.2 text.length
  have e1 : (be32 text.length ++ text ++ more).take 4 = be32 text.length := rfl
  have e2 : (be32 text.length ++ text ++ more).drop 4 = text ++ more := by simp [be32]
  rw [e2, List.take_left' rfl] at h2
  unfold clipProvideText
  rw [hz.1, e1]
  simp only [be32, rd32_be32 _ hn]
  by_cases h1 : text.length ≤ 1
  · rw [if_pos h1, if_neg (by omega)]; rfl
  · rw [if_neg h1, h2]
    dsimp only
    rw [if_neg (by omega)]
    obtain ⟨init, b, rfl⟩ : ∃ init b, text = init ++ [b] := by
      have hne : text ≠ [] := by rintro rfl; simp at h1
      exact ⟨text.dropLast, text.getLast hne, (List.dropLast_concat_getLast hne).symm⟩
    have h3 : (init ++ [b]).getD ((init ++ [b]).length - 1) 0 = b := by simp
    have h4 : (init ++ [b]).getLast? = some b := by simp
    have h5 : (init ++ [b]).take ((init ++ [b]).length - 1) = init := by simp
    rw [h3, h4, h5, crlfToLf_eq, cstr_toLf]
    by_cases hb : b = 0
    · subst hb
      rw [if_neg (by simp), if_pos ⟨by omega, rfl⟩]
      have h6 : (init ++ [0]).takeWhile (· ≠ 0) = init.takeWhile (· ≠ 0) := by
        rw [List.takeWhile_append]
        split
        · next h => rw [(List.takeWhile_sublist _).eq_of_length h]; simp
        · rfl
      rw [h6]; rfl
    · rw [if_pos hb, if_neg (by simp [hb])]; rfl

/-- … and of one that cannot be decompressed, it gets nothing -/
theorem c123_bad_partial {s : St} (hr : s.cl.st = .ready) (hx : extClipboard ∈ s.cl.encodings) {p : UInt8}
    {z : Bytes} (hl : z.length ≤ 10000000) (hz : env.inflate1 z = none ∨
      (∃ h, env.inflate1 z = some h ∧ h.length = 4) ∧ ∀ n, env.inflate2 z n = none) (rest) :
    tryRead env table r s (extClip p (fProvide + fText) z ++ rest) =
      .ok (emit (.clipMsg (fProvide + fText) z) s, (extClip p (fProvide + fText) z).length) := by
  rw [msg_provide hr hx hl]
  suffices h : ∀ s, clipProvideText env z s = .ok s by rw [h, Outcome.bind_ok]
  intro s
  unfold clipProvideText
  rcases hz with h | ⟨⟨h, h1, h2⟩, h3⟩
  · rw [h]
  · obtain ⟨b0, b1, b2, b3, rfl⟩ : ∃ b0 b1 b2 b3, h = [b0, b1, b2, b3] := by
      match h, h2 with
      | [b0, b1, b2, b3], _ => exact ⟨_, _, _, _, rfl⟩
    rw [h1]
    dsimp only
    rw [h3]
    split <;> rfl

/-- C123 is false: whatever the text is, if fewer bytes follow than are announced, the server reads
bytes of the buffer that were never written. -/
theorem c123_short_violated {s : St} (hr : s.cl.st = .ready) (hx : extClipboard ∈ s.cl.encodings) {p : UInt8}
    {z text : Bytes} {n : Nat} (hl : z.length ≤ 10000000) (hn : n < 4294967296) (h2 : 2 ≤ n)
    (ht : text.length < n) (hz : Inflates env z (be32 n ++ text)) (rest) :
    ∃ why, tryRead env table r s (extClip p (fProvide + fText) z ++ rest) = .ub why := by
  rw [msg_provide hr hx hl]
  have h3 := hz.2 n
  have e1 : (be32 n ++ text).take 4 = be32 n := rfl
  have e2 : (be32 n ++ text).drop 4 = text := rfl
  rw [e2, List.take_of_length_le (by omega)] at h3
  unfold clipProvideText
  rw [hz.1, e1]
  simp only [be32, rd32_be32 _ hn]
  rw [if_neg (by omega), h3]
  dsimp only
  rw [if_pos ht]
  exact ⟨_, rfl⟩

/-- … and likewise the length itself, of a stream that is cut off within it -/
theorem c123_length_violated {s : St} (hr : s.cl.st = .ready) (hx : extClipboard ∈ s.cl.encodings) {p : UInt8}
    {z plain : Bytes} (hl : z.length ≤ 10000000) (hp : plain.length < 4) (hz : Inflates env z plain) (rest) :
    ∃ why, tryRead env table r s (extClip p (fProvide + fText) z ++ rest) = .ub why := by
  rw [msg_provide hr hx hl]
  unfold clipProvideText
  rw [hz.1]
  match plain, hp with
  | [], _ | [_], _ | [_, _], _ | [_, _, _], _ => exact ⟨_, rfl⟩

/-- a text with a zero byte inside, one without at the end, and one of which a byte is missing -/
example : runCheck (enter [0, -1063131698] ++ [(.readable (.data (extClip 0 (fProvide + fText)
        [0, 0, 0, 5, 97, 13, 0, 98, 0, 7])), plainZip, []),
      (.readable (.data (extClip 0 (fProvide + fText) [0, 0, 0, 2, 97, 98])), plainZip, [])])
      (fun s => decide (.cutText [97, 10] ∈ s.log ∧ s.cl.closed = false)) = true ∧
    (run [] (enter [0, -1063131698] ++ [(.readable (.data (extClip 0 (fProvide + fText)
      [0, 0, 0, 3, 97, 98])), plainZip, [])]) (start demoSrv) = .ub "uninitialised clipboard text") ∧
    run [] (enter [0, -1063131698] ++ [(.readable (.data (extClip 0 (fProvide + fText)
      [0, 0, 0])), plainZip, [])]) (start demoSrv) = .ub "uninitialised clipboard length" := by
  decide +kernel

end Verif.Server
