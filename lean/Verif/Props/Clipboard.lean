import Verif.Spec.Clipboard
import Verif.Lemmas.Watch
import Verif.Lemmas.Peer
import Verif.Lemmas.Messages
import Verif.Props.Updates

/-!
# The clipboard (C15-C18)
-/

namespace Verif.Server

variable {env : Env} {table : List Nat} {r : St → Outcome St}

/-! ## C15 -/

/-- the conversion as it is written is the one asked for -/
theorem crlfToLf_eq : ∀ t : Bytes, crlfToLf t = toLf t
  | [] => rfl
  | [c] => by
    unfold crlfToLf
    by_cases h : c = 13
    · subst h; rfl
    · rw [if_pos h, toLf]
      · rfl
      · rintro _ rfl _; exact h rfl
      · rintro rfl; exact h rfl
  | c :: d :: r => by
    have ih1 := crlfToLf_eq (d :: r)
    have ih2 := crlfToLf_eq r
    unfold crlfToLf
    by_cases h : c = 13
    · subst h
      rw [if_neg (by simp)]
      dsimp only
      by_cases hd : d = 10
      · subst hd
        rw [if_neg (by simp)]
        unfold crlfToLf
        rw [if_pos (by decide), ih2, toLf]
      · rw [if_pos hd, ih1, toLf]
        rintro _ h; exact hd (List.cons.inj h).1
    · rw [if_pos h, ih1]
      symm
      rw [toLf]
      · rintro _ rfl; exact absurd rfl h
      · rintro rfl; exact h rfl

theorem toLf_mem {b : UInt8} : ∀ t : Bytes, b ∈ toLf t → b ∈ t ∨ b = 10
  | [] => by simp [toLf]
  | [c] => by
    rw [← crlfToLf_eq]
    simp only [crlfToLf]
    split
    · exact .inl
    · simp only [List.mem_singleton]; exact .inr
  | c :: d :: r => by
    have ih1 := toLf_mem (b := b) (d :: r)
    have ih2 := toLf_mem (b := b) r
    rw [← crlfToLf_eq] at *
    intro h
    rw [crlfToLf] at h
    split at h
    · rcases List.mem_cons.1 h with h | h
      · exact .inl (by simp [h])
      · rcases ih1 h with h | h
        · exact .inl (List.mem_cons_of_mem _ h)
        · exact .inr h
    · split at h
      · rcases List.mem_cons.1 h with h | h
        · exact .inr h
        · rcases ih1 h with h | h
          · exact .inl (List.mem_cons_of_mem _ h)
          · exact .inr h
      · rcases ih1 h with h | h
        · exact .inl (List.mem_cons_of_mem _ h)
        · exact .inr h

/-- nothing else can be left in a text: no carriage return survives, a text without one is
unchanged -/
theorem toLf_no_cr : ∀ t : Bytes, 13 ∉ toLf t
  | [] => by simp [toLf]
  | [c] => by
    rw [← crlfToLf_eq]
    simp only [crlfToLf]
    split
    · rename_i h; simpa using Ne.symm h
    · simp
  | c :: d :: r => by
    have ih1 := toLf_no_cr (d :: r)
    rw [← crlfToLf_eq] at *
    rw [crlfToLf]
    split
    · rename_i h
      simp only [List.mem_cons, not_or]
      exact ⟨Ne.symm h, ih1⟩
    · split
      · simp only [List.mem_cons, not_or]; exact ⟨by decide, ih1⟩
      · exact ih1

theorem toLf_id : ∀ t : Bytes, 13 ∉ t → toLf t = t
  | [], _ => rfl
  | c :: r, h => by
    simp only [List.mem_cons, not_or] at h
    rw [toLf, toLf_id r h.2]
    · rintro _ rfl; exact absurd rfl h.1
    · rintro rfl; exact h.1 rfl

theorem be32_rd32 (a b c d : UInt8) : be32 (rd32 a b c d) = [a, b, c, d] := by
  have ha := a.toNat_lt
  have hb := b.toNat_lt
  have hc := c.toNat_lt
  have hd := d.toNat_lt
  unfold be32 rd32
  simp only [List.cons.injEq, and_true]
  refine ⟨?_, ?_, ?_, ?_⟩ <;> apply UInt8.toNat.inj <;> rw [toNat_ofNat8] <;> omega

theorem cstr_id {t : Bytes} (h : 0 ∉ t) : cstr t = t := by
  induction t with
  | nil => rfl
  | cons c r ih =>
    simp only [List.mem_cons, not_or] at h
    unfold cstr at *
    rw [List.takeWhile_cons, if_pos (by simpa using Ne.symm h.1), ih h.2]

/-- what the application gets of an inflated text -/
theorem provideText {s : St} {z t more : Bytes} (ht : t ≠ []) (hl : t.length + 1 < 4294967296)
    (h0 : 0 ∉ t) (hz : Inflates env z (be32 (t.length + 1) ++ t ++ 0 :: more)) :
    clipProvideText env z s = .ok (emit (.cutText (toLf t)) s) := by
  have h2 := hz.2 (t.length + 1)
  unfold clipProvideText
  rw [hz.1]
  have e1 : (be32 (t.length + 1) ++ t ++ 0 :: more).take 4 = be32 (t.length + 1) := rfl
  have e2 : (be32 (t.length + 1) ++ t ++ 0 :: more).drop 4 = (t ++ [0]) ++ more := by simp [be32]
  rw [e1]
  rw [e2, List.take_left' (by simp)] at h2
  have hp : 0 < t.length := List.length_pos_iff.2 ht
  simp only [be32, rd32_be32 _ hl]
  rw [if_neg (by omega), h2]
  dsimp only
  rw [if_neg (by simp), if_neg (by simp)]
  have h3 : ∀ x ∈ toLf t, x ≠ 0 := fun x hx hxe => by
    subst hxe
    rcases toLf_mem t hx with h | h
    · exact h0 h
    · cases h
  have h4 : (t ++ [(0 : UInt8)]).take (t.length + 1 - 1) = t := by simp
  rw [h4, crlfToLf_eq, cstr_id (fun h => h3 0 h rfl)]

theorem clipAction_rest {s : St} {flags : Nat} {data rest : Bytes} :
    clipAction env flags data.length (data ++ rest) s = clipAction env flags data.length data s := by
  have h1 : clipSetCaps flags data.length (data ++ rest) s = clipSetCaps flags data.length data s := by
    unfold clipSetCaps
    dsimp only
    match data with
    | [] | [_] | [_, _] | [_, _, _] => rw [if_neg (by simp), if_neg (by simp)]
    | _ :: _ :: _ :: _ :: _ => rfl
  have h2 : (data ++ rest).take ((data.length : Int)).toNat = data.take ((data.length : Int)).toNat := by
    simp
  unfold clipAction
  rw [h1, h2]

theorem msg_extClip {s : St} (hr : s.cl.st = .ready) (hx : hasEnc s.cl encExtClipboard = true)
    {p : UInt8} {flags : Nat} {data : Bytes} (hf : flags < 4294967296)
    (hl : data.length ≤ 10000000) (rest) :
    tryRead env table r s (extClip p flags data ++ rest) =
      (do let s ← clipAction env flags data.length data (emit (.clipMsg flags data) s)
          .ok (s, 12 + data.length)) := by
  obtain ⟨l0, l1, l2, l3, h1, h2⟩ := wire32_read (-(4 + (data.length : Int))) (by omega) (by omega)
  have h3 : 128 ≤ l0.toNat := by
    unfold toInt32 rd32 at h2
    have := l1.toNat_lt; have := l2.toNat_lt; have := l3.toNat_lt
    split at h2 <;> omega
  have h4 : rd32 l0 l1 l2 l3 ≠ 2147483648 := by
    intro h
    rw [h] at h2
    unfold toInt32 at h2
    rw [if_neg (by omega)] at h2
    omega
  rw [tryRead_ready hr]
  unfold extClip
  rw [h1]
  simp only [be32, List.cons_append, List.nil_append, onMessage]
  rw [if_neg (by decide), if_neg (by decide), if_neg (by decide), if_neg (by decide),
    if_neg (by decide), if_pos trivial]
  simp only [onCutText]
  rw [if_pos ⟨hx, h3⟩]
  unfold onExtClipboard
  dsimp only
  rw [h2, rd32_be32 _ hf, if_neg h4, if_neg, if_neg, if_neg]
  · have e1 : (-(-(4 + (data.length : Int))) - 4) = data.length := by omega
    rw [e1, clipAction_rest]
    have e2 : ((data.length : Int)).toNat = data.length := by omega
    have e3 : (12 + (data.length : Int)).toNat = 12 + data.length := by omega
    rw [e2, e3, List.take_left']
    rfl
  · simp only [List.length_cons, List.length_append]; omega
  · unfold maxCutText; omega
  · simp only [List.length_cons, List.length_append]; omega

/-- C15: a text a client provides through the extended clipboard reaches the application with every
CR LF and every lone CR replaced by one LF and nothing else changed (`toLf`), whatever follows the
message.  The protocol wants the text terminated by a zero byte that counts; other formats (`more`) may follow. -/
theorem c15_text {s : St} (hr : s.cl.st = .ready) (hx : extClipboard ∈ s.cl.encodings) {p : UInt8}
    {z t more : Bytes} (hl : z.length ≤ 10000000) (ht : t ≠ []) (hlt : t.length + 1 < 4294967296)
    (h0 : 0 ∉ t) (hz : Inflates env z (be32 (t.length + 1) ++ t ++ 0 :: more)) (rest) :
    tryRead env table r s (extClip p (fProvide + fText) z ++ rest) =
      .ok (emit (.cutText (toLf t)) (emit (.clipMsg (fProvide + fText) z) s),
        (extClip p (fProvide + fText) z).length) := by
  rw [msg_extClip hr (by simpa [hasEnc, encExtClipboard, extClipboard] using hx) (by decide) hl]
  have h1 : (extClip p (fProvide + fText) z).length = 12 + z.length := by
    simp [extClip, wire32, be32]; omega
  unfold clipAction
  rw [if_neg (by decide), if_neg (by
      rw [show (fProvide + fText).testBit clipRequest = false by decide]; simp),
    if_neg (by rw [show (fProvide + fText).testBit clipPeek = false by decide]; simp),
    if_neg (by rw [show (fProvide + fText).testBit clipNotify = false by decide]; simp),
    if_pos (by decide), if_neg (by omega),
    show z.take ((z.length : Int)).toNat = z by simp, provideText ht hlt h0 hz, h1]
  rfl

/-- a long text: the rest of the message is collected … -/
theorem c15_text_begin {s : St} (hr : s.cl.st = .ready) (hx : extClipboard ∈ s.cl.encodings) {p : UInt8}
    {z a b : Bytes} (hl : z.length ≤ 10000000) (ha : 12 ≤ a.length) (hb : b ≠ [])
    (hab : a ++ b = extClip p (fProvide + fText) z) :
    ∃ c : Cut, c.data ++ b = z ∧ c.len = z.length ∧ c.zlib = true ∧ c.provide = true ∧
      tryRead env table r s a = .ok (s.upd fun k => { k with cut := some c }, a.length) := by
  obtain ⟨l0, l1, l2, l3, h1, h2⟩ := wire32_read (-(4 + (z.length : Int))) (by omega) (by omega)
  have h3 : 128 ≤ l0.toNat := by
    unfold toInt32 rd32 at h2
    have := l1.toNat_lt; have := l2.toNat_lt; have := l3.toNat_lt
    split at h2 <;> omega
  have h4 : rd32 l0 l1 l2 l3 ≠ 2147483648 := by
    intro h
    rw [h] at h2
    unfold toInt32 at h2
    rw [if_neg (by omega)] at h2
    omega
  have e1 : extClip p (fProvide + fText) z =
      [6, p, p, p, l0, l1, l2, l3, 16, 0, 0, 1] ++ z := by
    unfold extClip; rw [h1]; rfl
  rw [e1] at hab
  have e2 : a = [6, p, p, p, l0, l1, l2, l3, 16, 0, 0, 1] ++ a.drop 12 := by
    have : a.take 12 = [6, p, p, p, l0, l1, l2, l3, 16, 0, 0, 1] := by
      have := congrArg (List.take 12) hab
      rw [List.take_append_of_le_length ha] at this
      exact this
    rw [← this, List.take_append_drop]
  have e3 : a.drop 12 ++ b = z := by
    rw [e2, List.append_assoc] at hab
    exact List.append_cancel_left hab
  generalize a.drop 12 = d at e2 e3
  subst e2
  have hlen : d.length < z.length := by
    rw [← e3, List.length_append]
    have := List.length_pos_iff.2 hb
    omega
  refine ⟨{ len := z.length, data := d, zlib := true, provide := true }, e3, rfl, rfl, rfl, ?_⟩
  rw [tryRead_ready hr]
  simp only [List.cons_append, List.nil_append, onMessage]
  rw [if_neg (by decide), if_neg (by decide), if_neg (by decide), if_neg (by decide),
    if_neg (by decide), if_pos trivial]
  simp only [onCutText]
  rw [if_pos ⟨by simpa [hasEnc, encExtClipboard, extClipboard] using hx, h3⟩]
  unfold onExtClipboard
  dsimp only
  have hfl : rd32 16 0 0 1 = 268435457 := by decide
  rw [h2, if_neg h4, hfl, if_neg, if_neg, if_pos]
  · have e1 : (-(-(4 + (z.length : Int))) - 4).toNat = z.length := by omega
    have e2 : ((268435457 : Nat).testBit clipProvide && (268435457 : Nat).testBit clipText &&
      !(268435457 : Nat).testBit clipCaps) = true := by decide
    rw [e1]
    unfold clipBegin
    rw [e2]
  · simp only [List.length_cons]; omega
  · unfold maxCutText; omega
  · rintro ⟨h, -⟩; revert h; decide

/-- … and the text delivered when it is complete, however it is cut into pieces -/
theorem c15_text_long {z t more : Bytes} (ht : t ≠ []) (hlt : t.length + 1 < 4294967296)
    (h0 : 0 ∉ t) (hz : Inflates env z (be32 (t.length + 1) ++ t ++ 0 :: more)) :
    ∀ {chunks : List Bytes} {s : St} {c : Cut}, chunks ≠ [] → (∀ d ∈ chunks, d ≠ [] ∧ d.length ≤ 4096) →
    s.cl.freed = false → s.cl.closed = false → s.cl.cut = some c → c.data ++ chunks.flatten = z →
    c.len = z.length → c.zlib = true → c.provide = true →
    ∃ s', run table (chunks.map fun d => (.readable (.data d), env, [])) s = .ok s' ∧
      s'.cl.cut = none ∧ s'.log = s.log ++ [.cutText (toLf t)]
  | [], _, _, hn, _, _, _, _, _, _, _, _ => absurd rfl hn
  | d :: ds, s, c, _, hc, hf, hcl, hcut, hd, hlen, hzl, hp => by
    obtain ⟨hd0, hd1⟩ := hc d (by simp)
    obtain ⟨x, xs, rfl⟩ := List.exists_cons_of_ne_nil hd0
    have hsum : c.data.length + (xs.length + 1) + ds.flatten.length = z.length := by
      rw [← hd]; simp; omega
    have h1 : step table (.readable (.data (x :: xs))) env [] s =
        bigCutText env c (x :: xs) { s with net := [] } := by
      unfold step event
      dsimp only
      rw [hf, if_neg (by simp), hcl, if_neg (by simp)]
      unfold onReadable
      simp only [hcut]
      rw [if_neg (by omega), List.take_of_length_le]
      unfold msgBufferSize
      simp only [List.length_cons] at hd1 ⊢
      omega
    rw [List.map_cons, run, h1]
    unfold bigCutText
    rw [if_neg (by omega)]
    dsimp only
    by_cases hds : ds = []
    · subst hds
      simp only [List.flatten_nil, List.length_nil, List.flatten_cons, List.append_nil] at hsum hd
      rw [if_neg (by simp; omega), if_pos hzl, if_pos hp, hd, provideText ht hlt h0 hz]
      exact ⟨_, rfl, rfl, rfl⟩
    · have hpos : 0 < ds.flatten.length := by
        obtain ⟨y, ys, rfl⟩ := List.exists_cons_of_ne_nil hds
        have := List.length_pos_iff.2 (hc y (by simp)).1
        simp; omega
      rw [if_pos (by simp; omega)]
      exact c15_text_long ht hlt h0 hz hds (fun d h => hc d (List.mem_cons_of_mem _ h))
        (s := { s with net := [] }.upd fun k => { k with
          cut := some { c with data := c.data ++ (x :: xs) } }) (c := { c with data := c.data ++ (x :: xs) })
        hf hcl rfl (by rw [← hd]; simp) hlen hzl hp

/-- a connection whose texts are not compressed at all -/
def plainZip : Env := { demoEnv with
  inflate1 := fun z => some (z.take 4), inflate2 := fun z n => some ((z.drop 4).take n) }

theorem plainZip_inflates (z : Bytes) : Inflates plainZip z z := ⟨rfl, fun _ => rfl⟩

/-- "a CR LF b CR c" in one message and in pieces -/
example : runCheck (enter [0, -1063131698] ++ [(.readable (.data (extClip 0 (fProvide + fText)
      [0, 0, 0, 7, 97, 13, 10, 98, 13, 99, 0])), plainZip, []),
      (.readable (.data ((extClip 0 (fProvide + fText) [0, 0, 0, 7, 97, 13, 10, 98, 13, 99, 0]).take 14)),
        plainZip, []),
      (.readable (.data [0, 7, 97, 13]), plainZip, []),
      (.readable (.data [10, 98, 13, 99, 0]), plainZip, [])])
    (fun s => decide (s.log.count (.cutText [97, 10, 98, 10, 99]) = 2)) = true := by decide +kernel

/-! ## C17 -/

/-- the length the server announces does not cover the zero byte it appends -/
theorem c17_provide_violated {s : St} {z text : Bytes} (hl : text.length < 4294967296)
    (h0 : 0 ∉ text) (hz : Inflates env z (System.provideBody text)) :
    clipProvideText env z s = .ok s := by
  have h2 := hz.2 text.length
  unfold clipProvideText
  rw [hz.1]
  have e1 : (System.provideBody text).take 4 = be32 text.length := rfl
  have e2 : (System.provideBody text).drop 4 = text ++ [0] := rfl
  rw [e1]
  rw [e2, List.take_left' rfl] at h2
  simp only [be32, rd32_be32 _ hl]
  by_cases hn : text.length ≤ 1
  · rw [if_pos hn]
  · rw [if_neg hn, h2]
    dsimp only
    rw [if_neg (by omega), if_pos]
    rw [List.getD_eq_getElem?_getD, List.getElem?_eq_getElem (by omega), Option.getD_some]
    intro h
    exact h0 (h ▸ List.getElem_mem _)

/-- C17, the part that holds: if the application itself terminates the text with a zero byte, and
counts it, a receiver that reads like this server recovers it (up to line endings).

Missing: texts as applications pass them, see `c17_provide_violated`. -/
theorem c17_provide_partial {s : St} {z t : Bytes} (hl : t.length + 1 < 4294967296) (ht : t ≠ [])
    (h0 : 0 ∉ t) (hz : Inflates env z (System.provideBody (t ++ [0]))) :
    clipProvideText env z s = .ok (emit (.cutText (toLf t)) s) := by
  refine provideText (more := [0]) ht hl h0 ?_
  unfold System.provideBody at hz
  rwa [List.length_append, List.append_assoc, List.append_assoc, ← List.append_assoc] at hz

/-- the round trip with and without the terminator -/
example : clipProvideText plainZip (System.provideBody [104, 105]) (start demoSrv) =
      .ok (start demoSrv) ∧
    clipProvideText plainZip (System.provideBody [104, 105, 0]) (start demoSrv) =
      .ok (emit (.cutText [104, 105]) (start demoSrv)) :=
  ⟨c17_provide_violated (by decide) (by decide) (plainZip_inflates _),
    c17_provide_partial (t := [104, 105]) (by decide) (by simp) (by decide) (plainZip_inflates _)⟩

/-! ## C18 -/

/-- the cut text messages: a length field, then as many bytes as it says -/
def cutMsg (p : UInt8) (len : Int) (body : Bytes) : Bytes := [6, p, p, p] ++ wire32 len ++ body

/-- C18, the part that holds: for every length field that leaves room for the flags, what the
server does depends on nothing but the bytes of the message, and exactly these are consumed.

Missing: extended messages with a length of 1 to 3, see `c18_bounds_violated`, and lengths beyond
the limit, for which the client is closed while still in use. -/
theorem c18_bounds_partial {s s' : St} (hr : s.cl.st = .ready) {p : UInt8} {len : Int} {body : Bytes}
    {n : Nat} (hb : (body.length : Int) = if len < 0 then - len else len)
    (hx : len < 0 → extClipboard ∈ s.cl.encodings)
    (hl : -10000004 ≤ len ∧ len ≤ 10000000) (h4 : len ≤ -4 ∨ 0 ≤ len) (rest rest' : Bytes)
    (e : tryRead env table r s (cutMsg p len body ++ rest) = .ok (s', n)) :
    n = (cutMsg p len body).length ∧
      tryRead env table r s (cutMsg p len body ++ rest') = .ok (s', n) := by
  have hlen : (cutMsg p len body).length = 8 + body.length := by
    simp [cutMsg, wire32, be32]; omega
  rcases h4 with h4 | h4
  · rw [if_pos (by omega)] at hb
    obtain ⟨f0, f1, f2, f3, data, rfl⟩ : ∃ f0 f1 f2 f3 data, body = f0 :: f1 :: f2 :: f3 :: data := by
      match body, hb with
      | [], h | [_], h | [_, _], h | [_, _, _], h => simp at h; omega
      | f0 :: f1 :: f2 :: f3 :: data, _ => exact ⟨_, _, _, _, _, rfl⟩
    simp only [List.length_cons] at hb
    have hm : ∀ x, cutMsg p len (f0 :: f1 :: f2 :: f3 :: data) ++ x =
        extClip p (rd32 f0 f1 f2 f3) data ++ x := by
      intro x
      have h5 : be32 (rd32 f0 f1 f2 f3) = [f0, f1, f2, f3] := be32_rd32 f0 f1 f2 f3
      unfold cutMsg extClip
      rw [h5, show len = -(4 + (data.length : Int)) by omega]
      simp
    have hx' : hasEnc s.cl encExtClipboard = true := by
      simpa [hasEnc, encExtClipboard, extClipboard] using hx (by omega)
    have hk : ∀ x, tryRead env table r s (cutMsg p len (f0 :: f1 :: f2 :: f3 :: data) ++ x) = _ :=
      fun x => by rw [hm, msg_extClip hr hx' (rd32_lt _ _ _ _) (by omega)]
    rw [hk] at e
    rw [hk]
    obtain ⟨t, ht, e'⟩ := Outcome.bind_eq_ok.1 e
    cases e'
    exact ⟨by rw [hlen]; simp only [List.length_cons]; omega, e⟩
  · rw [if_neg (by omega)] at hb
    have hm : ∀ x, cutMsg p len body ++ x = (Msg.cutText p body).wire ++ x := by
      intro x
      unfold cutMsg wire32
      rw [show (len % 4294967296).toNat = body.length by omega]
      rfl
    have hk : ∀ x, tryRead env table r s (cutMsg p len body ++ x) = _ :=
      fun x => by rw [hm, msg_cutText hr (by unfold maxCutText; omega)]
    rw [hk] at e
    rw [hk]
    cases e
    exact ⟨hlen.symm, rfl⟩

/-- C18 is false: for a message of 9 bytes the server takes the flags from the bytes behind it, so
that two clients sending the same message end up with different capabilities; and it hands memory
behind the buffer to the decompressor. -/
theorem c18_bounds_violated :
    (∃ s, run [] (enter [0, -1063131698] ++ [reads (cutMsg 0 (-1) [1] ++ [0, 0, 1])]) (start demoSrv)
      = .ok s ∧ s.cl.clipCaps = 16777217) ∧
    (∃ s, run [] (enter [0, -1063131698] ++ [reads (cutMsg 0 (-1) [1] ++ [0, 0, 7])]) (start demoSrv)
      = .ok s ∧ s.cl.clipCaps = 16777223) ∧
    run [] (enter [0, -1063131698] ++ [reads (cutMsg 0 (-1) [16] ++ [0, 0, 1])]) (start demoSrv)
      = .ub "clipboard text read past the message" := by
  refine ⟨?_, ?_, by decide +kernel⟩
  · obtain ⟨s, h1, h2⟩ := runCheck_iff.1 (show runCheck (enter [0, -1063131698] ++
      [reads (cutMsg 0 (-1) [1] ++ [0, 0, 1])]) (fun s => decide (s.cl.clipCaps = 16777217)) = true from
      by decide +kernel)
    exact ⟨s, h1, of_decide_eq_true h2⟩
  · obtain ⟨s, h1, h2⟩ := runCheck_iff.1 (show runCheck (enter [0, -1063131698] ++
      [reads (cutMsg 0 (-1) [1] ++ [0, 0, 7])]) (fun s => decide (s.cl.clipCaps = 16777223)) = true from
      by decide +kernel)
    exact ⟨s, h1, of_decide_eq_true h2⟩

/-- ordinary messages, extended or not, are read the same whatever follows -/
example : runCheck (enter [0, -1063131698] ++ [reads (cutMsg 0 (-8) [1, 0, 0, 1, 0, 0, 1, 0] ++
      cutMsg 9 2 [104, 105])]) (fun s => decide (s.cl.clipCaps = 16777217 ∧ s.cl.clipMax = 256 ∧
        s.cl.buf = [] ∧ .cutText [104, 105] ∈ s.log)) = true := by decide +kernel

/-! ## C16 -/

theorem note_unwatched {c : Consent} {e : Eff} (h : e.watched = false) : c.note e = c := by
  cases e <;> first | rfl | cases h

theorem consent_append (l m : List Eff) : consent (l ++ m) = m.foldl Consent.note (consent l) :=
  List.foldl_append

theorem consent_quiet {l m : List Eff} (h : ∀ e ∈ m, e.watched = false) :
    consent (l ++ m) = consent l := by
  rw [consent_append]
  generalize consent l = c
  induction m with
  | nil => rfl
  | cons e m ih =>
    rw [List.foldl_cons, note_unwatched (h e (by simp)), ih fun e he => h e (by simp [he])]

theorem Polite.append {l m : List Eff} (h : Polite l)
    (hm : ∀ pre ch k b post, m = pre ++ .send ch k b :: post → k = .clip ∨ k = .cutText →
      Allowed (l ++ pre) k b) : Polite (l ++ m) := by
  intro pre ch k b post e hk
  rcases List.append_eq_append_iff.1 e with ⟨q, h1, h2⟩ | ⟨q, h1, h2⟩
  · rw [h1]; exact hm q ch k b post h2 hk
  · cases q with
    | nil =>
      rw [List.append_nil] at h1
      rw [List.nil_append] at h2
      have := hm [] ch k b post (by simpa using h2.symm) hk
      rwa [List.append_nil, h1] at this
    | cons x q =>
      rw [List.cons_append, List.cons.injEq] at h2
      obtain ⟨rfl, h3⟩ := h2
      exact h pre ch k b q h1 hk

theorem Polite.quiet {l m : List Eff} (h : Polite l) (hm : ∀ e ∈ m, e.watched = false) :
    Polite (l ++ m) := by
  refine h.append fun pre ch k b post e hk => ?_
  have := hm (.send ch k b) (by rw [e]; simp)
  rcases hk with rfl | rfl <;> cases this

theorem Polite.send {l : List Eff} (h : Polite l) {ch k b} (ha : Allowed l k b) :
    Polite (l ++ [.send ch k b]) := by
  refine h.append fun pre ch' k' b' post e hk => ?_
  cases pre with
  | nil =>
    rw [List.nil_append, List.cons.injEq, Eff.send.injEq] at e
    obtain ⟨⟨-, rfl, rfl⟩, -⟩ := e
    rwa [List.append_nil]
  | cons x pre =>
    rw [List.cons_append, List.cons.injEq] at e
    have := congrArg List.length e.2
    simp at this

/-- the client's record agrees with what it has said, and the server has been polite -/
structure Kept (c : Client) (l : List Eff) : Prop where
  enc : c.encodings = (consent l).encs
  caps : c.clipCaps = (consent l).caps
  max : c.clipMax = (consent l).max
  polite : Polite l

theorem Kept.quiet {c c' : Client} {l es : List Eff} (h : Kept c l)
    (h1 : c'.encodings = c.encodings) (h2 : c'.clipCaps = c.clipCaps) (h3 : c'.clipMax = c.clipMax)
    (hq : ∀ e ∈ es, e.watched = false) : Kept c' (l ++ es) := by
  have hc := consent_quiet (l := l) hq
  exact ⟨by rw [hc, h1, h.enc], by rw [hc, h2, h.caps], by rw [hc, h3, h.max], h.polite.quiet hq⟩

theorem Kept.still {s s' : St} (h : Kept s.cl s.log) (hs : Still s s') : Kept s'.cl s'.log := by
  obtain ⟨es, h1, h2⟩ := hs.log
  rw [h1]
  exact h.quiet hs.enc hs.caps hs.max h2

theorem Kept.send {s : St} (h : Kept s.cl s.log) {k b} (hk : k = .clip ∨ k = .cutText)
    (ha : Allowed s.log k b) : Kept (Server.send k b s).cl (Server.send k b s).log := by
  rw [send_cl, send_log]
  split
  · simpa using h
  · have hc : consent (s.log ++ [.send s.cl.chan k b]) = consent s.log := by
      rw [consent_append]; rcases hk with rfl | rfl <;> rfl
    exact ⟨by rw [hc, h.enc], by rw [hc, h.caps], by rw [hc, h.max], h.polite.send ha⟩

theorem hsKind_unwatched {b : CState} {k : Kind} (h : hsKind b k = true) : k.watched = false := by
  cases k <;> first | rfl | (cases b <;> cases h)

theorem hs_unwatched {b : CState} {e : Eff} (h : HsEff b e) : e.watched = false := by
  cases h with
  | send ch k m h => exact hsKind_unwatched h
  | _ => rfl

theorem has_iff (c : Client) : hasEnc c encExtClipboard = true ↔ extClipboard ∈ c.encodings := by
  simp [hasEnc, encExtClipboard, extClipboard]

theorem sendPing_still {n : Nat} {s s' : St} (e : sendPing env n s = .ok s') : Still s s' := by
  unfold sendPing at e
  split at e
  · cases e; exact .refl _
  · dsimp only at e
    unfold sendFence at e
    split at e
    · cases e
    · cases e; exact (Still.upd _).trans (.send _ .fence _)

theorem encs_kept {s s' : St} {a : Bytes} {n : Nat} (h : Kept s.cl s.log)
    (e : onSetEncodings env s a = .ok (s', n)) : Kept s'.cl s'.log := by
  unfold onSetEncodings at e
  split at e
  · dsimp only at e
    split at e
    · cases e; exact h
    · generalize scanEncodings env.experimental _ [] 10 = res at e
      obtain ⟨encs, q⟩ := res
      dsimp only at e
      obtain ⟨t, ht, e⟩ := Outcome.bind_eq_ok.1 e
      cases e
      refine Kept.still ?_ (sendPing_still ht)
      have h1 : Kept (emit (.encodings encs)
          (s.upd fun k => { k with encodings := encs, quality := q, formatsChanged := true })).cl
          (emit (.encodings encs)
          (s.upd fun k => { k with encodings := encs, quality := q, formatsChanged := true })).log := by
        have hc : consent (s.log ++ [.encodings encs]) = { consent s.log with encs := encs } := by
          rw [consent_append]; rfl
        refine ⟨?_, ?_, ?_, ?_⟩
        · show encs = (consent (s.log ++ [.encodings encs])).encs; rw [hc]
        · show s.cl.clipCaps = (consent (s.log ++ [.encodings encs])).caps; rw [hc]; exact h.caps
        · show s.cl.clipMax = (consent (s.log ++ [.encodings encs])).max; rw [hc]; exact h.max
        · refine h.polite.append fun pre ch k b post e hk => ?_
          have : Eff.send ch k b ∈ [Eff.encodings encs] := by rw [e]; simp
          simp at this
      generalize emit (.encodings encs) (s.upd fun k =>
        { k with encodings := encs, quality := q, formatsChanged := true }) = u at h1 ⊢
      have h2 : Kept (notifyCont u).cl (notifyCont u).log := by
        unfold notifyCont
        split
        · exact h1.still ((Still.upd _).trans (.send _ .endOfCont _))
        · exact h1
      split
      · rename_i hx
        refine h2.send (.inl rfl) ?_
        exact .caps _ (by rw [← h2.enc]; exact (has_iff _).1 hx)
      · exact h2
  · cases e; exact h

theorem rd32_beNat (a b c d : UInt8) : rd32 a b c d = beNat [a, b, c, d] := by
  simp only [rd32, beNat, List.foldl_cons, List.foldl_nil]
  omega

theorem action_kept {s s' : St} {flags : Nat} {len : Int} {body : Bytes} (h : Kept s.cl s.log)
    (e : clipAction env flags len body (emit (.clipMsg flags (body.take len.toNat)) s) = .ok s') :
    Kept s'.cl s'.log := by
  unfold clipAction at e
  by_cases hcaps : flags.testBit 24 = true
  · rw [if_pos (by exact hcaps)] at e
    have hc : consent (s.log ++ [.clipMsg flags (body.take len.toNat)]) =
        { consent s.log with
          caps := flags
          max := if 4 ≤ (body.take len.toNat).length then beNat ((body.take len.toNat).take 4)
            else (consent s.log).max } := by
      rw [consent_append, List.foldl_cons, List.foldl_nil]
      show (if _ then _ else _) = _
      rw [if_pos hcaps]
    have hp : Polite (s.log ++ [.clipMsg flags (body.take len.toNat)]) := by
      refine h.polite.append fun pre ch k b post e hk => ?_
      have : Eff.send ch k b ∈ [Eff.clipMsg flags (body.take len.toNat)] := by rw [e]; simp
      simp at this
    unfold clipSetCaps at e
    dsimp only at e
    split at e
    · rename_i h4
      split at e
      · rename_i m0 m1 m2 m3 rest
        cases e
        have hlen : 4 ≤ ((m0 :: m1 :: m2 :: m3 :: rest).take len.toNat).length := by
          rw [List.length_take]; simp only [List.length_cons]; omega
        have ht : ((m0 :: m1 :: m2 :: m3 :: rest).take len.toNat).take 4 = [m0, m1, m2, m3] := by
          rw [List.take_take, Nat.min_eq_left (by omega)]; rfl
        refine ⟨?_, ?_, ?_, hp⟩
        · refine Eq.trans h.enc ?_
          show _ = (consent (s.log ++ [.clipMsg _ _])).encs
          rw [hc]
        · show flags = (consent (s.log ++ [.clipMsg _ _])).caps
          rw [hc]
        · show rd32 m0 m1 m2 m3 = (consent (s.log ++ [.clipMsg _ _])).max
          rw [hc, if_pos hlen, ht, rd32_beNat]
      · cases e
    · rename_i h4
      cases e
      have hlen : ¬ 4 ≤ (body.take len.toNat).length := by
        rw [List.length_take]; omega
      refine ⟨?_, ?_, ?_, hp⟩
      · refine Eq.trans h.enc ?_
        show _ = (consent (s.log ++ [.clipMsg _ _])).encs
        rw [hc]
      · show flags = (consent (s.log ++ [.clipMsg _ _])).caps
        rw [hc]
      · refine Eq.trans h.max ?_
        show _ = (consent (s.log ++ [.clipMsg _ _])).max
        rw [hc, if_neg hlen]
  · rw [if_neg (by exact hcaps)] at e
    generalize hd : body.take len.toNat = data at e
    have h1 : Kept (emit (.clipMsg flags data) s).cl (emit (.clipMsg flags data) s).log := by
      have hc : consent (s.log ++ [.clipMsg flags data]) = consent s.log := by
        rw [consent_append, List.foldl_cons, List.foldl_nil]
        show (if _ then _ else _) = _
        rw [if_neg hcaps]
      refine ⟨h.enc.trans ?_, h.caps.trans ?_, h.max.trans ?_, ?_⟩
      · show _ = (consent (s.log ++ [.clipMsg flags data])).encs; rw [hc]
      · show _ = (consent (s.log ++ [.clipMsg flags data])).caps; rw [hc]
      · show _ = (consent (s.log ++ [.clipMsg flags data])).max; rw [hc]
      · refine h.polite.append fun pre ch k b post e hk => ?_
        have : Eff.send ch k b ∈ [Eff.clipMsg flags data] := by rw [e]; simp
        simp at this
    have hcl : (emit (.clipMsg flags data) s).cl.clipCaps = (consent s.log).caps := h.caps
    rcases ite_cases e with ⟨hq, e⟩ | ⟨-, e⟩
    · cases e
      simp only [Bool.and_eq_true] at hq
      rw [hcl] at hq
      exact h1.send (.inl rfl) (.reply s.log flags data _ hq.1.1.1 hq.1.1.2 hq.1.2)
    rcases ite_cases e with ⟨hq, e⟩ | ⟨-, e⟩
    · cases e
      simp only [Bool.and_eq_true] at hq
      rw [hcl] at hq
      refine h1.send (.inl rfl) ?_
      split
      · exact .peek s.log flags data (fNotify + fText) hq.1 hq.2 (.inr rfl)
      · exact .peek s.log flags data fNotify hq.1 hq.2 (.inl rfl)
    rcases ite_cases e with ⟨hq, e⟩ | ⟨-, e⟩
    · cases e
      simp only [Bool.and_eq_true] at hq
      rw [hcl] at hq
      exact h1.send (.inl rfl) (.ask s.log flags data hq.1.1 hq.1.2 hq.2)
    rcases ite_cases e with ⟨hq, e⟩ | ⟨-, e⟩
    · rcases ite_cases e with ⟨-, e⟩ | ⟨-, e⟩
      · cases e
      · exact h1.still (clipProvideText_still e)
    · cases e; exact h1

theorem cut_kept {s s' : St} {a : Bytes} {n : Nat} (h : Kept s.cl s.log)
    (e : onCutText env s a = .ok (s', n)) : Kept s'.cl s'.log := by
  unfold onCutText at e
  split at e
  · split at e
    · unfold onExtClipboard at e
      split at e
      · dsimp only at e
        rcases ite_cases e with ⟨-, e⟩ | ⟨-, e⟩
        · cases e
        rcases ite_cases e with ⟨-, e⟩ | ⟨-, e⟩
        · cases e; exact h
        rcases ite_cases e with ⟨-, e⟩ | ⟨-, e⟩
        · cases e
        rcases ite_cases e with ⟨-, e⟩ | ⟨-, e⟩
        · cases e; exact ⟨h.enc, h.caps, h.max, h.polite⟩
        obtain ⟨t, ht, e⟩ := Outcome.bind_eq_ok.1 e
        cases e
        exact action_kept h ht
      · cases e; exact h
    · unfold onPlainCutText at e
      dsimp only at e
      rcases ite_cases e with ⟨-, e⟩ | ⟨-, e⟩
      · cases e
      rcases ite_cases e with ⟨-, e⟩ | ⟨-, e⟩ <;> cases e
      · exact h.still (.emit _)
      · exact h.still (.upd _)
  · cases e; exact h

theorem noted_kept {s s' : St} (hn : Noted table s s') (h : Kept s.cl s.log) : Kept s'.cl s'.log := by
  cases hn with
  | still hs => exact h.still hs
  | hs _ hf =>
    obtain ⟨-, -, ⟨_, _, _, _, _, _, _, _, _, _, _, h3⟩, es, h4, h5⟩ := hf
    rw [h4]
    exact h.quiet (by rw [h3]) (by rw [h3]) (by rw [h3]) fun e he => hs_unwatched (h5 e he)
  | encs env a n _ e => exact encs_kept h e
  | cut env a n _ e => exact cut_kept h e
  | led _ e =>
    subst e
    obtain ⟨-, -, ⟨_, h3⟩, h4⟩ := sendLed_frame s
    have hc : ∀ b, consent (s.log ++ [.send s.cl.chan .led b]) = consent s.log := fun b => by
      rw [consent_append]; rfl
    rcases h4 with h4 | ⟨-, b, h4⟩
    · rw [h3, h4]; exact ⟨h.enc, h.caps, h.max, h.polite⟩
    · rw [h3, h4]
      refine ⟨?_, ?_, ?_, ?_⟩
      · rw [hc]; exact h.enc
      · rw [hc]; exact h.caps
      · rw [hc]; exact h.max
      · refine h.polite.append fun pre ch k b' post e hk => ?_
        have : Eff.send ch k b' ∈ [Eff.send s.cl.chan .led b] := by rw [e]; simp
        simp only [List.mem_singleton, Eff.send.injEq] at this
        rcases hk with rfl | rfl <;> exact nomatch this.2.1
  | setLed v e =>
    subst e
    have hc : consent (s.log ++ [.ledSet v]) = consent s.log := by
      rw [consent_append]; rfl
    refine ⟨h.enc.trans ?_, h.caps.trans ?_, h.max.trans ?_, ?_⟩
    · show _ = (consent (s.log ++ [.ledSet v])).encs; rw [hc]
    · show _ = (consent (s.log ++ [.ledSet v])).caps; rw [hc]
    · show _ = (consent (s.log ++ [.ledSet v])).max; rw [hc]
    · refine h.polite.append fun pre ch k b post e hk => ?_
      have : Eff.send ch k b ∈ [Eff.ledSet v] := by rw [e]; simp
      simp at this

end Verif.Server

namespace Verif.System

open Verif.Server

variable {table : List Nat}

/-- what nvnc_send_cut_text does to a client -/
theorem cutTextTo_kept {s : St} (text : Bytes) (h : Kept s.cl s.log) :
    Kept s.cl (cutTextTo text s).log := by
  rw [← cutTextTo_cl text s]
  unfold cutTextTo
  split
  · exact h
  · by_cases hc : s.cl.closed = true
    · rw [if_pos hc]
      have hs : ∀ k b, Kept (send k b s).cl (send k b s).log := fun k b => by
        unfold Server.send; rw [if_pos hc]; exact h
      unfold cutTextSend
      repeat' split
      all_goals first | exact h | exact hs _ _
    · rw [if_neg hc]
      have h1 : Kept (emit (.offered text) s).cl (emit (.offered text) s).log := by
        have hc : consent (s.log ++ [.offered text]) = consent s.log := by
          rw [consent_append]; rfl
        refine ⟨h.enc.trans ?_, h.caps.trans ?_, h.max.trans ?_, ?_⟩
        · show _ = (consent (s.log ++ [.offered text])).encs; rw [hc]
        · show _ = (consent (s.log ++ [.offered text])).caps; rw [hc]
        · show _ = (consent (s.log ++ [.offered text])).max; rw [hc]
        · refine h.polite.append fun pre ch k b post e hk => ?_
          have : Eff.send ch k b ∈ [Eff.offered text] := by rw [e]; simp
          simp at this
      have henc : ∀ e, e ∈ s.cl.encodings ↔ e ∈ (consent s.log).encs := fun e => by rw [h.enc]
      unfold cutTextSend
      split
      · rename_i hx
        have hx : extClipboard ∈ (consent s.log).encs := (henc _).1 ((has_iff _).1 hx)
        split
        · exact h1
        · split
          · rename_i hq
            have hq : (consent s.log).caps.testBit 28 = true ∧ text.length ≤ (consent s.log).max := by
              rw [← h.caps, ← h.max]; exact hq
            exact h1.send (.inl rfl) (.push s.log text _ hx hq.1 hq.2)
          · rename_i hq
            have hq : ¬ ((consent s.log).caps.testBit 28 = true ∧ text.length ≤ (consent s.log).max) := by
              rw [← h.caps, ← h.max]; exact hq
            split
            · rename_i hn
              have hn : (consent s.log).caps.testBit 27 = true := by rw [← h.caps]; exact hn
              refine h1.send (.inl rfl) ?_
              split
              · exact .notify s.log text (fNotify + fText) hx hq hn (.inr rfl)
              · exact .notify s.log text fNotify hx hq hn (.inl rfl)
            · exact h1
      · rename_i hx
        have hx : extClipboard ∉ (consent s.log).encs := fun h => hx ((has_iff _).2 ((henc _).2 h))
        exact h1.send (.inr rfl) (.plain s.log text hx)

theorem kept_stays : Stays table Kept :=
  ⟨fun _ _ hm _ h => noted_kept (micro_noted hm) h, fun _ text _ h => cutTextTo_kept text h⟩

/-- C16: whatever the clients send and however often they change their mind, and whatever the
application offers: everything a server ever sends about the clipboard is allowed by what the client
has said up to then. -/
theorem c16_consent {s0 s : Sys} {ops : List SysOp} (h0 : s0.peers = [])
    (e : sysRun table ops s0 = .ok s) : ∀ p ∈ s.peers, Polite p.log := by
  refine fun p hp => (kept_stays.all (fun srv => ?_) h0 e hp).polite
  refine ⟨rfl, rfl, rfl, ?_⟩
  intro pre ch k b post e hk
  have : Eff.send ch k b ∈ [Eff.send .plain .version versionMsg] := by
    show _ ∈ (start srv).log
    rw [e]; simp
  simp only [List.mem_singleton, Eff.send.injEq] at this
  rcases hk with rfl | rfl <;> exact nomatch this.2.1

theorem each_same {f : Nat → St → St} (hf : ∀ j s, (f j s).srv = s.srv) :
    ∀ (ps : List Peer) (k : Nat) (srv : Srv), each (fun j s => .ok (f j s)) k ps srv =
      .ok (srv, ps.mapIdx fun j p => Peer.of (f (k + j) (p.at srv)))
  | [], _, _ => rfl
  | p :: ps, k, srv => by
    have ih := each_same hf ps (k + 1) srv
    have h1 : (f k (p.at srv)).srv = srv := hf _ _
    have h2 : ∀ j, k + 1 + j = k + (j + 1) := fun j => by omega
    simp only [h2] at ih
    simp only [each, List.mapIdx_cons]
    show (do let (srv, ps) ← each _ (k + 1) ps (f k (p.at srv)).srv; _) = _
    rw [h1, ih]
    rfl

/-- what a client is told about a text offered to it: `store` is the compressed text -/
def Offer (text : Bytes) (store : Option Bytes) (c : Consent) (ch : Chan) : List Eff :=
  if extClipboard ∉ c.encs then [.send ch .cutText ([3, 0, 0, 0] ++ be32 text.length ++ text)]
  else match store with
    | none => []
    | some z =>
      if c.caps.testBit 28 = true ∧ text.length ≤ c.max then
        [.send ch .clip (extClipOut (fProvide + fText) z)]
      else if c.caps.testBit 27 = true then [.send ch .clip (extClipOut (fNotify + fText) [])]
      else []

/-- C16, the other direction: what exactly a client is told when a text is offered, as a function of
what it has said so far; and what is kept for those that ask later. -/
theorem c16_offer {s0 s s' : Sys} {ops : List SysOp} (h0 : s0.peers = [])
    (e : sysRun table ops s0 = .ok s) {zip : Bytes → Option Bytes} {text : Bytes} (ht : text ≠ [])
    (es : sysStep table (.sendCutText zip text) s = .ok s') {i : Nat} {p : Peer}
    (hp : s.peers[i]? = some p) (ho : p.cl.freed = false ∧ p.cl.closed = false) :
    ∃ p', s'.peers[i]? = some p' ∧ p'.cl = p.cl ∧
      p'.log = p.log ++ .offered text ::
        Offer text (zip (be32 text.length ++ text ++ [0])) (consent p.log) p.cl.chan ∧
      (extClipboard ∈ (consent p.log).encs →
        s'.srv.provideMsg = zip (be32 text.length ++ text ++ [0])) := by
  have hk : Kept p.cl p.log := kept_stays.all (fun srv => by
    refine ⟨rfl, rfl, rfl, ?_⟩
    intro pre ch k b post e hk
    have : Eff.send ch k b ∈ [Eff.send .plain .version versionMsg] := by
      show _ ∈ (start srv).log
      rw [e]; simp
    simp only [List.mem_singleton, Eff.send.injEq] at this
    rcases hk with rfl | rfl <;> exact nomatch this.2.1) h0 e (List.mem_of_getElem? hp)
  unfold sysStep at es
  simp only at es
  rw [each_same (f := fun _ s => cutTextTo text s) (fun _ _ => cutTextTo_srv _ _)] at es
  cases es
  refine ⟨_, by rw [List.getElem?_mapIdx, hp]; rfl, cutTextTo_cl _ _, ?_, ?_⟩
  · have hcl : (p.at (cutTextSave zip text s)).cl.closed = false := ho.2
    have hs : ∀ k b, (send k b (emit (.offered text) (p.at (cutTextSave zip text s)))).log =
        p.log ++ .offered text :: [.send p.cl.chan k b] := fun k b => by
      rw [send_log, if_neg (by exact Bool.eq_false_iff.1 hcl)]
      simp [emit, Peer.at]
    show (cutTextTo text (p.at (cutTextSave zip text s))).log = _
    unfold cutTextTo
    rw [if_neg (by exact Bool.eq_false_iff.1 ho.1), if_neg (by exact Bool.eq_false_iff.1 hcl)]
    unfold cutTextSend
    have hx : hasEnc (emit (.offered text) (p.at (cutTextSave zip text s))).cl encExtClipboard = true ↔
        extClipboard ∈ (consent p.log).encs := by
      rw [← hk.enc]; exact has_iff _
    by_cases hm : extClipboard ∈ (consent p.log).encs
    · rw [if_pos (hx.2 hm)]
      unfold Offer
      rw [if_neg (not_not_intro hm)]
      have hsave : (cutTextSave zip text s).provideMsg = zip (be32 text.length ++ text ++ [0]) := by
        unfold cutTextSave
        rw [if_pos]
        · unfold saveProvide; simp only [if_neg ht]; rfl
        · rw [List.any_eq_true]
          refine ⟨p, List.mem_of_getElem? hp, ?_⟩
          rw [ho.1]
          exact hx.2 hm
      show (match (cutTextSave zip text s).provideMsg with | none => _ | some m => _ : St).log = _
      rw [← hsave]
      cases hz : (cutTextSave zip text s).provideMsg with
      | none => simp [emit, Peer.at]
      | some z =>
        dsimp only
        have hcaps : (emit (.offered text) (p.at (cutTextSave zip text s))).cl.clipCaps =
          (consent p.log).caps := hk.caps
        have hmax : (emit (.offered text) (p.at (cutTextSave zip text s))).cl.clipMax =
          (consent p.log).max := hk.max
        rw [hcaps, hmax]
        by_cases h1 : (consent p.log).caps.testBit 28 = true ∧ text.length ≤ (consent p.log).max
        · rw [if_pos (by exact h1), if_pos h1]; exact hs _ _
        · rw [if_neg (by exact h1), if_neg h1]
          by_cases h2 : (consent p.log).caps.testBit 27 = true
          · rw [if_pos (by exact h2), if_pos h2]
            unfold sendClipNotify
            rw [hs]
            have : (emit (.offered text) (p.at (cutTextSave zip text s))).srv.provideMsg.isSome = true := by
              show (cutTextSave zip text s).provideMsg.isSome = true
              rw [hz]; rfl
            rw [if_pos this]
            rfl
          · rw [if_neg (by exact h2), if_neg h2]
            simp [emit, Peer.at]
    · rw [if_neg (fun h => hm (hx.1 h))]
      unfold Offer
      rw [if_pos hm]
      exact hs _ _
  · intro hm
    show (cutTextSave zip text s).provideMsg = _
    unfold cutTextSave
    rw [if_pos]
    · unfold saveProvide; simp only [if_neg ht]; rfl
    · rw [List.any_eq_true]
      refine ⟨p, List.mem_of_getElem? hp, ?_⟩
      rw [ho.1]
      rw [← hk.enc] at hm
      exact (has_iff _).2 hm

/-- C16: a request is answered with the text that was kept -/
theorem c16_reply {r : St → Outcome St} {env : Env} {s : St} {pad : UInt8} {data z : Bytes}
    (hr : s.cl.st = .ready) (hx : extClipboard ∈ s.cl.encodings) (hl : data.length ≤ 10000000)
    (hcaps : s.cl.clipCaps.testBit 28 = true) (hz : s.srv.provideMsg = some z) (rest) :
    tryRead env table r s (extClip pad (fRequest + fText) data ++ rest) =
      .ok (send .clip (extClipOut (fProvide + fText) z) (emit (.clipMsg (fRequest + fText) data) s),
        (extClip pad (fRequest + fText) data).length) := by
  rw [msg_extClip hr (by simpa [hasEnc, encExtClipboard, extClipboard] using hx) (by decide) hl]
  have h1 : (extClip pad (fRequest + fText) data).length = 12 + data.length := by
    simp [extClip, wire32, be32]; omega
  unfold clipAction
  rw [if_neg (by decide), if_pos (by
    rw [show (fRequest + fText).testBit clipRequest = true by decide,
      show (fRequest + fText).testBit clipText = true by decide,
      show (emit _ s).cl.clipCaps.testBit clipProvide = true from hcaps,
      show (emit _ s).srv.provideMsg = some z from hz]
    rfl), h1, show (emit _ s).srv.provideMsg = some z from hz]
  rfl

theorem kept_lifts (m : Option Bytes) : Lifts table (fun o => ∀ zip t, o ≠ .sendCutText zip t)
    (fun srv => srv.provideMsg = m) (fun _ _ _ => True) where
  start _ _ := trivial
  self s s' hm _ hs _ := by
    refine ⟨?_, trivial⟩
    rcases micro_keep hm with hh | hh
    · obtain ⟨⟨_, h1⟩, -⟩ := hh.frame
      rw [h1]; exact hs
    · obtain ⟨_, _, _, h1⟩ := hh.srv
      rw [h1]; exact hs
  other _ _ _ _ _ _ _ h := h
  api o f srv ho ha hs := by
    refine ⟨?_, fun _ _ h => h⟩
    cases ha <;> first | exact hs | exact absurd rfl (ho _ _)
  cut _ _ _ _ _ _ _ := trivial

/-- C16: what is kept for clients that ask is never an older text than the one offered last -/
theorem c16_latest {s0 s s1 s2 : Sys} {ops0 ops : List SysOp} (h0 : s0.peers = [])
    (e0 : sysRun table ops0 s0 = .ok s) {zip : Bytes → Option Bytes} {text : Bytes}
    (e1 : sysStep table (.sendCutText zip text) s = .ok s1)
    (hops : ∀ o ∈ ops, ∀ zip t, o ≠ .sendCutText zip t) (e2 : sysRun table ops s1 = .ok s2) :
    ∀ z, s2.srv.provideMsg = some z → text ≠ [] ∧ zip (be32 text.length ++ text ++ [0]) = some z := by
  have hb := based_step (based_run (based_nil h0) e0) e1
  have h := ((kept_lifts s1.srv.provideMsg).sysRun ops hops (show Inv _ _ s1 from
    ⟨rfl, fun p hp => ⟨hb p hp _, trivial⟩⟩) e2).1
  have h1 : s1.srv = cutTextSave zip text s := by
    unfold sysStep at e1
    simp only at e1
    rw [each_same (f := fun _ s => cutTextTo text s) (fun _ _ => cutTextTo_srv _ _)] at e1
    cases e1; rfl
  intro z hz
  dsimp only at h
  rw [h, h1] at hz
  unfold cutTextSave at hz
  split at hz
  · unfold saveProvide at hz
    by_cases ht : text = []
    · simp [ht] at hz
    · simp only [if_neg ht] at hz
      exact ⟨ht, hz⟩
  · cases hz

/-- a run of a server that ends well, and what the log of its first client ends with -/
def sysLog (ops : List SysOp) (n : Nat) : List Eff :=
  match sysRun [] ops (fresh [110] (some demoFb)) with
  | .ok { peers := p :: _, .. } =>
    let l := p.log.filter fun | .msg .. => false | _ => true
    l.drop (l.length - n)
  | _ => []

/-- what a client sends until it is in its session with the given encodings -/
def joins (encs : List Int) : List SysOp :=
  [.connect, .client 0 (.readable (.data versionMsg)) demoEnv [],
    .client 0 (.readable (.data [1])) demoEnv [], .client 0 (.readable (.data [1])) demoEnv [],
    .client 0 (.readable (.data (Msg.setEncodings 0 encs).wire)) demoEnv []]

/-- a client that wants to be told, not sent: it is told, asks, and gets the text -/
example : sysLog (joins [0, -1063131698] ++
    [.client 0 (.readable (.data (extClip 0 (fCaps + fText + fNotify + fProvide) [0, 0, 0, 1])))
        demoEnv [],
      .sendCutText some [104, 105],
      .client 0 (.readable (.data (extClip 0 (fRequest + fText) []))) demoEnv []]) 4 =
    [.offered [104, 105], .send .plain .clip (extClipOut (fNotify + fText) []),
      .clipMsg (fRequest + fText) [],
      .send .plain .clip (extClipOut (fProvide + fText) [0, 0, 0, 2, 104, 105, 0])] := by
  decide +kernel

/-- one that wants to be sent is sent -/
example : sysLog (joins [0, -1063131698] ++ [.sendCutText some [104, 105]]) 2 =
    [.offered [104, 105],
      .send .plain .clip (extClipOut (fProvide + fText) [0, 0, 0, 2, 104, 105, 0])] := by
  decide +kernel

/-- a text offered while nobody could ask for it is not kept, nor is the one before it -/
example : sysLog (joins [0, -1063131698] ++ [.sendCutText some [104, 105],
      .client 0 (.readable (.data (Msg.setEncodings 0 [0]).wire)) demoEnv [],
      .sendCutText some [106],
      .client 0 (.readable (.data (Msg.setEncodings 0 [0, -1063131698]).wire)) demoEnv [],
      .client 0 (.readable (.data (extClip 0 (fRequest + fText) []))) demoEnv []]) 1 =
    [.clipMsg (fRequest + fText) []] := by
  decide +kernel

/-- one that has never heard of all this gets the text -/
example : sysLog (joins [0] ++ [.sendCutText some [104, 105]]) 2 =
    [.offered [104, 105], .send .plain .cutText [3, 0, 0, 0, 0, 0, 0, 2, 104, 105]] := by
  decide +kernel

end Verif.System
