import Verif.Lemmas.Segmentation

/-!
# What a client says is understood, however the network cuts it up (C07, C10, C11, C12, C14)
-/

namespace Verif.Server

variable {table : List Nat}

theorem Calm.mid {s : St} (h : Calm s) (hn : s.net = []) : Mid s :=
  ⟨hn, h.ready, h.open_, h.pending, h.defer, h.alive, h.blocked, h.mustBlock⟩

theorem Calm.at {s : St} (h : Calm s) (ms : List Msg) : At s (ms.flatMap Msg.wire) ms := by
  refine .between h.cut (by rw [h.buf]; simp) ?_
  intro m _ _
  rw [h.buf]
  simp only [List.drop_nil, List.length_nil]
  exact ⟨wire_pos m, fun _ _ _ => by decide⟩

/-- C07: whatever sequence of well-formed messages is on its way, however it is cut into reads and
whatever happens in between (frames being finished, damage, new buffers, cursors, LED states), the
callbacks made are those of a prefix of the messages, in order and once each, with the settings of
that prefix in force; and when all bytes were read it is all of them.

Missing: fence requests, which may hold messages back (C20, C21); messages longer than the receive
buffer and incremental requests during continuous updates, which get stuck (C09); messages of the
extended clipboard (C16 to C18).  Runs in which the server has undefined behaviour or aborts are not
described; `c07_total` says that there are none among simple messages and
`c07_segmentation_violated` shows one. -/
theorem c07_segmentation_partial {x : Bool} {evs : List (Ev × Env)} {s s' : St} {ms : List Msg}
    {unread : Bytes} (hs : Calm s) (hn : s.net = []) (hev : ∀ p ∈ evs, p.1.benign ∧ p.2.experimental = x)
    (hms : ∀ m ∈ ms, m.Plain) (hst : NoStall s.cl.cont ms)
    (e : feed table evs s (ms.flatMap Msg.wire) = .ok (s', unread)) :
    ∃ done todo, ms = done ++ todo ∧ (unread = [] → todo = []) ∧
      callbacks s'.log = callbacks s.log ++ done.flatMap (Msg.calls table) ∧
      s'.cl.settings = done.foldl (Msg.apply x) s.cl.settings := by
  obtain ⟨done, todo, h1, h2, h3⟩ := feed_all evs s s' _ unread ms hev (hs.mid hn) hs.idx (hs.at ms)
    hst hms e
  refine ⟨done, todo, h1, ?_, h3.calls, h3.settings⟩
  rintro rfl
  cases h2 with
  | between hc hw hl =>
    cases todo with
    | nil => rfl
    | cons m ms' =>
      obtain ⟨h, -⟩ := hl m ms' rfl
      rw [List.append_nil, List.flatMap_cons] at hw
      rw [hw, List.length_append] at h
      omega
  | within p text y z ms hc ht hz hb hu =>
    exact absurd (List.append_eq_nil_iff.1 hu.symm).1 hz

/-- C07 for simple messages, without assuming anything about the run: as soon as there were as many
reads as bytes, of whatever sizes, everything has been received and every message has been handled,
in order and once. -/
theorem c07_total {x : Bool} {sizes : List (Nat × Env)} {s : St} {ms : List Msg}
    (hs : Calm s) (hn : s.net = []) (hx : ∀ p ∈ sizes, p.2.experimental = x)
    (hms : ∀ m ∈ ms, m.Fits ∧ m.Simple table)
    (hlen : (ms.flatMap Msg.wire).length ≤ sizes.length) :
    ∃ s', feed table (sizes.map fun p => (.read p.1, p.2)) s (ms.flatMap Msg.wire) = .ok (s', []) ∧
      callbacks s'.log = callbacks s.log ++ ms.flatMap (Msg.calls table) ∧
      s'.cl.settings = ms.foldl (Msg.apply x) s.cl.settings := by
  obtain ⟨s', u', h1, h2⟩ := feed_total sizes s _ ms (hs.mid hn) hs.idx (hs.at ms) hms
  have hu : u' = [] := List.length_eq_zero_iff.1 (by omega)
  subst hu
  obtain ⟨done, todo, g1, g2, g3, g4⟩ := c07_segmentation_partial hs hn (x := x) (by
      intro p hp
      obtain ⟨q, hq, rfl⟩ := List.mem_map.1 hp
      exact ⟨trivial, hx q hq⟩)
    (fun m hm => simple_plain (hms m hm).1 (hms m hm).2)
    (simple_noStall (fun m hm => (hms m hm).2) _) h1
  have := g2 rfl
  subst this
  rw [List.append_nil] at g1
  subst g1
  exact ⟨s', h1, g3, g4⟩

/-! ### An example: a session, three messages in pieces, a frame in between -/

/-- a client in session -/
def demoClient : St :=
  { srv := { requireAuth := false, requireEnc := false, hasAuthFn := false, hasTls := false,
             secTypes := [1], name := [], fb := some demoFb, cursorSeq := 0, provideMsg := none,
             nDamageClients := 0 }
    cl := { newClient with st := .ready, pix := demoFmt, knownW := 4, knownH := 3 }
    net := [], log := [] }

theorem demoClient_calm : Calm demoClient := ⟨rfl, rfl, rfl, rfl, rfl, rfl, rfl, rfl, rfl, rfl⟩

def demoMsgs : List Msg :=
  [.setEncodings 0 [16, -239], .fbRequest 0 ⟨0, 0, 4, 3⟩, .cutText 0 [104, 105], .key 1 0 65]

def demoEvs : List (Ev × Env) :=
  [(.read 2, demoEnv), (.read 17, demoEnv), (.other .cursor, demoEnv), (.read 12, demoEnv),
   (.read 0, demoEnv), (.read 5, demoEnv), (.other (.damage [⟨0, 0, 1, 1⟩]), demoEnv), (.read 99, demoEnv)]

example : (∀ m ∈ demoMsgs, m.Plain) ∧ NoStall demoClient.cl.cont demoMsgs ∧
    (∀ p ∈ demoEvs, p.1.benign ∧ p.2.experimental = false) ∧
    ∃ s', feed [0, 1, 2] demoEvs demoClient (demoMsgs.flatMap Msg.wire) = .ok (s', []) ∧
      callbacks s'.log = [.fbReq false 0 0 4 3, .cutText [104, 105], .key 65 true] ∧
      s'.cl.encodings = [16, -239] := by
  refine ⟨?_, ?_, ?_, ?_⟩
  · intro m hm
    simp only [demoMsgs, List.mem_cons, List.not_mem_nil, or_false] at hm
    rcases hm with rfl | rfl | rfl | rfl
    · exact ⟨⟨by decide, by decide⟩, fun _ _ _ h => (by cases h), fun _ => by decide⟩
    · exact ⟨⟨by decide, by decide, by decide, by decide⟩, fun _ _ _ h => (by cases h), fun _ => by decide⟩
    · exact ⟨by show 2 < 2147483648; decide, fun _ _ _ h => (by cases h), fun _ => by decide⟩
    · exact ⟨by show 65 < 4294967296; decide, fun _ _ _ h => (by cases h), fun _ => by decide⟩
  · exact ⟨by decide, trivial⟩
  · intro p hp
    simp only [demoEvs, List.mem_cons, List.not_mem_nil, or_false] at hp
    rcases hp with rfl | rfl | rfl | rfl | rfl | rfl | rfl | rfl <;> exact ⟨trivial, rfl⟩
  · have h : (match feed [0, 1, 2] demoEvs demoClient (demoMsgs.flatMap Msg.wire) with
      | .ok (s', u) => decide (u = [] ∧ callbacks s'.log =
          [.fbReq false 0 0 4 3, .cutText [104, 105], .key 65 true] ∧ s'.cl.encodings = [16, -239])
      | _ => false) = true := by decide +kernel
    split at h
    · rename_i s' u hs
      obtain ⟨rfl, h1, h2⟩ := of_decide_eq_true h
      exact ⟨s', hs, h1, h2⟩
    · cases h

/-- C07 is false for fences: the same nine bytes (a response with an empty payload) are fine in one
piece and make the server read past the received bytes when they are cut after the eighth -/
theorem c07_segmentation_violated :
    (∃ s', feed [] [(.read 8, demoEnv), (.read 8, demoEnv)] demoClient (Msg.fence 0 0 []).wire =
      .ok (s', [])) ∧
    feed [] [(.read 7, demoEnv), (.read 8, demoEnv)] demoClient (Msg.fence 0 0 []).wire =
      .ub "buffer_index beyond buffer_len" := by
  refine ⟨?_, by decide +kernel⟩
  have h : (match feed [] [(.read 8, demoEnv), (.read 8, demoEnv)] demoClient
      (Msg.fence 0 0 []).wire with | .ok (_, u) => decide (u = []) | _ => false) = true := by
    decide +kernel
  split at h
  · rename_i s' u hs
    rw [of_decide_eq_true h] at hs
    exact ⟨s', hs⟩
  · cases h

/-! ## C10, C11 -/

theorem qnumTable_length : qnumTable.length = 254 := by decide +kernel

/-- C10: any sequence of key and pointer events, cut in any way, results in exactly one call of the
right callback for each, with the fields that were sent.

Missing: QEMU key events whose code is outside of the table, see `c11_qemu_codes_violated`. -/
theorem c10_input_partial {sizes : List (Nat × Env)} {s : St} {ms : List Msg}
    (hs : Calm s) (hn : s.net = []) (hx : ∀ p ∈ sizes, ∀ q ∈ sizes, p.2.experimental = q.2.experimental)
    (hms : ∀ m ∈ ms, (∃ d p sym, sym < 4294967296 ∧ m = .key d p sym) ∨
      (∃ b x y, x < 65536 ∧ y < 65536 ∧ m = .pointer b x y) ∨
      (∃ d sym code, d < 65536 ∧ sym < 4294967296 ∧ code < qnumTable.length ∧ m = .qemuKey d sym code))
    (hlen : (ms.flatMap Msg.wire).length ≤ sizes.length) :
    ∃ s', feed qnumTable (sizes.map fun p => (.read p.1, p.2)) s (ms.flatMap Msg.wire) = .ok (s', []) ∧
      callbacks s'.log = callbacks s.log ++ ms.map fun
        | .key d _ sym => .key sym (d != 0)
        | .pointer b x y => .pointer x y b.toNat
        | .qemuKey d _ code =>
          .keyCode (if qnumTable.getD code 0 = 0 then code else qnumTable.getD code 0) (decide (d ≠ 0))
        | _ => .newClient := by
  have hsimple : ∀ m ∈ ms, m.Fits ∧ m.Simple qnumTable := by
    intro m hm
    rcases hms m hm with ⟨d, p, sym, h, rfl⟩ | ⟨b, x, y, h1, h2, rfl⟩ | ⟨d, sym, code, h1, h2, h3, rfl⟩
    · exact ⟨h, trivial⟩
    · exact ⟨⟨h1, h2⟩, trivial⟩
    · have h := h3
      rw [qnumTable_length] at h
      exact ⟨⟨h1, h2, by omega⟩, h3⟩
  obtain ⟨s', h1, h2, -⟩ := c07_total (table := qnumTable)
    (x := (sizes.head?.map (·.2.experimental)).getD false) hs hn (by
      intro p hp
      cases sizes with
      | nil => cases hp
      | cons q qs => exact hx p hp q (by simp)) hsimple hlen
  refine ⟨s', h1, h2.trans ?_⟩
  congr 1
  clear h1 h2 hlen hsimple
  induction ms with
  | nil => rfl
  | cons m ms ih =>
    rw [List.flatMap_cons, List.map_cons, ih (fun m hm => hms m (by simp [hm]))]
    rcases hms m (by simp) with ⟨d, p, sym, h, rfl⟩ | ⟨b, x, y, h1, h2, rfl⟩ | ⟨d, sym, code, h1, h2, h3, rfl⟩
    · rfl
    · rfl
    · simp only [Msg.calls, List.getElem?_eq_getElem h3, List.getD_eq_getElem?_getD, Option.getD_some]
      rfl

/-- two keys and a pointer motion, in reads of one byte -/
example : (∀ m ∈ [Msg.key 1 0 65, .pointer 3 10 20, .qemuKey 0 65 0x54],
    (∃ d p sym, sym < 4294967296 ∧ m = .key d p sym) ∨
      (∃ b x y, x < 65536 ∧ y < 65536 ∧ m = .pointer b x y) ∨
      (∃ d sym code, d < 65536 ∧ sym < 4294967296 ∧ code < qnumTable.length ∧ m = .qemuKey d sym code)) ∧
    ([Msg.key 1 0 65, .pointer 3 10 20, .qemuKey 0 65 0x54].flatMap Msg.wire).length ≤
      (List.replicate 30 (0, demoEnv)).length ∧ qnumTable.getD 0x54 0 = 99 := by
  refine ⟨?_, by decide +kernel, by decide +kernel⟩
  intro m hm
  simp only [List.mem_cons, List.not_mem_nil, or_false] at hm
  rcases hm with rfl | rfl | rfl
  · exact .inl ⟨_, _, _, by decide, rfl⟩
  · exact .inr (.inl ⟨_, _, _, by decide, by decide, rfl⟩)
  · exact .inr (.inr ⟨_, _, _, by decide, by decide, by decide +kernel, rfl⟩)

/-- C11, the codes for which it holds: a key event with a code inside of the table is reported with
the code the table gives, or the same code where the table has none.

Missing: all other codes, see `c11_qemu_codes_violated`. -/
theorem c11_qemu_codes_partial {env : Env} {s : St} (hr : s.cl.st = .ready) {d sym code : Nat}
    (hd : d < 65536) (hc : code < 254) (rest : Bytes) :
    ∃ v, qnumTable[code]? = some v ∧
    tryRead env qnumTable reenterInHandler s ((Msg.qemuKey d sym code).wire ++ rest) =
      .ok ({ s with log := s.log ++ [.keyCode (if v = 0 then code else v) (decide (d ≠ 0))] }, 12) := by
  have h : code < qnumTable.length := by rw [qnumTable_length]; exact hc
  exact ⟨_, List.getElem?_eq_getElem h, msg_qemuKey hr hd (by omega) (List.getElem?_eq_getElem h) rest⟩

example : qnumTable[0x54]? = some 99 ∧ (0x54 : Nat) < 254 := by decide +kernel

/-- C11 is false: for every code beyond the table the server reads memory outside of it
(server.c 1045 has no check) -/
theorem c11_qemu_codes_violated {env : Env} {s : St} (hr : s.cl.st = .ready) {d sym code : Nat}
    (hc : 254 ≤ code) (hc' : code < 4294967296) (rest : Bytes) :
    tryRead env qnumTable reenterInHandler s ((Msg.qemuKey d sym code).wire ++ rest) =
      .ub "code_map_qnum_to_linux read out of bounds" :=
  msg_qemuKey_out hr hc' (List.getElem?_eq_none (by rw [qnumTable_length]; exact hc)) rest

example : feed qnumTable [(.read 11, demoEnv)] demoClient (Msg.qemuKey 1 65 1000).wire =
    .ub "code_map_qnum_to_linux read out of bounds" := by decide +kernel

/-! ## C12 -/

/-- C12: a SetEncodings message replaces the client's list with the first 32 supported encodings in
the order sent, and the quality is that of the last quality pseudo-encoding (10, meaning lossless,
if there is none).

Missing: quality levels that come after 32 supported encodings, see `c12_encodings_violated`. -/
theorem c12_encodings_partial {env : Env} {s s' : St} (hr : s.cl.st = .ready) {p : UInt8}
    {es : List Int} {rest : Bytes} {n : Nat} (hf : (Msg.setEncodings p es).Fits)
    (e : tryRead env table reenterInHandler s ((Msg.setEncodings p es).wire ++ rest) = .ok (s', n)) :
    n = 4 + 4 * es.length ∧
    s'.cl.encodings = (es.filter fun e => decide (e ∈ supported env.experimental)).take 32 ∧
    ((es.filter fun e => decide (e ∈ supported env.experimental)).length < 32 →
      s'.cl.quality =
        ((es.filter fun e => decide (-32 ≤ e ∧ e ≤ -23)).getLast?.map (· + 32)).getD 10) := by
  rw [msg_setEncodings hr hf.1] at e
  have h1 := scan_encodings (x := env.experimental) es hf.2 [] 10 (by simp)
  have h2 := scan_quality (x := env.experimental) es hf.2 [] 10
  have hfl : es.filter (recognised env.experimental) =
      es.filter fun e => decide (e ∈ supported env.experimental) :=
    congrArg (List.filter · es) (funext (recognised_supported _))
  generalize scanEncodings env.experimental (es.flatMap wire32) [] 10 = sc at e h1 h2
  obtain ⟨encs, q⟩ := sc
  dsimp only at e
  obtain ⟨t, ht, e⟩ := Outcome.bind_eq_ok.1 e
  cases e
  have key : ∀ u : St, FlowFrame env u s' → s'.cl.encodings = u.cl.encodings ∧ s'.cl.quality = u.cl.quality := by
    intro u hu
    obtain ⟨_, _, _, _, _, _, _, _, _, _, _, _, _, _, _, _, _, _, _, _, h⟩ := hu.cl
    rw [h]; exact ⟨rfl, rfl⟩
  obtain ⟨k1, k2⟩ := key _ (sendPing_flow ht)
  have hcl : ∀ u : St, (if hasEnc u.cl encExtClipboard = true then sendClipCaps u else u).cl = u.cl := by
    intro u; split
    · unfold sendClipCaps; simp
    · rfl
  have hnc : ∀ u : St, (notifyCont u).cl.encodings = u.cl.encodings ∧
      (notifyCont u).cl.quality = u.cl.quality := by
    intro u; unfold notifyCont; split
    · simp only [send_cl]; exact ⟨rfl, rfl⟩
    · exact ⟨rfl, rfl⟩
  rw [hcl, (hnc _).1] at k1
  rw [hcl, (hnc _).2] at k2
  refine ⟨rfl, ?_, ?_⟩
  · rw [k1, ← hfl]
    simpa [maxEncodings] using h1
  · intro hlt
    rw [k2]
    have := h2 (by rw [hfl]; simpa [maxEncodings] using hlt)
    simp only [Bool.decide_and]
    exact this

/-- ZRLE before tight, an unknown encoding, two quality levels -/
example : (Msg.setEncodings 0 [16, 4242, 7, -32, -25]).Fits ∧
    (match feed [] [(.read 99, demoEnv)] demoClient (Msg.setEncodings 0 [16, 4242, 7, -32, -25]).wire with
    | .ok (s', []) => decide (s'.cl.encodings = [16, 7] ∧ s'.cl.quality = 7)
    | _ => false) = true := ⟨⟨by decide, by decide⟩, by decide +kernel⟩

/-- C12 is false: behind 32 supported encodings a quality level has no effect, because the scan
ends when the list is full (server.c 634) -/
theorem c12_encodings_violated :
    (match feed [] [(.read 199, demoEnv)] demoClient
        (Msg.setEncodings 0 (List.replicate 32 0 ++ [-23])).wire with
    | .ok (s', u) => decide (u = [] ∧ s'.cl.encodings = List.replicate 32 0 ∧ s'.cl.quality = 10)
    | _ => false) = true := by decide +kernel

/-! ## C14 -/

/-- C14, the part that holds: a cut text of at most 10000000 bytes, whatever its content and however
it is cut into reads, results in exactly one callback with exactly its bytes.

Missing: longer texts, see `c14_cut_text_violated`. -/
theorem c14_cut_text_partial {x : Bool} {sizes : List (Nat × Env)} {s : St} {p : UInt8} {text : Bytes}
    (hs : Calm s) (hn : s.net = []) (hx : ∀ q ∈ sizes, q.2.experimental = x)
    (hl : text.length ≤ 10000000) (hlen : 8 + text.length ≤ sizes.length) :
    ∃ s', feed table (sizes.map fun p => (.read p.1, p.2)) s (Msg.cutText p text).wire = .ok (s', []) ∧
      callbacks s'.log = callbacks s.log ++ [.cutText text] := by
  have hw : [Msg.cutText p text].flatMap Msg.wire = (Msg.cutText p text).wire := by simp
  obtain ⟨s', h1, h2, -⟩ := c07_total (table := table) (ms := [.cutText p text]) hs hn hx
    (by
      intro m hm
      rw [List.mem_singleton] at hm
      subst hm
      exact ⟨show text.length < 2147483648 by omega, hl⟩)
    (by rw [hw]; simp only [Msg.wire, List.length_append]; simp; omega)
  rw [hw] at h1
  exact ⟨s', h1, h2⟩

example : Calm demoClient ∧ (∀ q ∈ List.replicate 50 (3, demoEnv), q.2.experimental = false) ∧
    8 + ("clipboard".toUTF8.toList).length ≤ (List.replicate 50 (3, demoEnv)).length :=
  ⟨demoClient_calm, fun q hq => by rw [List.eq_of_mem_replicate hq]; rfl, by decide +kernel⟩

/-- C14 is false for longer texts: the server closes the client in the handler and goes on using it
(server.c 1367 returns to the loop of on_client_event, which does not notice) -/
theorem c14_cut_text_violated {env : Env} {s : St} (hr : s.cl.st = .ready) {p : UInt8} {text : Bytes}
    (hl : 10000000 < text.length) (hl' : text.length < 2147483648) (rest : Bytes) :
    tryRead env table reenterInHandler s ((Msg.cutText p text).wire ++ rest) =
      .ub "client used after nvnc_client_close" := msg_cutText_long hr hl' hl rest

/-- the header is enough -/
example : feed [] [(.read 99, demoEnv)] demoClient ([6, 0, 0, 0] ++ be32 10000001) =
    .ub "client used after nvnc_client_close" := by decide +kernel

/-- C07 is false for fence responses with fewer than 8 bytes of payload: on_fence_response reads 8 bytes in any case
(server.c 1793-1800), so what follows counts as the time and the size of a frame.  Whether the number of bytes that are
on their way changes depends on what else was in the same read. -/
theorem c07_short_response_violated :
    (match feed [] [(.read 99, { demoEnv with now := 67174400 })] demoClient
        ((Msg.fence 0 0 []).wire ++ (Msg.key 1 0 65).wire),
      feed [] [(.read 8, { demoEnv with now := 67174400 }), (.read 99, { demoEnv with now := 67174400 })] demoClient
        ((Msg.fence 0 0 []).wire ++ (Msg.key 1 0 65).wire) with
    | .ok (s, u), .ok (s', u') => decide (u = [] ∧ u' = [] ∧ s.cl.inflight = -65 ∧ s'.cl.inflight = 0)
    | _, _ => false) = true := by decide +kernel

end Verif.Server
