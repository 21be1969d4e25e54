import Verif.Lemmas.WsStream
import Verif.Props.Http
import Verif.Props.Ws

/-! # Properties of WebSocket streams (C104) -/

namespace Verif.WsStream

/-- C104.  Nothing is written before the client's request is complete, whatever is sent, read and closed. -/
theorem c104_nothing_early (sha1 : Bytes → Bytes) (t : Nat) (hist : List Op) (s : State) (out : Bytes)
    (h : run sha1 t fresh hist = .ok (s, out)) (hr : s.ready = false) : s.tcp.wire = [] :=
  ((run_good (fresh_good sha1 False) nofun h).early hr).1

/-- C104.  A client that reads frames as RFC 6455 has them finds, in any piece of what the server may write,
a piece of what it meant, and all of it once all has arrived. -/
theorem c104_reader (ms : List (Nat × Bytes)) (w : Bytes) (hm : ∀ m ∈ ms, m.1 < 16 ∧ m.2.length < 2 ^ 64)
    (h : w <+: bytesOf ms) : received w <+: ms ∧ (w = bytesOf ms → received w = ms) :=
  readAll_spec ms w.length w hm h (Nat.le_refl _)

example : received (bytesOf [(2, [1, 2, 3]), (10, []), (2, List.replicate 200 7)]) =
    [(2, [1, 2, 3]), (10, []), (2, List.replicate 200 7)] ∧
    received ((bytesOf [(2, [1, 2, 3]), (2, [4, 5])]).take 8) = [(2, [1, 2, 3])] := by decide +kernel

/-- C104, partly.  After the reply to the request, which says what C61 says, come whole frames: the messages that
were handed to the stream, in order, those of callbacks among them, and the answers to pings.  Nothing is missing
from the wire of an open stream whose queue is empty.  Missing: histories in which a callback sends while the
header of a frame is being written, and answers to pings that arrived in pieces, for which this is false. -/
theorem c104_framed_partial (sha1 : Bytes → Bytes) (t : Nat) (hist : List Op) (s : State) (out : Bytes)
    (h : run sha1 t fresh hist = .ok (s, out)) (hr : s.ready = true) (hm : s.mixed = false)
    (hp : ∀ p ∈ s.pongs, WholePong p) :
    ∃ input n reply fs ms, Http.handshake sha1 255 input = some (.ok (some (n, reply))) ∧ AllSeen fs ms ∧
      s.tcp.wire <+: reply ++ bytesOf ms ∧
      (s.tcp.closed = false → (hist.flatMap Op.frame).Sublist (fs.filter Frame.user) ∧
        (s.tcp.queue = [] → s.tcp.wire = reply ++ bytesOf ms)) := by
  obtain ⟨input, n, reply, fs, ms, h1, h2, h3, h4⟩ := (run_good (fresh_good sha1 False) nofun h).wire hr hm hp
  exact ⟨input, n, reply, fs, ms, h1, h2, h3, fun ho => ⟨(h4 ho).1, (h4 ho).2.2⟩⟩

/-- C104, partly.  If callbacks send nothing and pings arrive whole, then once everything is written the client
has received exactly the messages that were handed to the stream, in order.  Missing: as above. -/
theorem c104_received_partial (sha1 : Bytes → Bytes) (t : Nat) (hist : List Op) (s : State) (out : Bytes)
    (h : run sha1 t fresh hist = .ok (s, out)) (hq : ∀ o ∈ hist, o.Quiet) (hr : s.ready = true)
    (hp : ∀ p ∈ s.pongs, WholePong p) (ho : s.tcp.closed = false) (he : s.tcp.queue = [])
    (hl : s.tcp.wire.length < 2 ^ 64) :
    ∃ input n reply rest, Http.handshake sha1 255 input = some (.ok (some (n, reply))) ∧
      s.tcp.wire = reply ++ rest ∧ AllSeen (hist.flatMap Op.frame) (messages (received rest)) := by
  have hg := run_good (fresh_good sha1 True) (fun _ => hq) h
  obtain ⟨input, n, reply, fs, ms, h1, h2, h3, h4⟩ := hg.wire hr (hg.pure trivial) hp
  obtain ⟨_, h5, h6⟩ := h4 ho
  have hw := h6 he
  have hlen : ∀ m ∈ ms, m.1 < 16 ∧ m.2.length < 2 ^ 64 := by
    intro m hm
    refine ⟨h2.ops m hm, ?_⟩
    have := bytesOf_length ms m hm
    have := congrArg List.length hw
    simp only [List.length_append] at this
    omega
  refine ⟨input, n, reply, bytesOf ms, h1, hw, ?_⟩
  rw [(c104_reader ms (bytesOf ms) hlen (List.prefix_refl _)).2 rfl]
  have := h2.users
  rw [h5 trivial] at this
  exact this

/-- C104.  Without callbacks that send, nothing ever comes between a header and its payload. -/
theorem c104_quiet (sha1 : Bytes → Bytes) (t : Nat) (hist : List Op) (s : State) (out : Bytes)
    (h : run sha1 t fresh hist = .ok (s, out)) (hq : ∀ o ∈ hist, o.Quiet) : s.mixed = false :=
  (run_good (fresh_good sha1 True) (fun _ => hq) h).pure trivial

/-! ## Input -/

theorem lastValue_none {name : Bytes} {fs : List (Bytes × Bytes)} (h : ∀ f ∈ fs, Http.caseEq f.1 name = false) :
    Http.lastValue name fs = none := by
  unfold Http.lastValue
  rw [List.filter_eq_nil_iff.2 (fun f hf => by simp [h f hf])]
  rfl

/-- as long as the key is missing, the handshake waits -/
theorem waits (sha1 : Bytes → Bytes) (x : Bytes) (h : Pending x) : Http.handshake sha1 255 x = some (.ok none) := by
  obtain ⟨hc, hk⟩ := h
  have hfld : ∀ r n, Http.parse x = some (.ok (some (r, n))) → ∀ f ∈ r.fields, HeaderLine x f.1 f.2 := by
    intro r n e f hf
    obtain ⟨b, hb, hv, hi⟩ := (Http.c32_sound x r n e).2.2 f hf
    exact ⟨b, fun c hc => by simpa [Http.isBlank] using hb c hc, hv, hi⟩
  unfold Http.handshake
  rcases Http.parse_cases x with ⟨w, e, hw⟩ | e | ⟨r, n, e, _⟩
  · have : Http.fieldMax = 32 := rfl
    omega
  · rw [e]; rfl
  · rw [e]
    simp only [Option.bind_eq_bind, Option.bind_some]
    obtain ⟨⟨c, p, v⟩, es⟩ := Http.scanFields_ok (fuel := 255) (by omega) r.fields none [44] [44]
      (fun f hf hl => (hk f.1 f.2 (hfld r n e f hf)).2 hl) (by decide) (by decide)
    have hcn := Http.scanFields_challenge _ _ _ _ _ es
    rw [lastValue_none fun f hf => (hk f.1 f.2 (hfld r n e f hf)).1] at hcn
    simp only [Option.or_none] at hcn
    subst hcn
    rw [es]
    rfl

theorem Pending.of_prefix {x y : Bytes} (h : Pending y) (hp : x <+: y) : Pending x := by
  refine ⟨?_, fun k v ⟨b, h1, h2, h3⟩ => h.2 k v ⟨b, h1, h2, h3.trans hp.isInfix⟩⟩
  have := hp.sublist.count_le (58 : UInt8)
  have := h.1
  omega

/-- reads, one for each piece that arrives -/
def reads (eagain : Bool) (ks : Nat → Tcp.Kernel) (ps : List Bytes) : List Op :=
  ps.map fun p => .read (.data p) Ws.bufSize eagain ks

theorem reads_wait (sha1 : Bytes → Bytes) (eagain : Bool) (ks : Nat → Tcp.Kernel) : ∀ (ps : List Bytes) (t : Nat) (s : State) (x : Bytes)
    (os : List Op), Ws.Rel s.rd {} x → s.ready = false → s.tcp.closed = false → (∀ p ∈ ps, p ≠ []) →
    (x ++ ps.flatten).length < Ws.bufSize → (0 : UInt8) ∉ x ++ ps.flatten → Pending (x ++ ps.flatten) →
    ∃ s', run sha1 t s (reads eagain ks ps ++ os) = run sha1 (t + ps.length) s' os ∧ Ws.Rel s'.rd {} (x ++ ps.flatten) ∧
      s'.ready = false ∧ s'.tcp = s.tcp := by
  intro ps
  induction ps with
  | nil => intro t s x os h hr _ _ _ _ _; exact ⟨s, by simp [reads], by simpa using h, hr, rfl⟩
  | cons p ps ih =>
    intro t s x os h hr ho hne hl hz hp
    simp only [List.flatten_cons] at hl hz hp ⊢
    rw [← List.append_assoc] at hl hz hp ⊢
    obtain ⟨s1, h1, h2, h3, h4⟩ := read_wait sha1 eagain t ks p Ws.bufSize h hr ho (hne p (by simp))
      (by simp only [List.length_append] at hl; omega) (fun hc => hz (by simp only [List.mem_append] at hc ⊢; exact .inl hc))
      (waits sha1 _ (hp.of_prefix ⟨_, rfl⟩))
    obtain ⟨s2, k1, k2, k3, k4⟩ := ih (t + 1) s1 (x ++ p) os h2 h3 (by rw [h4]; exact ho) (fun q hq => hne q (by simp [hq])) hl hz hp
    refine ⟨s2, ?_, k2, k3, by rw [k4, h4]⟩
    simp only [reads, List.map_cons, List.cons_append, run, step, h1, Outcome.bind_ok]
    rw [show List.map (fun p => Op.read (.data p) Ws.bufSize eagain ks) ps = reads eagain ks ps from rfl, k1]
    rw [show t + 1 + ps.length = t + (p :: ps).length by simp; omega]
    cases run sha1 (t + (p :: ps).length) s2 os <;> rfl

theorem reads_frames (sha1 : Bytes → Bytes) (eagain : Bool) (ks : Nat → Tcp.Kernel) : ∀ (segs : List Bytes) (t : Nat) (s : State) (d : Ws.DecState),
    Ws.Between s.rd d → s.ready = true → s.tcp.closed = false → (∀ p ∈ segs, p ≠ [] ∧ p.length < Ws.bufSize) → Ws.FineCuts d segs →
    ∃ s', run sha1 t s (reads eagain ks segs) = .ok (s', (Ws.decRun d segs.flatten).2) ∧ s'.ready = true ∧ s'.tcp = s.tcp := by
  intro segs
  induction segs with
  | nil => intro t s d _ hr _ _ _; exact ⟨s, rfl, hr, rfl⟩
  | cons p ps ih =>
    intro t s d h hr ho hne hc
    obtain ⟨s1, h1, h2, h3, h4⟩ := read_frames sha1 eagain t ks p Ws.bufSize h hr ho (hne p (by simp)).1 (hne p (by simp)).2
      (Nat.le_refl _) hc.1
    obtain ⟨s2, k1, k2, k3⟩ := ih (t + 1) s1 _ h2 h4 (by rw [h3]; exact ho) (fun q hq => hne q (by simp [hq])) hc.2
    refine ⟨s2, ?_, k2, by rw [k3, h3]⟩
    simp only [reads, List.map_cons, run, step, h1, Outcome.bind_ok]
    rw [show List.map (fun p => Op.read (.data p) Ws.bufSize eagain ks) ps = reads eagain ks ps from rfl, k1]
    simp [Ws.decRun_append]

/-- C104, partly.  A client sends a request and then frames.  The request may arrive in pieces, and frames may
follow it in its last piece.  If none but the last piece completes the line with the key, then the layer above
gets what the frames contain, and the client gets the reply of C61.  Missing: requests that are cut behind the
key, for which this is false; longer and other requests (C32, C33, C61); frames that C30 does not cover. -/
theorem c104_input_partial (sha1 : Bytes → Bytes) (hsha : ∀ x, (sha1 x).length = 20) (path : Bytes)
    (fields : List (Bytes × Bytes)) (hpath : Http.PathOk path)
    (hf : ∀ f ∈ fields, Http.FieldOk f ∧ Http.isContent f.1 = false ∧
      Http.caseEq f.1 (Http.lit "Sec-WebSocket-Protocol") = false ∧
      (Http.caseEq f.1 (Http.lit "Sec-WebSocket-Version") = true → f.2 = Http.lit "13"))
    (hv : (fields.filter fun f => Http.caseEq f.1 (Http.lit "Sec-WebSocket-Version")).length ≤ 1) (hn : fields.length ≤ 32) (ch : Bytes) (hk : Http.lastValue (Http.lit "Sec-WebSocket-Key") fields = some ch)
    (hz : (0 : UInt8) ∉ Http.render path fields)
    (pieces : List Bytes) (last tail : Bytes) (segs : List Bytes)
    (hsum : pieces.flatten ++ last = Http.render path fields ++ tail) (hlen : (Http.render path fields ++ tail).length < 4096)
    (hne : ∀ p ∈ pieces, p ≠ []) (hlast : tail.length < last.length) (hpend : Pending pieces.flatten)
    (hsegs : ∀ p ∈ segs, p ≠ [] ∧ p.length < 4096) (hcuts : Ws.FineCuts {} (tail :: segs))
    (t : Nat) (eagain : Bool) (ks : Nat → Tcp.Kernel) (hks : ks 0 ≠ .epipe) :
    ∃ acc s, Base64.IsBase64 (sha1 (ch ++ Http.lit "258EAFA5-E914-47DA-95CA-C5AB0DC85B11")) acc ∧
      run sha1 t fresh (reads eagain ks (pieces ++ last :: segs)) = .ok (s, (Ws.decRun {} (tail ++ segs.flatten)).2) ∧
      s.ready = true ∧ s.tcp.closed = false ∧
      s.tcp.wire ++ s.tcp.queue.flatMap (Tcp.Req.bytesAt 0) =
        Http.lit "HTTP/1.1 101 Switching Protocols\r\nUpgrade: websocket\r\nConnection: Upgrade\r\nSec-WebSocket-Accept: " ++
        acc ++ Http.lit "\r\n" ++
        (if fields.any fun f => Http.caseEq f.1 (Http.lit "Sec-WebSocket-Version") then Http.lit "Sec-WebSocket-Version: 13\r\n"
          else []) ++ Http.lit "\r\n" := by
  have hbs : Ws.bufSize = 4096 := rfl
  have hrl : pieces.flatten.length + last.length = (Http.render path fields).length + tail.length := by
    rw [← List.length_append, hsum, List.length_append]
  have hlen' : (Http.render path fields).length + tail.length < 4096 := by simpa using hlen
  have hpre : pieces.flatten <+: Http.render path fields :=
    List.prefix_of_prefix_length_le (hsum ▸ List.prefix_append _ _) (List.prefix_append _ _) (by omega)
  have hz0 : (0 : UInt8) ∉ pieces.flatten := fun hc => hz (hpre.subset hc)
  have hrel0 : Ws.Rel fresh.rd {} [] :=
    ⟨by simp [fresh], rfl, by simp [fresh], by simp [fresh], rfl, by simp, by simp [fresh]⟩
  obtain ⟨s1, h1, h2, h3, h4⟩ := reads_wait sha1 eagain ks pieces t fresh [] (reads eagain ks (last :: segs)) hrel0 rfl rfl hne
    (by simp only [List.nil_append]; omega) (by simpa using hz0) (by simpa using hpend)
  rw [List.nil_append] at h2
  have htw : (pieces.flatten ++ last).takeWhile (fun c => c != 0) = Http.render path fields ++ tail.takeWhile (fun c => c != 0) := by
    rw [hsum]
    have gen : ∀ l m : Bytes, (0 : UInt8) ∉ l → (l ++ m).takeWhile (fun c => c != 0) = l ++ m.takeWhile (fun c => c != 0) := by
      intro l m
      induction l with
      | nil => intro _; rfl
      | cons c l ih =>
        intro h
        simp only [List.mem_cons, not_or] at h
        rw [List.cons_append, List.takeWhile_cons, if_pos (by simpa using fun e => h.1 e.symm), ih h.2]; rfl
    exact gen _ _ hz
  obtain ⟨acc, a1, a2⟩ := Http.c61_browsers sha1 hsha path fields (tail.takeWhile (fun c => c != 0)) hpath hf hv hn ch hk 255 (by omega)
  have hdrop : (pieces.flatten ++ last).drop (Http.render path fields).length = tail := by rw [hsum]; simp
  obtain ⟨s2, ret, k1, k2, k3, k4, k5⟩ := read_done sha1 eagain (t + pieces.length) ks last Ws.bufSize _ _ h2 h3 h4
    (by intro hc; simp [hc] at hlast) (by omega) (Nat.le_refl _) hks (by rw [htw]; exact a2) (by rw [hsum]; simp)
    (by rw [hdrop]; exact hcuts.1)
  rw [hdrop] at k1 k2
  obtain ⟨s3, m1, m2, m3⟩ := reads_frames sha1 eagain ks segs (t + pieces.length + 1) s2 _ k2 k3 k4
    (fun p hp => by have := hsegs p hp; exact ⟨this.1, by omega⟩) hcuts.2
  refine ⟨acc, s3, a1, ?_, m2, by rw [m3]; exact k4, by rw [m3]; exact k5⟩
  have e : reads eagain ks (pieces ++ last :: segs) = reads eagain ks pieces ++ reads eagain ks (last :: segs) := by simp [reads]
  rw [e, h1]
  simp only [reads, List.map_cons, run, step, k1, Outcome.bind_ok]
  rw [show List.map (fun p => Op.read (.data p) Ws.bufSize eagain ks) segs = reads eagain ks segs from rfl, m1]
  simp [Ws.decRun_append]

/-! ## Witnesses -/

/-- what can be seen of a stream -/
structure Seen where
  ready : Bool
  closed : Bool
  /-- a frame was broken up -/
  mixed : Bool
  /-- what was delivered -/
  out : Bytes
  /-- how much is queued -/
  queued : Nat
  /-- what was written behind the reply -/
  wire : Bytes
  deriving DecidableEq

/-- the reply to the request below, with a hash of zeroes -/
def demoReply : Bytes := Http.replyText (Http.lit "AAAAAAAAAAAAAAAAAAAAAAAAAAA=") false true

def look (r : Outcome (State × Bytes)) : Option Seen :=
  match r with
  | .ok (s, out) => some ⟨s.ready, s.tcp.closed, s.mixed, out, s.tcp.queue.length, s.tcp.wire.drop demoReply.length⟩
  | _ => none

def zeroes : Bytes → Bytes := fun _ => List.replicate 20 0

/-- a request as browsers send it -/
def demoFields : List (Bytes × Bytes) :=
  [(Http.lit "Host", Http.lit "box"), (Http.lit "Sec-WebSocket-Version", Http.lit "13"), (Http.lit "Sec-WebSocket-Key", Http.lit "abc")]

def demoRequest : Bytes := Http.render (Http.lit "ws") demoFields

/-- the kernel takes everything -/
def takes : Tcp.Kernel := .sent 100000

def demoRead (b : Bytes) : Op := .read (.data b) Ws.bufSize true fun _ => takes

/-- a masked frame from a client -/
def masked (op : Nat) (d : Bytes) : Bytes := [UInt8.ofNat (128 + op), UInt8.ofNat (128 + d.length), 0, 0, 0, 0] ++ d

/-- C104, the hypotheses are met: messages wait for the request, a ping is answered, input is delivered. -/
theorem c104_witness :
    look (run zeroes 0 fresh [.send [1] .stop takes takes, .exec (fun t => [UInt8.ofNat t, 7]) takes, demoRead (demoRequest.take 30)]) =
      some ⟨false, false, false, [], 3, []⟩ ∧
    look (run zeroes 0 fresh [.send [1] .stop takes takes, .exec (fun t => [UInt8.ofNat t, 7]) takes, demoRead (demoRequest.take 30),
      demoRead (demoRequest.drop 30 ++ masked 2 [5]), demoRead (masked 9 [65, 66]), .send [2, 3] .stop .again (.sent 3),
      demoRead (masked 2 [6]), .writable takes]) =
      some ⟨true, false, false, [5, 6], 0, bytesOf [(2, [1]), (2, [3, 7]), (10, [65, 66]), (2, [2, 3])]⟩ := by
  decide +kernel

theorem of_look {r : Outcome (State × Bytes)} {ready closed mixed : Bool} {out : Bytes} {n : Nat} {w : Bytes}
    (h : look r = some ⟨ready, closed, mixed, out, n, w⟩) : ∃ s, r = .ok (s, out) ∧ s.ready = ready ∧ s.tcp.closed = closed ∧
      s.mixed = mixed ∧ s.tcp.queue.length = n ∧ s.tcp.wire.drop demoReply.length = w := by
  match r, h with
  | .ok (s, out'), h =>
    simp only [look, Option.some.injEq, Seen.mk.injEq] at h
    obtain ⟨h1, h2, h3, h4, h5, h6⟩ := h
    exact ⟨s, by rw [h4], h1, h2, h3, h5, h6⟩

/-- C104 is violated when a completion callback sends.  The stream wrote the header of a frame, completed the
message before it, and that message's callback sent a third: the client receives a message that nobody sent, and
never gets the second. -/
theorem c104_interleaved_violated :
    ∃ s, run zeroes 0 fresh [demoRead demoRequest, .send [1] (.send [9] .stop .stop) .again .again,
        .send [2] .stop takes takes] = .ok (s, []) ∧ s.ready = true ∧ s.tcp.closed = false ∧ s.tcp.queue = [] ∧
      received (s.tcp.wire.drop demoReply.length) = [(2, [1]), (2, [130])] := by
  obtain ⟨s, h1, h2, h3, h4, h5, h6⟩ := of_look (show look (run zeroes 0 fresh [demoRead demoRequest,
    .send [1] (.send [9] .stop .stop) .again .again, .send [2] .stop takes takes]) =
      some ⟨true, false, true, [], 0, [130, 1, 1, 130, 1, 130, 1, 9, 2]⟩ by decide +kernel)
  exact ⟨s, h1, h2, h3, List.length_eq_zero_iff.1 h5, by rw [h6]; decide +kernel⟩

/-- C104 is violated when a function's message does not fit into the socket: the second attempt calls the function
on memory that the first freed. -/
theorem c104_retry_violated : run zeroes 0 fresh [demoRead demoRequest, .exec (fun _ => [1, 2, 3]) .again, .writable takes] =
    .ub "stream_ws_chained_exec: userdata used after free" := by
  have h : (match run zeroes 0 fresh [demoRead demoRequest, .exec (fun _ => [1, 2, 3]) .again, .writable takes] with
    | .ub w => some w
    | _ => none) = some "stream_ws_chained_exec: userdata used after free" := by decide +kernel
  revert h
  cases run zeroes 0 fresh [demoRead demoRequest, .exec (fun _ => [1, 2, 3]) .again, .writable takes] <;> simp

theorem evalReqs_exec (now : Nat) (f : Nat → Bytes) (id : Nat) (cb : Tcp.Reaction) : ∀ (n : Nat) (q : List Tcp.Req), q.length < n →
    ⟨id, .exec f (some (f now)), cb⟩ ∈ (Tcp.evalReqs now n (q ++ [⟨id, .exec f none, cb⟩])).take n := by
  intro n
  induction n with
  | zero => intro q h; omega
  | succ n ih =>
    intro q h
    cases q with
    | nil => simp [Tcp.evalReqs]
    | cons r q =>
      rw [List.cons_append, Tcp.evalReqs, List.take_succ_cons]
      exact List.mem_cons_of_mem _ (ih q (Nat.lt_of_succ_lt_succ h))

/-- C104 is violated whenever a function's message meets a full socket: whatever the state of an open stream whose
handshake is done, the next thing that is sent, and the socket's becoming writable, calls the function on memory
that the first attempt freed, unless 1024 requests are before it. -/
theorem c104_full_socket_violated (sha1 : Bytes → Bytes) (t : Nat) (s : State) (ho : s.tcp.closed = false)
    (hc : s.tcp.cork = false) (hq : s.tcp.queue.length < 1024) (hn : retries s.tcp.queue = false) (f : Nat → Bytes) :
    (∃ s', run sha1 t s [.exec f .again] = .ok (s', [])) ∧
    ∀ o : Op, (match o with | .send .. | .exec .. | .writable _ => True | _ => False) →
      run sha1 t s [.exec f .again, o] = .ub "stream_ws_chained_exec: userdata used after free" := by
  have h1 : tcpStep s.tcp (.exec (chained f)) .again t = .ok { Tcp.enqueue s.tcp (.exec (chained f)) .stop with
      queue := Tcp.evalReqs t Tcp.iovMax (Tcp.enqueue s.tcp (.exec (chained f)) .stop).queue, pollW := true } := by
    unfold tcpStep
    rw [hn, Bool.and_false, if_neg Bool.false_ne_true]
    unfold Tcp.step
    simp only [ho, Bool.false_eq_true, if_false]
    unfold Tcp.flush
    rw [if_neg (by show ¬ s.tcp.cork = true; rw [hc]; exact Bool.false_ne_true), if_neg]
    have := evalReqs_exec t (chained f) s.tcp.accepted.length .stop Tcp.iovMax s.tcp.queue hq
    intro he
    rw [List.isEmpty_iff] at he
    unfold Tcp.enqueue at he
    simp only at he
    rw [he] at this
    simp at this
  refine ⟨⟨_, by simp only [run, step, h1, Outcome.bind_ok]; rfl⟩, fun o hop => ?_⟩
  have hr : retries (Tcp.evalReqs t Tcp.iovMax (Tcp.enqueue s.tcp (.exec (chained f)) .stop).queue) = true :=
    List.any_eq_true.mpr ⟨_, evalReqs_exec t (chained f) s.tcp.accepted.length .stop Tcp.iovMax s.tcp.queue hq, rfl⟩
  have hu : ∀ (op : Tcp.Op) k, (match op with | .send .. | .exec _ | .writable => True | _ => False) →
      tcpStep { Tcp.enqueue s.tcp (.exec (chained f)) .stop with
        queue := Tcp.evalReqs t Tcp.iovMax (Tcp.enqueue s.tcp (.exec (chained f)) .stop).queue, pollW := true } op k (t + 1) =
        .ub "stream_ws_chained_exec: userdata used after free" := by
    intro op k h
    unfold tcpStep
    rw [hr]
    cases op <;> simp only at h <;> simp [flushes, Tcp.enqueue, ho, hc]
  cases o <;> simp only at hop <;>
    simp only [run, step, h1, Outcome.bind_ok] <;>
    rw [hu _ _ trivial] <;> rfl

/-- an open stream whose handshake is done -/
example : ∃ s out, run zeroes 0 fresh [demoRead demoRequest] = .ok (s, out) ∧ s.tcp.closed = false ∧ s.tcp.cork = false ∧
    s.tcp.queue = [] := by
  have h : (match run zeroes 0 fresh [demoRead demoRequest] with
    | .ok (s, _) => some (s.tcp.closed, s.tcp.cork, s.tcp.queue.length)
    | _ => none) = some (false, false, 0) := by decide +kernel
  revert h
  cases e : run zeroes 0 fresh [demoRead demoRequest] with
  | ok r =>
    intro h
    simp only [Option.some.injEq, Prod.mk.injEq] at h
    exact ⟨r.1, r.2, rfl, h.1, h.2.1, List.length_eq_zero_iff.1 h.2.2⟩
  | _ => intro h; exact nomatch h

/-- C104 is violated when a ping arrives in pieces: its answer contains an old byte of the buffer, the rest of the
ping is sent behind it without a header, and the client cannot read the messages that follow. -/
theorem c104_split_ping_violated :
    ∃ s, run zeroes 0 fresh [demoRead demoRequest, demoRead ((masked 9 [65, 66]).take 7), demoRead ((masked 9 [65, 66]).drop 7),
        .send [1] .stop takes takes] = .ok (s, []) ∧ s.ready = true ∧ s.tcp.closed = false ∧ s.tcp.queue = [] ∧
      received (s.tcp.wire.drop demoReply.length) = [(10, [65, 32])] := by
  obtain ⟨s, h1, h2, h3, h4, h5, h6⟩ := of_look (show look (run zeroes 0 fresh [demoRead demoRequest,
    demoRead ((masked 9 [65, 66]).take 7), demoRead ((masked 9 [65, 66]).drop 7), .send [1] .stop takes takes]) =
      some ⟨true, false, false, [], 0, [138, 2, 65, 32, 66, 130, 1, 1]⟩ by decide +kernel)
  exact ⟨s, h1, h2, h3, List.length_eq_zero_iff.1 h5, by rw [h6]; decide +kernel⟩

/-- C104 is violated when the request arrives in pieces and the first ends with the key: the stream answers it and
takes the end of the request for a frame, so that what the client sends next is lost. -/
theorem c104_cut_violated :
    ∃ s, run zeroes 0 fresh [demoRead (demoRequest.take (demoRequest.length - 2)), demoRead (demoRequest.drop (demoRequest.length - 2)),
        demoRead (masked 2 [5])] = .ok (s, []) ∧ s.ready = true := by
  obtain ⟨s, h1, h2, -⟩ := of_look (show look (run zeroes 0 fresh [demoRead (demoRequest.take (demoRequest.length - 2)),
    demoRead (demoRequest.drop (demoRequest.length - 2)), demoRead (masked 2 [5])]) = some ⟨true, false, false, [], 0, []⟩ by decide +kernel)
  exact ⟨s, h1, h2⟩

/-- C104, the hypotheses on input are met by a request as browsers send it, in two pieces, with frames behind it. -/
example : ∃ acc s, Base64.IsBase64 (zeroes (Http.lit "abc" ++ Http.lit "258EAFA5-E914-47DA-95CA-C5AB0DC85B11")) acc ∧
    run zeroes 0 fresh (reads true (fun _ => takes) ([demoRequest.take 15] ++ (demoRequest.drop 15 ++ masked 2 [5, 6]) :: [masked 2 [7]])) =
      .ok (s, [5, 6, 7]) := by
  have hdec : (Ws.decRun {} (masked 2 [5, 6] ++ [masked 2 [7]].flatten)).2 = [5, 6, 7] := by decide +kernel
  obtain ⟨acc, s, h1, h2, -⟩ := c104_input_partial zeroes (fun _ => by simp [zeroes]) (Http.lit "ws") demoFields
    (show ∀ c ∈ Http.lit "ws", Http.pathChar c = true by decide +kernel)
    (by
      have h1 : ∀ f ∈ demoFields, Http.isContent f.1 = false ∧ Http.caseEq f.1 (Http.lit "Sec-WebSocket-Protocol") = false ∧
        (Http.caseEq f.1 (Http.lit "Sec-WebSocket-Version") = true → f.2 = Http.lit "13") := by decide +kernel
      have h2 : ∀ f ∈ demoFields, f.1 ≠ [] ∧ (∀ c ∈ f.1, Http.nameChar c = true) ∧ (13 : UInt8) ∉ f.2 ∧
        f.2.head?.all (fun c => !decide (Http.Blank c)) = true := by decide +kernel
      intro f hf
      obtain ⟨a, b, c, d⟩ := h2 f hf
      exact ⟨⟨a, b, c, fun x hx => by simpa [hx] using d⟩, h1 f hf⟩)
    (by decide +kernel) (by decide +kernel) (Http.lit "abc") (by decide +kernel) (by decide +kernel)
    [demoRequest.take 15] (demoRequest.drop 15 ++ masked 2 [5, 6]) (masked 2 [5, 6]) [masked 2 [7]]
    (by simp only [demoRequest, List.flatten_cons, List.flatten_nil, List.append_nil, ← List.append_assoc, List.take_append_drop]) (by decide +kernel) (by decide +kernel) (by decide +kernel)
    (by
      have h0 : (58 : UInt8) ∉ [demoRequest.take 15].flatten := by decide +kernel
      refine ⟨by rw [List.count_eq_zero_of_not_mem h0]; omega, fun k v ⟨b, _, _, h⟩ => absurd (h.subset ?_) h0⟩
      simp [show Http.lit ":" = [58] by decide +kernel])
    (by decide +kernel) (by
      have e1 : (Ws.decRun {} (masked 2 [5, 6])).1 = { st := .hdr [], started := true } := by decide +kernel
      have e2 : (Ws.decRun { st := .hdr [], started := true } (masked 2 [7])).1 = { st := .hdr [], started := true } := by decide +kernel
      simp [Ws.FineCuts, e1, e2, Ws.Fine])
    0 true (fun _ => takes) (by simp [takes])
  rw [hdec] at h2
  exact ⟨acc, s, h1, h2⟩

end Verif.WsStream
