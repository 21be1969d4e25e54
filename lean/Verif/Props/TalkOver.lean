import Verif.Props.Talk
import Verif.Props.Tls
import Verif.Props.WsStream
import Verif.Props.RsaStream

/-! # A connection over the other transports: C115 -/

namespace Verif.Wire

open Verif.Server Verif.System

variable {z : Sizes}

/-- C115: through TLS.  `clear` is what was on the wire before the connection was switched to TLS, and the rest was
handed to the TLS stream.  What the client has decrypted so far is heard as the beginning of what the server sent;
on an open stream with an empty queue, as all of it.  With `c115_connection_partial` this says what a client hears. -/
theorem c115_tls (t : UInt8) (l : List Eff) (clear : Bytes) (old : List (Bytes × Tcp.Reaction)) (h : Tls.HsAns)
    (ops : List Tls.Op) (q : Tls.State) (e : Tls.run ops (Tls.upgrade old h) = .ok q)
    (hl : clear ++ q.submitted = sent l) :
    hear z t (clear ++ q.wire) <+: hear z t (sent l) ∧
      (q.phase ≠ .closed → q.waiting = [] → hear z t (clear ++ q.wire) = hear z t (sent l)) := by
  obtain ⟨h1, h2⟩ := Tls.c78_in_order old h ops q e
  rw [← hl]
  refine ⟨hear_prefix t ((List.prefix_append_right_inj _).2 h1), fun ho hw => ?_⟩
  rw [← h2 ho, hw, List.append_nil]

/-- what was sent this way -/
def sentBy (c : Chan → Bool) : List Eff → List Bytes
  | [] => []
  | .send h _ b :: l => if c h then b :: sentBy c l else sentBy c l
  | _ :: l => sentBy c l

/-- VeNCrypt with a password -/
def veLog : List Eff := firstLog (locked [versionMsg, [19], [0, 2], [0, 0, 1, 6], [0, 0, 0, 1, 0, 0, 0, 1, 117, 112], [1]])

/-- a TLS stream that takes it 3 bytes at a time while it is written -/
example :
    let clear := (sentBy (· == .plain) veLog).flatten
    (match Tls.run ([.event true false .success .success 9 []] ++
        (sentBy (· == .tls) veLog).map (fun b => .send b .stop [.sent 3, .again]) ++
        [.event false true .success .success 9 [.sent 1000, .sent 1000, .sent 1000]]) (Tls.upgrade [] .wantRead) with
    | .ok q => decide (clear ++ q.submitted = sent veLog ∧ q.waiting = [] ∧ q.phase = .ready ∧ 4 < q.wire.length)
    | _ => false) = true ∧
    hear four 19 (sent veLog) = [.version, .types [19, 129, 5, 30], .login,
      .init ⟨4, 3, [32, 24, 0, 1, 0, 255, 0, 255, 0, 255, 16, 8, 0, 0, 0, 0], [110]⟩] := by
  refine ⟨by decide +kernel, by decide +kernel⟩

theorem seen_msgs {ds : List Bytes} {ms : List (Nat × Bytes)} (h : WsStream.AllSeen (ds.map .msg) ms) :
    ms = ds.map fun d => (2, d) := by
  induction ds generalizing ms with
  | nil => cases h; rfl
  | cons d ds ih =>
    cases h with
    | cons h1 h2 => rw [ih h2, show _ = (2, d) from h1]; rfl

/-- C115: through a WebSocket.  The payloads of the messages that a reader of RFC 6455 finds after the reply to the
request are heard as what the server sent.  Under the conditions of `c104_received_partial`. -/
theorem c115_ws_partial (t : UInt8) (l : List Eff) (sha1 : Bytes → Bytes) (t0 : Nat) (hist : List WsStream.Op)
    (s : WsStream.State) (out : Bytes) (h : WsStream.run sha1 t0 WsStream.fresh hist = .ok (s, out))
    (hq : ∀ o ∈ hist, o.Quiet) (hr : s.ready = true) (hp : ∀ p ∈ s.pongs, WsStream.WholePong p)
    (ho : s.tcp.closed = false) (he : s.tcp.queue = []) (hl : s.tcp.wire.length < 2 ^ 64)
    (hs : hist.flatMap WsStream.Op.frame = (sends l).map .msg) :
    ∃ input n reply rest, Http.handshake sha1 255 input = some (.ok (some (n, reply))) ∧
      s.tcp.wire = reply ++ rest ∧
      hear z t ((WsStream.messages (WsStream.received rest)).map Prod.snd).flatten = hear z t (sent l) := by
  obtain ⟨input, n, reply, rest, h1, h2, h3⟩ :=
    WsStream.c104_received_partial sha1 t0 hist s out h hq hr hp ho he hl
  refine ⟨input, n, reply, rest, h1, h2, ?_⟩
  rw [hs] at h3
  rw [seen_msgs h3, List.map_map, ← sends_flatten]
  congr 2
  exact List.map_id' _

/-- a browser whose request comes when the server has already greeted it -/
example :
    (match WsStream.run WsStream.zeroes 0 WsStream.fresh (((sends (firstLog talk)).take 1).map (fun b => .send b .stop WsStream.takes WsStream.takes) ++
        [WsStream.demoRead WsStream.demoRequest] ++
        ((sends (firstLog talk)).drop 1).map (fun b => .send b .stop (.sent 1) WsStream.takes) ++ [.writable WsStream.takes]) with
    | .ok (s, _) => s.ready && !s.tcp.closed && s.tcp.queue.isEmpty && s.pongs.all (·.isEmpty) &&
        decide ((sent (firstLog talk)).length < s.tcp.wire.length ∧ s.tcp.wire.length < 2 ^ 64)
    | _ => false) = true := by
  decide +kernel

/-- C115: through RSA-AES.  `clear` is what was sent before the keys were agreed on.  What a client that has these keys
decrypts is heard as what the server sent.  Under the conditions of `c35_send`: none of the messages is large. -/
theorem c115_rsa (t : UInt8) (l : List Eff) (clear : Bytes) (k : RsaStream.Eax)
    (ps : List (Vec.Heap × (Nat → Nat → Vec.Heap) × Bytes))
    (h : ∀ p ∈ ps, (∀ i j, Enc.Plenty (p.2.1 i j)) ∧ p.2.2.length < Vec.sizeT / 8)
    (hl : clear ++ (ps.map (·.2.2)).flatten = sent l) :
    ∃ wire n plain, RsaStream.sendAll k ps ⟨0, 0⟩ = .ok wire ∧ RsaStream.peer k n 0 wire = some (plain, []) ∧
      hear z t (clear ++ plain) = hear z t (sent l) := by
  obtain ⟨wire, msgs, h1, -, -, h4⟩ := RsaStream.c35_send k h
  refine ⟨wire, msgs.length, (ps.map (·.2.2)).flatten, h1, ?_, by rw [hl]⟩
  have := h4 []
  rwa [List.append_nil] at this

/-- RSA-AES with a password -/
def rsaLog : List Eff := firstLog (locked [versionMsg, [5], be32 16 ++ [1, 2, 3, 4], be16 1 ++ [5], List.replicate 20 8,
  [1, 117, 1, 112], [1]])

example :
    (sentBy (· != .rsa) rsaLog).flatten ++ (sentBy (· == .rsa) rsaLog).flatten = sent rsaLog ∧
    3 < (sentBy (· == .rsa) rsaLog).length ∧
    (∀ b ∈ sentBy (· == .rsa) rsaLog, b.length < Vec.sizeT / 8) ∧
    (hear four 5 (sent rsaLog)).length = 4 ∧ Enc.Plenty RsaStream.okHeap := by
  refine ⟨by decide +kernel, by decide +kernel, by decide +kernel, by decide +kernel, fun _ => rfl⟩

end Verif.Wire
