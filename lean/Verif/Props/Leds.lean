import Verif.Props.Pointers
import Verif.Spec.Leds

/-!
# C129: clients learn the state of the LEDs
-/

namespace Verif.Leds

open Verif.Server Verif.System Verif.Formats Verif.Sizes Verif.Times Verif.Pointers

variable {table : List Nat} {env : Env}

theorem sendLed_sent {s : St} (ho : s.cl.closed = false) (hn : -261 ∈ s.cl.encodings)
    (hd : s.cl.pendingLed ≠ s.cl.led) :
    (sendLed s).2 = true ∧ (sendLed s).1.log = s.log ++ [.send s.cl.chan .led (ledUpdate s.cl.pendingLed)] ∧
      (sendLed s).1.cl.st = s.cl.st ∧ (sendLed s).1.cl.freed = s.cl.freed := by
  have h1 : hasEnc s.cl encQemuLed = true := by
    unfold hasEnc encQemuLed; rw [List.contains_iff_mem]; exact hn
  unfold sendLed
  rw [if_neg hd]
  dsimp only
  rw [h1]
  rw [if_neg (by simp), if_pos rfl]
  dsimp only [St.upd]
  rw [send_log, send_cl, if_neg (by simp [ho]),
    show updateHead 1 ++ rectHead 0 0 0 0 encQemuLed = [0, 0, 0, 1, 0, 0, 0, 0, 0, 0, 0, 0, 255, 255, 254, 251] by
      decide +kernel]
  exact ⟨rfl, rfl, rfl, rfl⟩

/-- the requests of a client are looked at when it does not know the state of the LEDs -/
theorem process_led {I : St → Prop} {reenter : St → Outcome St} (hI : ∀ s, I s → s.cl.st = .ready)
    (hm : ∀ s s', Micro false table s s' → I s → I s') (hre : Keeps I reenter) {s s' : St}
    (ho : s.cl.closed = false) (hu : s.cl.isUpdating = false) (hb : s.srv.fb ≠ none)
    (hp : s.cl.cont = true ∨ s.cl.nPending ≠ 0)
    (hx : s.cl.extNotified = true ∨ -258 ∉ s.cl.encodings ∧ -1001 ∉ s.cl.encodings)
    (hq : s.srv.cursorSeq = s.cl.cursorSeq ∨ -239 ∉ s.cl.encodings) (hn : -261 ∈ s.cl.encodings)
    (hd : s.cl.pendingLed ≠ s.cl.led) (hi : I (sendLed (noted s)).1)
    (e : processFb env reenter s = .ok s') : I s' := by
  refine process_stages hI hm hre ho hu hb hp hx (.inr ⟨?_, (sendLed_sent (s := noted s) ho hn hd).1, hi⟩) e
  unfold stageCursor
  rw [if_neg]
  rintro ⟨h1, h2⟩
  rcases hq with hq | hq
  · exact h1 hq
  · unfold hasEnc encCursor at h2
    rw [List.contains_iff_mem] at h2
    exact hq h2

/-- **C129**: when the application sets a state of the LEDs that the client does not know, the client learns it at once
if it named -261, waits for an update and has none under way. (It is not about to be told about extensions and has the latest
cursor: those come first.)

Missing: clients that named only the other encoding of LED states, see `c55_led_violated`. -/
theorem c129_set_partial {s0 s : Sys} {ops : List SysOp} (h0 : s0.peers = []) (e : sysRun table ops s0 = .ok s)
    {p : Peer} (hp : p ∈ s.peers) (hr : p.cl.st = .ready) (hf : p.cl.freed = false) (ho : p.cl.closed = false)
    (hu : p.cl.isUpdating = false) (hb : s.srv.fb ≠ none) (hw : p.cl.cont = true ∨ p.cl.nPending ≠ 0)
    (hx : p.cl.extNotified = true ∨ -258 ∉ p.cl.encodings ∧ -1001 ∉ p.cl.encodings)
    (hq : s.srv.cursorSeq = p.cl.cursorSeq ∨ -239 ∉ p.cl.encodings)
    (hn : -261 ∈ p.cl.encodings) {v : Int} (hv : ¬ Knows p.log v) {net : List Read} {t : St}
    (e' : step table (.setLed v) env net (p.at s.srv) = .ok t) :
    p.log ++ [.ledSet v, .send p.cl.chan .led (ledUpdate v)] <+: t.log := by
  have hl := (lit_stays.all lit_start h0 e hp).told.resolve_left (by simp [ho])
  unfold step event at e'
  rw [if_neg (by show ¬ p.cl.freed = true; simp [hf])] at e'
  dsimp only at e'
  generalize hz : emit (.ledSet v) _ = z at e'
  have v1 : z.cl = { p.cl with pendingLed := v } := by rw [← hz]; rfl
  have v2 : z.log = p.log ++ [.ledSet v] := by rw [← hz]; rfl
  have v3 : z.srv = s.srv := by rw [← hz]; rfl
  have hd : z.cl.pendingLed ≠ z.cl.led := by
    rw [v1]
    show v ≠ p.cl.led
    rw [hl]; exact hv
  obtain ⟨-, k1, k2, k3⟩ := sendLed_sent (s := noted z) (by show z.cl.closed = _; rw [v1]; exact ho)
    (by show _ ∈ z.cl.encodings; rw [v1]; exact hn) hd
  have key : Begins (sendLed (noted z)).1.log t :=
    process_led (table := table) (I := Begins (sendLed (noted z)).1.log) (fun _ h => h.2.2) (micro_alive micro_begins)
      (reenterTop_keeps micro_begins) (by rw [v1]; exact ho) (by rw [v1]; exact hu) (by rw [v3]; exact hb)
      (by rw [v1]; exact hw) (by rw [v1]; exact hx) (by rw [v3, v1]; exact hq) (by rw [v1]; exact hn) hd
      ⟨List.prefix_refl _, by rw [k3]; show z.cl.freed = _; rw [v1]; exact hf, by rw [k2]; show z.cl.st = _; rw [v1]; exact hr⟩ e'
  have := key.1
  rw [k1, show (noted z).log = z.log from rfl, show (noted z).cl.chan = z.cl.chan from rfl,
    show (noted z).cl.pendingLed = z.cl.pendingLed from rfl, v2, v1, List.append_assoc] at this
  exact this

/-- **C129**: a client that does not know the state that was set last learns it with its next request, of whatever kind,
before anything else is sent.

Missing: clients that named only the other encoding of LED states, see `c55_led_violated`. -/
theorem c129_asked_partial {s0 s : Sys} {ops : List SysOp} (h0 : s0.peers = []) (e : sysRun table ops s0 = .ok s)
    {p : Peer} (hp : p ∈ s.peers) (hr : p.cl.st = .ready) (ho : p.cl.closed = false)
    (hu : p.cl.isUpdating = false) (hb : s.srv.fb ≠ none) (hw : 0 ≤ p.cl.nPending) (hc : p.cl.cont = false)
    (hx : p.cl.extNotified = true ∨ -258 ∉ p.cl.encodings ∧ -1001 ∉ p.cl.encodings)
    (hs : s.srv.cursorSeq = p.cl.cursorSeq ∨ -239 ∉ p.cl.encodings)
    (hn : -261 ∈ p.cl.encodings) (hv : ¬ Knows p.log (leds p.log).set) {inc : UInt8} {q : Rect} (hq : q.Fits)
    {rest : Bytes} {t : St} {n : Nat}
    (e' : tryRead env table reenterInHandler (p.at s.srv) ((Msg.fbRequest inc q).wire ++ rest) = .ok (t, n)) :
    p.log ++ [.fbReq (inc != 0) q.x q.y q.w q.h, .send p.cl.chan .led (ledUpdate (leds p.log).set)] <+: t.log := by
  have hk := lit_stays.all lit_start h0 e hp
  have hl := hk.told.resolve_left (by simp [ho])
  rw [← hk.set] at hv ⊢
  rw [msg_fbRequest (by exact hr) hq, if_neg (by show ¬ (_ ∧ p.cl.cont = true); simp [hc])] at e'
  obtain ⟨w, hw', e'⟩ := Outcome.bind_eq_ok.1 e'
  cases e'
  obtain ⟨h1, h2, ⟨kw, kh, h3⟩, h4⟩ := fbReqPre_frame (inc != 0) q (p.at s.srv)
  generalize fbReqPre (inc != 0) q (p.at s.srv) = u at hw' h1 h2 h3 h4
  have hd : u.cl.pendingLed ≠ u.cl.led := by
    rw [h3]
    show p.cl.pendingLed ≠ p.cl.led
    rw [hl]; exact hv
  obtain ⟨-, k1, k2, k3⟩ := sendLed_sent (s := noted u) (by show u.cl.closed = _; rw [h3]; exact ho)
    (by show _ ∈ u.cl.encodings; rw [h3]; exact hn) hd
  have hmi : ∀ v v', Micro false table v v' → (v.cl.st = .ready ∧ (sendLed (noted u)).1.log <+: v.log) →
      v'.cl.st = .ready ∧ (sendLed (noted u)).1.log <+: v'.log := fun v v' hm h =>
    ⟨micro_ready hm h.1, micro_begins v v' hm h.2⟩
  have key := process_led (I := fun v => v.cl.st = .ready ∧ (sendLed (noted u)).1.log <+: v.log) (fun _ h => h.1) hmi
    (reenterInHandler_keeps hmi) (by rw [h3]; exact ho) (by rw [h3]; exact hu) (by rw [h1]; exact hb)
    (.inr (by rw [h3]; show p.cl.nPending + 1 ≠ 0; omega)) (by rw [h3]; exact hx) (by rw [h1, h3]; exact hs)
    (by rw [h3]; exact hn) hd ⟨by rw [k2]; show u.cl.st = _; rw [h3]; exact hr, List.prefix_refl _⟩ hw'
  have := key.2
  rw [k1, show (noted u).log = u.log from rfl, show (noted u).cl.chan = u.cl.chan from rfl,
    show (noted u).cl.pendingLed = u.cl.pendingLed from rfl, h4, h3, List.append_assoc] at this
  exact this

/-- the LED updates in a record -/
def shown (log : List Eff) : List Bytes := log.filterMap fun
  | .send _ .led b => some b
  | _ => none

/-- a client that has learnt the first state, has had a frame and asks for the next update -/
def learnt : List SysOp := alone (enter [0, -261] ++ [reads fullReq, ask, (.encoded demoFrame, cursorEnv, []),
  (.written, cursorEnv, []), ask])

/-- What both theorems ask for is met by this client. -/
example : sysCheck learnt (fun s => match s.peers with
    | [p] => p.cl.st == .ready && !p.cl.freed && !p.cl.closed && !p.cl.isUpdating && s.srv.fb.isSome &&
      decide (p.cl.nPending ≠ 0) && p.cl.extNotified && p.cl.encodings.contains (-261) &&
      (leds p.log).told == some 0
    | _ => false) = true := by decide +kernel

/-- It learns the next one at once, the one after that when it asks, and nothing when the same state is set again. -/
example : sysCheck (learnt ++ [.client 0 (.setLed 5) cursorEnv [],
      .client 0 (.setLed 4) cursorEnv [], .client 0 ask.1 ask.2.1 ask.2.2, .client 0 ask.1 ask.2.1 ask.2.2,
      .client 0 (.setLed 4) cursorEnv []])
    (fun s => s.peers.map (fun p => (shown p.log).map List.getLast?) == [[some 0, some 5, some 4]]) = true := by
  decide +kernel

end Verif.Leds
