import Verif.Spec.Echo
import Verif.Props.Messages
import Verif.Props.Frames
import Verif.Props.Wire
import Verif.Lemmas.Peer
import Verif.Lemmas.Access

/-!
# Fences over a whole connection (C20), and the client that is shut out by one (C09)
-/

namespace Verif.Echo

open Verif.Server Verif.System

variable {table : List Nat}

theorem isRequest_answer (f : Nat) (p : Bytes) : isRequest (answerTo f p) = false := by
  unfold isRequest answerTo
  have h : f % 8 / 16777216 = 0 := by omega
  simp [be32, h]

theorem isRequest_ping {f : Nat} {p : Bytes} (h : fenceRequest ≤ f) (h' : f < 4294967296) (n : UInt8) :
    isRequest ([248, 0, 0, 0] ++ be32 f ++ [n] ++ p) = true := by
  unfold fenceRequest at h
  unfold isRequest
  have h1 : 128 ≤ f / 16777216 := by omega
  have h2 : f / 16777216 < 256 := by omega
  simp [be32, UInt8.toNat_ofNat', Nat.mod_eq_of_lt h2, h1]

theorem answer_bytes {f : Nat} (h : f < 8) (p : Bytes) :
    [248, 0, 0, 0] ++ be32 f ++ [UInt8.ofNat p.length] ++ p = answerTo f p := by
  unfold answerTo; rw [Nat.mod_eq_of_lt h]

theorem asked_append (l m : List Eff) : asked (l ++ m) = asked l ++ asked m := List.filterMap_append
theorem answered_append (l m : List Eff) : answered (l ++ m) = answered l ++ answered m := List.filterMap_append

/-- entries that have nothing to do with fences -/
def apart (e : Eff) : Bool := (owed e).isNone && (given e).isNone

theorem asked_apart {es : List Eff} (h : ∀ e ∈ es, apart e = true) : asked es = [] := by
  unfold asked
  rw [List.filterMap_eq_nil_iff]
  intro e he
  have := h e he
  unfold apart at this
  simp only [Bool.and_eq_true, Option.isNone_iff_eq_none] at this
  exact this.1

theorem answered_apart {es : List Eff} (h : ∀ e ∈ es, apart e = true) : answered es = [] := by
  unfold answered
  rw [List.filterMap_eq_nil_iff]
  intro e he
  have := h e he
  unfold apart at this
  simp only [Bool.and_eq_true, Option.isNone_iff_eq_none] at this
  exact this.2

theorem Patient.pre {l m : List Eff} (h : Patient (l ++ m)) : Patient l :=
  fun p e q hl ho => h p e (q ++ m) (by rw [hl]; simp) ho

theorem send_log' (k : Kind) (b : Bytes) (s : St) :
    (send k b s).log = if s.cl.closed = true then s.log else s.log ++ [.send s.cl.chan k b] := by
  unfold send
  split <;> rfl

/-- what the answers so far and the fence that waits have to do with the requests -/
structure Ledger (c : Client) (l : List Eff) : Prop where
  early : c.st ≠ .ready → asked l = [] ∧ answered l = [] ∧ c.pfN = 0
  small : c.pfFlags < 8
  idle : c.pfN = 0 → (answered l).Sublist (asked l)
  busy : c.pfN ≠ 0 → ∃ pre, asked l = pre ++ [answerTo c.pfFlags c.pfPayload] ∧ (answered l).Sublist pre
  exact : Patient l → c.closed = false →
    asked l = answered l ++ (if c.pfN = 0 then [] else [answerTo c.pfFlags c.pfPayload])

theorem Ledger.sub {c : Client} {l : List Eff} (h : Ledger c l) : (answered l).Sublist (asked l) := by
  by_cases h0 : c.pfN = 0
  · exact h.idle h0
  · obtain ⟨pre, h1, h2⟩ := h.busy h0
    rw [h1]
    exact h2.trans (List.sublist_append_left _ _)

/-- a step that has nothing to do with fences -/
structure Apart (s s' : St) : Prop where
  st : s'.cl.st = s.cl.st
  pf : s'.cl.pfN = s.cl.pfN ∧ s'.cl.pfFlags = s.cl.pfFlags ∧ s'.cl.pfPayload = s.cl.pfPayload
  closed : s'.cl.closed = s.cl.closed ∨ s'.cl.closed = true
  log : ∃ es, s'.log = s.log ++ es ∧ ∀ e ∈ es, apart e = true

theorem Apart.refl (s : St) : Apart s s := ⟨rfl, ⟨rfl, rfl, rfl⟩, .inl rfl, [], by simp, by simp⟩

theorem Apart.trans {s t u : St} (h1 : Apart s t) (h2 : Apart t u) : Apart s u := by
  obtain ⟨a1, ⟨a2, a3, a4⟩, a5, es, a6, a7⟩ := h1
  obtain ⟨b1, ⟨b2, b3, b4⟩, b5, fs, b6, b7⟩ := h2
  refine ⟨b1.trans a1, ⟨b2.trans a2, b3.trans a3, b4.trans a4⟩, ?_, es ++ fs,
    by rw [b6, a6, List.append_assoc], fun e he => ?_⟩
  · rcases b5 with b5 | b5
    · rw [b5]; exact a5
    · exact .inr b5
  · rcases List.mem_append.1 he with he | he
    · exact a7 e he
    · exact b7 e he

theorem Apart.upd {s : St} {f : Client → Client} (h1 : (f s.cl).st = s.cl.st := by rfl)
    (h2 : (f s.cl).pfN = s.cl.pfN ∧ (f s.cl).pfFlags = s.cl.pfFlags ∧ (f s.cl).pfPayload = s.cl.pfPayload := by
      exact ⟨rfl, rfl, rfl⟩)
    (h3 : (f s.cl).closed = s.cl.closed ∨ (f s.cl).closed = true := by exact .inl rfl) : Apart s (s.upd f) :=
  ⟨h1, h2, h3, [], by simp, by simp⟩

theorem Apart.emit {s : St} {e : Eff} (h : apart e = true := by rfl) : Apart s (emit e s) :=
  ⟨rfl, ⟨rfl, rfl, rfl⟩, .inl rfl, [e], rfl, by simpa using h⟩

theorem Apart.send {s : St} {k : Kind} {b : Bytes} (h : ∀ ch, apart (.send ch k b) = true := by exact fun _ => rfl) :
    Apart s (send k b s) := by
  unfold Server.send
  split
  · exact .refl s
  · exact .emit (h _)

theorem Ledger.apart {s s' : St} (h : Ledger s.cl s.log) (ha : Apart s s') : Ledger s'.cl s'.log := by
  obtain ⟨h1, ⟨h2, h3, h4⟩, h5, es, h6, h7⟩ := ha
  have ea : asked s'.log = asked s.log := by rw [h6, asked_append, asked_apart h7, List.append_nil]
  have ew : answered s'.log = answered s.log := by rw [h6, answered_append, answered_apart h7, List.append_nil]
  refine ⟨?_, ?_, ?_, ?_, ?_⟩
  · rw [h1, ea, ew, h2]; exact h.early
  · rw [h3]; exact h.small
  · rw [h2, ea, ew]; exact h.idle
  · rw [h2, h3, h4, ea, ew]; exact h.busy
  · intro hp hc
    rw [ea, ew, h2, h3, h4]
    refine h.exact (by rw [h6] at hp; exact hp.pre) ?_
    rcases h5 with h5 | h5
    · rw [← h5]; exact hc
    · rw [h5] at hc; cases hc

theorem simple_apart {s s' : St} (h : SimpleFrame s s') : Apart s s' := by
  obtain ⟨-, -, ⟨_, _, _, _, _, _, _, _, _, h3⟩, es, h4, h5⟩ := h
  refine ⟨by rw [h3], ⟨by rw [h3], by rw [h3], by rw [h3]⟩, .inl (by rw [h3]), es, h4, fun e he => ?_⟩
  cases h5 e he with
  | send k b hc hk hq =>
    cases k <;> first | rfl | (simp [Echo.apart, owed, given, hq rfl])
  | _ => rfl

theorem stageFrame_apart {env fb s s'} (e : stageFrame env fb s = .ok s') : Apart s s' := by
  obtain ⟨-, -, ⟨_, _, _, _, _, _, _, _, _, h3⟩, h4⟩ := stageFrame_frame e
  refine ⟨by rw [h3], ⟨by rw [h3], by rw [h3], by rw [h3]⟩, .inl (by rw [h3]), ?_⟩
  rcases h4 with h4 | ⟨_, _, _, _, h4⟩ | h4
  · exact ⟨[], by simp [h4], by simp⟩
  · exact ⟨_, h4, by simp [Echo.apart, owed, given]⟩
  · exact ⟨_, h4, by simp [Echo.apart, owed, given]⟩

theorem sendFrame_apart (f s) : Apart s (sendFrame f s) := by
  unfold sendFrame
  dsimp only
  have h1 : ∀ t : St, Apart t (if resized f s.cl = true then sendResizeRect f.w f.h t else t) := by
    intro t
    split
    · unfold sendResizeRect; exact .trans .upd .send
    · exact .refl _
  have h2 : ∀ t : St, Apart t (sendPts f.pts t) := by
    intro t
    unfold sendPts
    split
    · exact .refl _
    · split
      · exact .send
      · exact .refl _
  exact .trans (.trans .send (h1 _)) (.trans (h2 _) .send)

theorem streamClose_apart (s) : Apart s (streamClose s) := by
  unfold streamClose
  split
  · exact .refl _
  · dsimp only
    have h0 : Apart s (s.upd fun k => { k with closed := true }) := .upd rfl ⟨rfl, rfl, rfl⟩ (.inr rfl)
    split
    · exact h0.trans (.trans .upd (.trans .upd .emit))
    · exact h0

theorem freeClient_apart (s) : Apart s (freeClient s) := by
  obtain ⟨h1, h2, -, -⟩ := freeClient_frame s
  obtain ⟨a1, ⟨a2, a3, a4⟩, a5, a6⟩ := streamClose_apart s
  exact ⟨by rw [h1]; exact a1, by rw [h1]; exact ⟨a2, a3, a4⟩, by rw [h1]; exact a5, by rw [h2]; exact a6⟩

theorem answer_note (ch f p) : owed (.send ch .fence (answerTo f p)) = none ∧
    given (.send ch .fence (answerTo f p)) = some (answerTo f p) := by
  refine ⟨rfl, ?_⟩
  unfold given
  simp [isRequest_answer]

/-- the request of a client that may make one -/
theorem fenceReq_ledger {flags : Nat} {payload : Bytes} {s s' : St} {b : Bool} (hr : s.cl.st = .ready)
    (h : Ledger s.cl s.log) (e : onFenceRequest flags payload (noteFence flags payload s) = .ok (s', b)) :
    Ledger s'.cl s'.log := by
  by_cases hp : 0 < s.cl.nPending
  · rw [noteFence_off hp] at e
    unfold onFenceRequest at e
    rw [if_pos hp] at e
    cases e
    exact h.apart (.upd)
  rw [noteFence_on (by omega), onFenceRequest_eq (by show s.cl.nPending ≤ 0; omega)] at e
  have hm : ∃ n mb, fenceMark (flags % 8) (emit (.fenceReq flags payload) s) =
      ((emit (.fenceReq flags payload) s).upd fun k => { k with pfN := n, mustBlock := mb }) ∧
      (n = 0 → s.cl.pfN = 0) := by
    unfold fenceMark
    change ∃ n mb, (if (flags % 8).testBit 0 = true ∧ 0 < s.cl.nPending + (if s.cl.isUpdating = true then (1 : Int) else 0) then
      (emit (.fenceReq flags payload) s).upd fun k => { k with
        pfN := k.nPending + (if s.cl.isUpdating = true then (1 : Int) else 0) } else _) = _ ∧ _
    generalize (if s.cl.isUpdating = true then (1 : Int) else 0) = u
    split
    · rename_i h1
      refine ⟨s.cl.nPending + u, s.cl.mustBlock, rfl, fun h2 => ?_⟩
      have := h1.2
      omega
    · split
      · exact ⟨1, _, rfl, fun h2 => by cases h2⟩
      · exact ⟨s.cl.pfN, s.cl.mustBlock, rfl, id⟩
  obtain ⟨n, mb, hm, hn⟩ := hm
  rw [hm] at e
  have pat : ∀ {m}, Patient (s.log ++ Eff.fenceReq flags payload :: m) → s.cl.closed = false →
      asked s.log = answered s.log := by
    intro m hpt hc
    have h1 := hpt s.log _ m rfl (by simp [owed])
    have h2 := h.exact hpt.pre hc
    by_cases h0 : s.cl.pfN = 0
    · rw [if_pos h0, List.append_nil] at h2; exact h2
    · rw [if_neg h0] at h2
      rw [h2, List.length_append] at h1
      simp at h1
  rcases ite_cases e with ⟨h0, e⟩ | ⟨h0, e⟩
  · change n = 0 at h0
    obtain ⟨t, ht, e⟩ := Outcome.bind_eq_ok.1 e
    cases e
    unfold sendFence at ht
    rcases ite_cases ht with ⟨-, ht⟩ | ⟨-, ht⟩
    · cases ht
    cases ht
    rw [answer_bytes (Nat.mod_lt _ (by decide))]
    have hw : answerTo (flags % 8) payload = answerTo flags payload := by unfold answerTo; rw [Nat.mod_mod]
    rw [hw]
    have hcl := send_cl .fence (answerTo flags payload)
      ((emit (.fenceReq flags payload) s).upd fun k => { k with pfN := n, mustBlock := mb })
    have hlog := send_log' .fence (answerTo flags payload)
      ((emit (.fenceReq flags payload) s).upd fun k => { k with pfN := n, mustBlock := mb })
    change _ = if s.cl.closed = true then s.log ++ [Eff.fenceReq flags payload] else
      s.log ++ [Eff.fenceReq flags payload] ++ [.send s.cl.chan .fence (answerTo flags payload)] at hlog
    generalize send .fence (answerTo flags payload) _ = u at hcl hlog
    rw [hcl]
    have hs := h.idle (hn h0)
    cases hc : s.cl.closed
    · rw [hc] at hlog
      rw [if_neg (by decide)] at hlog
      rw [hlog]
      have ea : asked (s.log ++ [.fenceReq flags payload] ++ [.send s.cl.chan .fence (answerTo flags payload)]) =
          asked s.log ++ [answerTo flags payload] := by
        rw [asked_append, asked_append]; simp [asked, owed]
      have ew : answered (s.log ++ [.fenceReq flags payload] ++ [.send s.cl.chan .fence (answerTo flags payload)]) =
          answered s.log ++ [answerTo flags payload] := by
        rw [answered_append, answered_append]; simp [answered, (answer_note _ _ _).2]; rfl
      refine ⟨fun hn => absurd hr hn, h.small, fun _ => ?_, fun hn => absurd h0 hn, fun hpt _ => ?_⟩
      · rw [ea, ew]; exact hs.append (List.Sublist.refl _)
      · rw [ea, ew]
        rw [pat (m := [.send s.cl.chan .fence (answerTo flags payload)]) (by simpa using hpt) hc]
        show _ = _ ++ (if n = 0 then _ else _)
        rw [if_pos h0, List.append_nil]
    · rw [hc] at hlog
      rw [if_pos rfl] at hlog
      rw [hlog]
      have ea : asked (s.log ++ [.fenceReq flags payload]) = asked s.log ++ [answerTo flags payload] := by
        rw [asked_append]; rfl
      have ew : answered (s.log ++ [.fenceReq flags payload]) = answered s.log := by
        rw [answered_append]; simp [answered, given]
      refine ⟨fun hn => absurd hr hn, h.small, fun _ => ?_, fun hn => absurd h0 hn, fun _ hc' => ?_⟩
      · rw [ea, ew]; exact hs.trans (List.sublist_append_left _ _)
      · rw [show s.cl.closed = false from hc'] at hc; cases hc
  · change ¬ n = 0 at h0
    cases e
    have ea : asked (s.log ++ [.fenceReq flags payload]) = asked s.log ++ [answerTo (flags % 8) payload] := by
      have hw : answerTo (flags % 8) payload = answerTo flags payload := by unfold answerTo; rw [Nat.mod_mod]
      rw [asked_append, hw]; rfl
    have ew : answered (s.log ++ [.fenceReq flags payload]) = answered s.log := by
      rw [answered_append]; simp [answered, given]
    refine ⟨fun hn => absurd hr hn, Nat.mod_lt _ (by decide), fun hn => absurd hn h0, fun _ => ?_, fun hpt hc => ?_⟩
    · exact ⟨asked s.log, ea, by show (answered (s.log ++ _)).Sublist _; rw [ew]; exact h.sub⟩
    · show asked (s.log ++ _) = answered (s.log ++ _) ++ if n = 0 then [] else [answerTo (flags % 8) payload]
      rw [ea, ew, pat (m := []) hpt hc, if_neg h0]

theorem micro_ledger {lp s s'} (hm : Micro lp table s s') (h : Ledger s.cl s.log) : Ledger s'.cl s'.log := by
  cases hm with
  | fenceOut flags payload hr hl hf =>
    refine h.apart (.send fun ch => ?_)
    simp only [apart, owed, given, isRequest_ping hf.1 hf.2]; rfl
  | pfDec hr h1 h2 =>
    refine ⟨fun hn => absurd hr hn, h.small, fun hn => absurd hn h2, fun _ => h.busy h1, fun hp hc => ?_⟩
    rw [show (s.upd fun k => { k with pfN := k.pfN - 1 }).log = s.log from rfl, h.exact hp hc, if_neg h1]
    show _ = _ ++ if s.cl.pfN - 1 = 0 then _ else _
    rw [if_neg h2]; rfl
  | pfFire hr h1 hp =>
    have hb := h.busy (by rw [h1]; decide)
    obtain ⟨pre, ha, hs⟩ := hb
    have h0 : s.cl.pfN ≠ 0 := by rw [h1]; decide
    rw [answer_bytes h.small]
    rw [send_cl, send_log']
    change Ledger _ (if s.cl.closed = true then s.log else s.log ++ [.send s.cl.chan .fence _])
    cases hc : s.cl.closed
    · rw [if_neg (by decide)]
      have ea : ∀ f p, asked (s.log ++ [.send s.cl.chan .fence (answerTo f p)]) = asked s.log := by
        intro f p; rw [asked_append]; simp [asked, owed]
      have ew : ∀ f p, answered (s.log ++ [.send s.cl.chan .fence (answerTo f p)]) = answered s.log ++ [answerTo f p] := by
        intro f p; rw [answered_append]; simp [answered, (answer_note _ _ _).2]
      refine ⟨fun hn => absurd hr hn, (by decide : 0 < 8), fun _ => ?_, fun hn => absurd rfl hn, fun hpt _ => ?_⟩
      · rw [ea, ew, ha]; exact hs.append (List.Sublist.refl _)
      · rw [ea, ew, h.exact hpt.pre hc, if_neg h0]
        show _ = _ ++ (if (0 : Int) = 0 then _ else _)
        simp
    · rw [if_pos rfl]
      refine ⟨fun hn => absurd hr hn, (by decide : 0 < 8), fun _ => h.sub, fun hn => absurd rfl hn, fun _ hc' => ?_⟩
      rw [show s.cl.closed = false from hc'] at hc; cases hc
  | ext =>
    obtain ⟨-, -, h3, h4⟩ := sendExtSupport_frame (s.upd fun k => { k with extNotified := true })
    refine h.apart ⟨by rw [h3]; rfl, by rw [h3]; exact ⟨rfl, rfl, rfl⟩, .inl (by rw [h3]; rfl), ?_⟩
    rcases h4 with h4 | ⟨-, b, h4⟩
    · exact ⟨[], by rw [h4]; simp, by simp⟩
    · exact ⟨_, h4, by simp [apart, owed, given]⟩
  | cursor env =>
    obtain ⟨-, -, ⟨_, h3⟩, h4⟩ := sendCursor_frame env s
    refine h.apart ⟨by rw [h3], by rw [h3]; exact ⟨rfl, rfl, rfl⟩, .inl (by rw [h3]), ?_⟩
    rcases h4 with h4 | ⟨-, b, h4⟩
    · exact ⟨[], by rw [h4]; simp, by simp⟩
    · exact ⟨_, h4, by simp [apart, owed, given]⟩
  | led hr =>
    obtain ⟨-, -, ⟨_, h3⟩, h4⟩ := sendLed_frame s
    refine h.apart ⟨by rw [h3], by rw [h3]; exact ⟨rfl, rfl, rfl⟩, .inl (by rw [h3]), ?_⟩
    rcases h4 with h4 | ⟨-, b, h4⟩
    · exact ⟨[], by rw [h4]; simp, by simp⟩
    · exact ⟨_, h4, by simp [apart, owed, given]⟩
  | frame env fb hr e => exact h.apart (stageFrame_apart e)
  | sendFrame f => exact h.apart (sendFrame_apart f s)
  | hs env r a h1 h2 =>
    obtain ⟨-, -, ⟨_, _, _, _, _, _, _, _, _, _, _, h3⟩, es, h4, h5⟩ := hs_frame h1 h2
    obtain ⟨g1, g2, g3⟩ := h.early h1
    have ha : ∀ e ∈ es, apart e = true := by
      intro e he
      cases h5 e he with
      | send ch k m hk => cases k <;> first | rfl | (generalize s.cl.st = b at hk; cases b <;> cases hk)
      | _ => rfl
    have ea : asked s'.log = [] := by rw [h4, asked_append, asked_apart ha, g1]; rfl
    have ew : answered s'.log = [] := by rw [h4, answered_append, answered_apart ha, g2]; rfl
    have e0 : s'.cl.pfN = 0 := by rw [h3]; exact g3
    refine ⟨fun _ => ⟨ea, ew, e0⟩, by rw [h3]; exact h.small, fun _ => by rw [ea, ew]; exact List.Sublist.refl _, fun hn => absurd e0 hn,
      fun _ _ => by rw [ea, ew, if_pos e0]; rfl⟩
  | simple env a h1 h2 => exact h.apart (simple_apart h2.frame)
  | fbReq inc r =>
    obtain ⟨-, -, ⟨_, _, h3⟩, h4⟩ := fbReqPre_frame inc r s
    exact h.apart ⟨by rw [h3], by rw [h3]; exact ⟨rfl, rfl, rfl⟩, .inl (by rw [h3]), _, h4,
      by simp [apart, owed, given]⟩
  | contOn => exact h.apart (.trans .upd .emit)
  | contOff => exact h.apart (.trans .upd .send)
  | fenceReq flags payload hr hp h2 => exact fenceReq_ledger hr h h2
  | consume => exact h.apart (.trans .upd .emit)
  | bigCut env c d hr hc h1 h2 => exact h.apart (simple_apart (bigCutText_frame h2))
  | remoteClosed =>
    unfold remoteClosed deferClose
    exact h.apart ((streamClose_apart s).trans (.trans .upd .emit))
  | flushed => exact h.apart (streamClose_apart s)
  | free => exact h.apart (freeClient_apart s)
  | idle => exact h.apart (.trans .upd (freeClient_apart _))
  | encoded => exact h.apart (.trans .upd .emit)
  | damage => exact h.apart (.trans .upd .emit)
  | setLed => exact h.apart (.trans .upd .emit)
  | net => exact h
  | display => exact h
  | setCursor => exact h
  | _ => exact h.apart .upd

theorem ledger_stays : Stays table Ledger := by
  refine ⟨fun _ _ hm _ h => micro_ledger hm h, fun s text hb h => ?_⟩
  obtain ⟨es, h1, h2⟩ := cutTextTo_log text s hb
  have : Apart s (cutTextTo text s) := by
    refine ⟨by rw [cutTextTo_cl], by rw [cutTextTo_cl]; exact ⟨rfl, rfl, rfl⟩, .inl (by rw [cutTextTo_cl]), es, h1, ?_⟩
    intro e he
    rcases h2 e he with rfl | ⟨b, rfl⟩ | ⟨-, b, rfl⟩ <;> rfl
  have := h.apart this
  rwa [cutTextTo_cl] at this

theorem ledger_start (srv : Srv) : Ledger (start srv).cl (start srv).log :=
  ⟨fun _ => ⟨rfl, rfl, rfl⟩, (by decide : 0 < 8), fun _ => List.Sublist.refl _, fun h => absurd rfl h, fun _ _ => rfl⟩

/-- C20, what holds of every client in every run of a server: the answers it is sent are answers to requests it made,
each to a request of its own and in the order of the requests.  Nothing is answered that was not asked, or twice. -/
theorem c20_echo {s0 s : Sys} {ops : List SysOp} (h0 : s0.peers = []) (hr : sysRun table ops s0 = .ok s) {p : Peer}
    (hp : p ∈ s.peers) : (answered p.log).Sublist (asked p.log) :=
  (ledger_stays.all ledger_start h0 hr hp).sub

/-- C20 for clients that wait for one answer before they make the next request: in every run of a server each request
has been answered exactly once, in order, with its payload and the supported ones of its flags; only the last answer
may be outstanding, and then the server still holds exactly that one.

Missing: clients that make a request while another one is unanswered (`c20_fences_violated`), and that the
outstanding answer is sent at all (`c20_stuck_violated`, `c09_shut_out_violated`). -/
theorem c20_patient_partial {s0 s : Sys} {ops : List SysOp} (h0 : s0.peers = []) (hr : sysRun table ops s0 = .ok s)
    {p : Peer} (hp : p ∈ s.peers) (hc : p.cl.closed = false) (hw : Patient p.log) :
    answered p.log = asked p.log ∨
      (p.cl.pfN ≠ 0 ∧ asked p.log = answered p.log ++ [answerTo p.cl.pfFlags p.cl.pfPayload]) := by
  have h := (ledger_stays.all ledger_start h0 hr hp).exact hw hc
  by_cases h0 : p.cl.pfN = 0
  · rw [if_pos h0, List.append_nil] at h; exact .inl h.symm
  · rw [if_neg h0] at h; exact .inr ⟨h0, h⟩

/-! ## Examples -/

/-- the first client after these events, if all went well -/
def firstPeer (ops : List SysOp) (f : Peer → Bool) : Bool :=
  match sysRun [] ops (fresh [110] (some demoFb)) with
  | .ok { peers := p :: _, .. } => f p
  | _ => false

theorem firstPeer_spec {ops : List SysOp} {f : Peer → Bool} (h : firstPeer ops f = true) :
    ∃ s p, sysRun [] ops (fresh [110] (some demoFb)) = .ok s ∧ p ∈ s.peers ∧ f p = true := by
  unfold firstPeer at h
  split at h
  · rename_i srv p ps hs
    exact ⟨_, p, hs, by simp, h⟩
  · cases h

/-- is the client patient, decided entry by entry? -/
def patientB : List Eff → Nat → Nat → Bool
  | [], _, _ => true
  | e :: l, a, b => ((owed e).isNone || a == b) &&
      patientB l (a + (if (given e).isSome then 1 else 0)) (b + (if (owed e).isSome then 1 else 0))

theorem patientB_spec : ∀ {l : List Eff} {m : List Eff}, patientB l (answered m).length (asked m).length = true →
    ∀ p e q, l = p ++ e :: q → owed e ≠ none → (answered (m ++ p)).length = (asked (m ++ p)).length
  | [], _, _, p, e, q, h, _ => by simp at h
  | x :: l, m, hb, p, e, q, h, ho => by
    unfold patientB at hb
    rw [Bool.and_eq_true] at hb
    cases p with
    | nil =>
      cases h
      have := hb.1
      rw [Bool.or_eq_true] at this
      rcases this with h1 | h1
      · exact absurd (Option.isNone_iff_eq_none.1 h1) ho
      · rw [List.append_nil]; exact of_decide_eq_true h1
    | cons y p =>
      have hx : x = y := (List.cons.inj h).1
      have hl : l = p ++ e :: q := (List.cons.inj h).2
      subst hx
      have h1 : (answered (m ++ [x])).length = (answered m).length + (if (given x).isSome then 1 else 0) := by
        rw [answered_append, List.length_append]
        congr 1
        unfold answered
        rw [List.filterMap_cons]
        cases given x <;> rfl
      have h2 : (asked (m ++ [x])).length = (asked m).length + (if (owed x).isSome then 1 else 0) := by
        rw [asked_append, List.length_append]
        congr 1
        unfold asked
        rw [List.filterMap_cons]
        cases owed x <;> rfl
      have := patientB_spec (m := m ++ [x]) (by rw [h1, h2]; exact hb.2) p e q hl ho
      simpa using this

theorem patient_of {l : List Eff} (h : patientB l 0 0 = true) : Patient l := by
  intro p e q hl ho
  have := patientB_spec (m := []) h p e q hl ho
  simpa using this

open Wire (richEnv dotFrame)

/-- a message of the first client -/
def tells (b : Bytes) : SysOp := .client 0 (.readable (.data b)) richEnv []

/-- a client that asks for a fence before it asks for anything, one behind the update that is being encoded, and one
that is put off because it is behind a frame that is being written -/
def fencing : List SysOp :=
  joins [0, -312] ++ [tells (Msg.fence 0 2147483651 [1, 2]).wire, tells fullReq, tells (Msg.fence 0 2147483649 [3]).wire,
    .client 0 (.encoded dotFrame) richEnv [], tells (Msg.fence 0 2147483649 []).wire]

/-- two of its requests have been answered, and the server holds the third answer -/
example : firstPeer fencing (fun p => patientB p.log 0 0 && !p.cl.closed && p.cl.pfN == 1 &&
    asked p.log == [answerTo 3 [1, 2], answerTo 1 [3], answerTo 1 []] &&
    answered p.log == [answerTo 3 [1, 2], answerTo 1 [3]]) = true := by decide +kernel

/-- with the next update it is sent: all requests are answered -/
example : firstPeer (fencing ++ [.client 0 .written richEnv [], tells fullReq, .client 0 (.encoded dotFrame) richEnv []])
    (fun p => patientB p.log 0 0 && !p.cl.closed && p.cl.pfN == 0 && (asked p.log).length == 3 &&
    answered p.log == asked p.log) = true := by decide +kernel

/-- a client that is not patient gets fewer answers than it asks for, but none that it did not -/
example : firstPeer (joins [0, -312] ++ [tells fullReq, tells (Msg.fence 0 2147483649 [3]).wire,
      tells (Msg.fence 0 2147483649 [4]).wire, .client 0 (.encoded dotFrame) richEnv [], .client 0 .written richEnv []])
    (fun p => !patientB p.log 0 0 && asked p.log == [answerTo 1 [3], answerTo 1 [4]] &&
    answered p.log == [answerTo 1 [4]]) = true := by decide +kernel

/-! ## A client that is shut out -/

/-- held back by a fence, with no update under way or asked for -/
structure Shut (c : Client) : Prop where
  blocked : c.blocked = true
  cont : c.cont = false
  nPending : c.nPending = 0
  updating : c.isUpdating = false
  encoding : c.encoding = false
  writing : c.writing = false
  cut : c.cut = none
  idx : c.idx = 0

/-- neither a message handled nor anything sent nor a callback -/
def silent : Eff → Bool
  | .damaged _ | .ledSet _ | .deferClose => true
  | _ => false

/-- still held back, and silent -/
def Holds (s s' : St) : Prop := Shut s'.cl ∧ ∃ es, s'.log = s.log ++ es ∧ ∀ e ∈ es, silent e = true

theorem Holds.refl {s : St} (h : Shut s.cl) : Holds s s := ⟨h, [], by simp, by simp⟩

theorem Holds.trans {s t u : St} (h1 : Holds s t) (h2 : Holds t u) : Holds s u := by
  obtain ⟨-, es, a1, a2⟩ := h1
  obtain ⟨b0, fs, b1, b2⟩ := h2
  refine ⟨b0, es ++ fs, by rw [b1, a1, List.append_assoc], fun e he => ?_⟩
  rcases List.mem_append.1 he with he | he
  · exact a2 e he
  · exact b2 e he

theorem shut_streamClose {s : St} (h : Shut s.cl) : Holds s (streamClose s) := by
  obtain ⟨h1, h2, h3, h4, h5, h6, h7, h8⟩ := h
  unfold streamClose
  split
  · exact .refl ⟨h1, h2, h3, h4, h5, h6, h7, h8⟩
  · dsimp only
    split
    · exact ⟨⟨h1, h2, h3, h4, h5, h6, h7, h8⟩, [.deferClose], rfl, by simp [silent]⟩
    · exact ⟨⟨h1, h2, h3, h4, h5, h6, h7, h8⟩, [], by simp, by simp⟩

theorem shut_free {s : St} (h : Shut s.cl) : Holds s (freeClient s) := by
  obtain ⟨⟨g1, g2, g3, g4, g5, g6, g7, g8⟩, g9⟩ := shut_streamClose h
  obtain ⟨h1, h2, -, -⟩ := freeClient_frame s
  refine ⟨?_, by rw [h2]; exact g9⟩
  rw [h1]
  exact ⟨g1, g2, g3, g4, g5, g6, g7, g8⟩

theorem shut_remote {s : St} (h : Shut s.cl) : Holds s (remoteClosed s) := by
  refine (shut_streamClose h).trans ?_
  obtain ⟨⟨g1, g2, g3, g4, g5, g6, g7, g8⟩, -⟩ := shut_streamClose h
  exact ⟨⟨g1, g2, g3, g4, g5, g6, g7, g8⟩, [.deferClose], rfl, by simp [silent]⟩

theorem shut_processFb {env r} {s s' : St} (h : Shut s.cl) (e : processFb env r s = .ok s') : s' = s := by
  unfold processFb at e
  rcases ite_cases e with ⟨-, e⟩ | ⟨-, e⟩
  · cases e; rfl
  split at e
  · cases e; rfl
  rw [if_neg (by rw [h.updating]; decide), if_pos (by rw [h.cont, h.nPending]; decide)] at e
  cases e; rfl

theorem shut_read {env rd} {s s' : St} (h : Shut s.cl) (e : onReadable env table rd s = .ok s') : Holds s s' := by
  unfold onReadable at e
  rw [h.cut] at e
  dsimp only at e
  rw [if_neg (by simp [h.idx])] at e
  split at e
  · cases e; exact .refl h
  · cases e; exact shut_remote h
  · cases e; exact shut_free h
  · cases e; exact .refl h
  · rcases ite_cases e with ⟨-, e⟩ | ⟨-, e⟩
    · split at e <;> cases e
      · exact shut_remote h
      · exact shut_free h
      · exact .refl h
    · obtain ⟨t, ht, e⟩ := Outcome.bind_eq_ok.1 e
      cases e
      unfold loop at ht
      rw [if_pos (by exact h.blocked)] at ht
      cases ht
      obtain ⟨h1, h2, h3, h4, h5, h6, h7, h8⟩ := h
      exact ⟨⟨h1, h2, h3, h4, h5, h6, h7, rfl⟩, [], by simp, by simp⟩

theorem shut_step {o : Op} {env net} {s s' : St} (h : Shut s.cl) (e : step table o env net s = .ok s') : Holds s s' := by
  unfold step at e
  have hk : Holds s { s with net := net } := ⟨h, [], by simp, by simp⟩
  refine hk.trans ?_
  replace h : Shut ({ s with net := net } : St).cl := h
  generalize ({ s with net := net } : St) = s at h e
  unfold event at e
  rcases ite_cases e with ⟨-, e⟩ | ⟨-, e⟩
  · split at e
    · rcases ite_cases e with ⟨-, e⟩ | ⟨-, e⟩ <;> cases e
      exact .refl h
    · cases e; exact .refl h
  · obtain ⟨h1, h2, h3, h4, h5, h6, h7, h8⟩ := h
    have h : Shut s.cl := ⟨h1, h2, h3, h4, h5, h6, h7, h8⟩
    cases o with
    | readable rd =>
      dsimp only at e
      rcases ite_cases e with ⟨-, e⟩ | ⟨-, e⟩
      · cases e; exact .refl h
      · exact shut_read h e
    | written => dsimp only at e; rw [if_neg (by rw [h6]; decide)] at e; cases e; exact .refl h
    | encoded f => dsimp only at e; rw [if_neg (by rw [h5]; decide)] at e; cases e; exact .refl h
    | flushed =>
      dsimp only at e
      rcases ite_cases e with ⟨-, e⟩ | ⟨-, e⟩ <;> cases e
      · exact shut_streamClose h
      · exact .refl h
    | idle =>
      dsimp only at e
      rcases ite_cases e with ⟨-, e⟩ | ⟨-, e⟩ <;> cases e
      · exact .refl h
      · have hk : Holds s (s.upd fun k => { k with nDefer := k.nDefer - 1 }) :=
          ⟨⟨h1, h2, h3, h4, h5, h6, h7, h8⟩, [], by simp, by simp⟩
        exact hk.trans (shut_free hk.1)
    | appClose => cases e; exact shut_free h
    | damage r =>
      dsimp only at e
      have hk : Holds s (if s.cl.closed = true then s else
          emit (.damaged r) (s.upd fun k => { k with damage := k.damage ++ r })) := by
        split
        · exact .refl h
        · exact ⟨⟨h1, h2, h3, h4, h5, h6, h7, h8⟩, [.damaged r], rfl, by simp [silent]⟩
      rw [shut_processFb hk.1 e]; exact hk
    | display fb => cases e; exact ⟨h, [], by simp, by simp⟩
    | cursor => rw [shut_processFb (by exact h) e]; exact ⟨h, [], by simp, by simp⟩
    | setLed v =>
      rw [shut_processFb (by exact ⟨h1, h2, h3, h4, h5, h6, h7, h8⟩) e]
      exact ⟨⟨h1, h2, h3, h4, h5, h6, h7, h8⟩, [.ledSet v], rfl, by simp [silent]⟩

/-- events of one client, while the rest of the server does whatever it does in between -/
def lives (table : List Nat) : List (Srv × Op × Env × List Read) → St → Outcome St
  | [], s => .ok s
  | (srv, o, env, net) :: rest, s => do
    let s ← step table o env net { s with srv := srv }
    lives table rest s

theorem shut_lives : ∀ {evs : List (Srv × Op × Env × List Read)} {s s' : St}, Shut s.cl →
    lives table evs s = .ok s' → Holds s s'
  | [], s, s', h, e => by cases e; exact .refl h
  | (srv, o, env, net) :: rest, s, s', h, e => by
    obtain ⟨t, ht, e⟩ := Outcome.bind_eq_ok.1 e
    obtain ⟨g1, g2⟩ := shut_step (s := { s with srv := srv }) h ht
    exact Holds.trans ⟨g1, g2⟩ (shut_lives g1 e)

/-- the client asks for an update, and for a fence (BlockBefore and BlockAfter) while the frame is being written;
the write completes -/
def shutting : List SysOp :=
  joins [0, -312] ++ [tells fullReq, .client 0 (.encoded dotFrame) richEnv [], tells (Msg.fence 0 2147483651 [1]).wire,
    .client 0 .written richEnv []]

/-- C20 is false for a patient client too: the request of a client that asks for a fence while a frame is being written
is not answered when the frame has been written, nor with anything that the application does later
(on_write_frame_done ends in complete_fb_update, server.c 2438-2451, neither of which looks for a fence).
C09 is false for what it sends from then on: whatever happens, until it goes away none of its messages is handled. -/
theorem c09_shut_out_violated : ∃ s p, sysRun [] shutting (fresh [110] (some demoFb)) = .ok s ∧ p ∈ s.peers ∧
    p.cl.closed = false ∧ Patient p.log ∧ asked p.log = [answerTo 3 [1]] ∧
    ∀ table evs t, lives table evs (p.at s.srv) = .ok t →
      answered t.log = [] ∧ ∃ es, t.log = p.log ++ es ∧ ∀ e ∈ es, silent e = true := by
  have h : firstPeer shutting (fun p => decide (p.cl.blocked = true ∧ p.cl.cont = false ∧ p.cl.nPending = 0 ∧
      p.cl.isUpdating = false ∧ p.cl.encoding = false ∧ p.cl.writing = false ∧ p.cl.idx = 0 ∧
      p.cl.closed = false ∧ asked p.log = [answerTo 3 [1]] ∧ answered p.log = []) && p.cl.cut.isNone &&
      patientB p.log 0 0) = true := by decide +kernel
  obtain ⟨s, p, h1, h2, h3⟩ := firstPeer_spec h
  rw [Bool.and_eq_true, Bool.and_eq_true, decide_eq_true_eq, Option.isNone_iff_eq_none] at h3
  obtain ⟨⟨⟨a1, a2, a3, a4, a5, a6, a7, a8, a9, a10⟩, a11⟩, a12⟩ := h3
  refine ⟨s, p, h1, h2, a8, patient_of a12, a9, fun table evs t ht => ?_⟩
  obtain ⟨-, es, e1, e2⟩ := shut_lives ⟨a1, a2, a3, a4, a5, a6, a11, a7⟩ ht
  refine ⟨?_, es, e1, e2⟩
  rw [show t.log = p.log ++ es from e1, answered_append, a10]
  refine answered_apart fun e he => ?_
  have := e2 e he
  cases e <;> first | rfl | cases this

/-- a client without BlockAfter is not shut out, but waits for its answer for as long as it asks for no update -/
theorem c20_stuck_violated : firstPeer (joins [0, -312] ++ [tells fullReq, .client 0 (.encoded dotFrame) richEnv [],
      tells (Msg.fence 0 2147483649 [1]).wire, .client 0 .written richEnv [], tells (Msg.key 1 0 65).wire,
      .damage [⟨0, 0, 1, 1⟩] (fun _ => (richEnv, []))])
    (fun p => patientB p.log 0 0 && !p.cl.closed && !p.cl.isUpdating && p.log.contains (.key 65 true) &&
      asked p.log == [answerTo 1 [1]] && answered p.log == []) = true := by decide +kernel

end Verif.Echo
