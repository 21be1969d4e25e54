import Verif.Lemmas.Extensions
import Verif.Props.Level

/-!
# C125: clients are told which of their extensions the server knows
-/

namespace Verif.Extensions

open Verif.Server Verif.System Verif.Formats

variable {table : List Nat} {env : Env}

theorem named_append (l m : List Eff) :
    named (l ++ m) = m.foldl (fun a e => match e with | .encodings es => es | _ => a) (named l) := List.foldl_append

theorem named_dull {l es : List Eff} (h : ∀ e ∈ es, dull e = true) : named (l ++ es) = named l := by
  rw [named_append]
  generalize named l = a
  induction es with
  | nil => rfl
  | cons e es ih =>
    rw [List.foldl_cons]
    have h1 := h e (by simp)
    have h2 := ih fun e he => h e (by simp [he])
    cases e <;> first | exact h2 | cases h1

theorem knew_append (l m : List Eff) : knew (l ++ m) = (knew l || knew m) := List.any_append

theorem knew_dull {es : List Eff} (h : ∀ e ∈ es, dull e = true) : knew es = false := by
  refine List.any_eq_false.2 fun e he => ?_
  have h1 := h e he
  cases e <;> first | exact Bool.false_ne_true | cases h1

theorem Answered.more {a d m : List Eff} {es : List Int} (h : Answered a es d) : Answered a es (d ++ m) := by
  obtain ⟨ch, t, rest, h1, rfl⟩ := h
  exact ⟨ch, t, rest ++ m, h1, by simp⟩

/-- a client and the record of its connection -/
structure Known (c : Client) (l : List Eff) : Prop where
  encs : named l = c.encodings
  early : c.st ≠ .ready → ∀ x, .encodings x ∉ l
  cont : knew l = c.contNotified
  ext : c.extNotified = false → ∀ ch b, .send ch .extSupport b ∉ l
  right : ∀ a ch b d, l = a ++ .send ch .extSupport b :: d → b = announcement (named a) ∧
    (-258 ∈ named a ∨ -1001 ∈ named a) ∧ ∀ ch b, .send ch .extSupport b ∉ d
  answers : c.closed = true ∨ ∀ a es d, l = a ++ .encodings es :: d → Answered a es d

theorem Known.mute {s s' : St} (h : Known s.cl s.log) (hm : Mute s s') : Known s'.cl s'.log := by
  obtain ⟨h1, h2, h3, h4, h5, es, h6, h7⟩ := hm
  have he : ∀ x, Eff.encodings x ∉ es := fun x hx => by cases h7 _ hx
  have hx : ∀ ch b, Eff.send ch .extSupport b ∉ es := fun ch b hx => by cases h7 _ hx
  rw [h6]
  refine ⟨by rw [named_dull h7, h4]; exact h.encs, fun hr x hm => ?_,
    by rw [knew_append, knew_dull h7, Bool.or_false, h3]; exact h.cont, fun hn ch b hm => ?_, fun a ch b d hl => ?_, ?_⟩
  · rcases List.mem_append.1 hm with hm | hm
    · exact h.early (h1 ▸ hr) x hm
    · exact he x hm
  · rcases List.mem_append.1 hm with hm | hm
    · exact h.ext (h2 ▸ hn) ch b hm
    · exact hx ch b hm
  · rcases append_eq_cons hl with ⟨q, g1, rfl⟩ | ⟨q, -, g2⟩
    · obtain ⟨k1, k2, k3⟩ := h.right a ch b q g1
      refine ⟨k1, k2, fun ch b hm => ?_⟩
      rcases List.mem_append.1 hm with hm | hm
      · exact k3 ch b hm
      · exact hx ch b hm
    · exact absurd (by rw [g2]; simp) (hx ch b)
  · rcases h.answers with h | h
    · exact .inl (h5 h)
    · refine .inr fun a x d hl => ?_
      rcases append_eq_cons hl with ⟨q, g1, rfl⟩ | ⟨q, -, g2⟩
      · exact (h a x q g1).more
      · exact absurd (by rw [g2]; simp) (he x)


theorem sendExtSupport_eq (s : St) : sendExtSupport s =
    if -258 ∈ s.cl.encodings ∨ -1001 ∈ s.cl.encodings then
      (send .extSupport (announcement s.cl.encodings) s, true) else (s, false) := by
  have hq : hasEnc s.cl encQemuKey = decide (-258 ∈ s.cl.encodings) := by
    unfold hasEnc encQemuKey; exact List.contains_eq_mem ..
  have hn : hasEnc s.cl encNtp = decide (-1001 ∈ s.cl.encodings) := by
    unfold hasEnc encNtp; exact List.contains_eq_mem ..
  have h1 : updateHead 1 = [0, 0, 0, 1] := by decide +kernel
  have h2 : updateHead 2 = [0, 0, 0, 2] := by decide +kernel
  have h3 : rectHead 0 0 0 0 encQemuKey = [0, 0, 0, 0, 0, 0, 0, 0, 0xff, 0xff, 0xfe, 0xfe] := by decide +kernel
  have h4 : rectHead 0 0 0 0 encNtp = [0, 0, 0, 0, 0, 0, 0, 0, 0xff, 0xff, 0xfc, 0x17] := by decide +kernel
  unfold sendExtSupport announcement
  rw [hq, hn]
  by_cases c1 : -258 ∈ s.cl.encodings <;> by_cases c2 : -1001 ∈ s.cl.encodings <;>
    simp [c1, c2, h1, h2, h3, h4]

theorem ext_known {s : St} (hr : s.cl.st = .ready) (h : Known s.cl s.log) (hx : s.cl.extNotified = false) :
    Known (sendExtSupport (s.upd fun k => { k with extNotified := true })).1.cl
      (sendExtSupport (s.upd fun k => { k with extNotified := true })).1.log := by
  have h0 : Known { s.cl with extNotified := true } s.log :=
    ⟨h.encs, fun hn => absurd hr hn, h.cont, nofun, h.right, h.answers⟩
  rw [sendExtSupport_eq]
  split
  · next hc =>
    rw [send_cl, send_log]
    show Known { s.cl with extNotified := true }
      (s.log ++ if s.cl.closed = true then [] else [.send s.cl.chan .extSupport (announcement s.cl.encodings)])
    split
    · rw [List.append_nil]; exact h0
    · refine ⟨by rw [named_append]; exact h.encs, fun hn => absurd hr hn, ?_, nofun, fun a ch b d hl => ?_, .inr ?_⟩
      · rw [knew_append, show knew [.send s.cl.chan .extSupport (announcement s.cl.encodings)] = false from rfl,
          Bool.or_false]
        exact h.cont
      · rcases append_eq_cons hl with ⟨q, g1, rfl⟩ | ⟨q, rfl, g2⟩
        · exact absurd (by rw [g1]; simp) (h.ext hx ch b)
        · cases q with
          | nil =>
            rw [List.nil_append, List.cons.injEq, Eff.send.injEq] at g2
            obtain ⟨⟨-, -, rfl⟩, rfl⟩ := g2
            rw [List.append_nil, h.encs]
            exact ⟨rfl, hc, fun _ _ => List.not_mem_nil⟩
          | cons y q => have := congrArg List.length g2; simp at this
      · intro a x d hl
        rcases append_eq_cons hl with ⟨q, g1, rfl⟩ | ⟨q, rfl, g2⟩
        · rcases h.answers with h | h
          · next hc => exact absurd h hc
          · exact (h a x q g1).more
        · exact absurd (show Eff.encodings x ∈ [Eff.send s.cl.chan .extSupport (announcement s.cl.encodings)] by
            rw [g2]; simp) (by simp)
  · exact h0

/-- what is sent when a client names its encodings -/
theorem encs_sent {s s' : St} {a : Bytes} {n : Nat} (e : onSetEncodings env s a = .ok (s', n)) : s' = s ∨
    ∃ es t m, t.length = 8 ∧ s'.cl.st = s.cl.st ∧ s'.cl.encodings = es ∧ s'.cl.extNotified = s.cl.extNotified ∧
      s'.cl.contNotified = (s.cl.contNotified || es.contains (-313)) ∧ s'.cl.closed = s.cl.closed ∧
      s'.log = s.log ++ .encodings es :: m ∧ m = if s.cl.closed then [] else
        (if -313 ∈ es ∧ s.cl.contNotified = false then [.send s.cl.chan .endOfCont [150]] else []) ++
        (if -1063131698 ∈ es then [.send s.cl.chan .clip capabilities] else []) ++
        (if -312 ∈ es then [.send s.cl.chan .fence ([248, 0, 0, 0, 128, 0, 0, 1, 8] ++ t)] else []) := by
  unfold onSetEncodings at e
  split at e
  · dsimp only at e
    split at e
    · cases e; exact .inl rfl
    · generalize scanEncodings env.experimental _ [] 10 = res at e
      obtain ⟨es, q⟩ := res
      dsimp only at e
      obtain ⟨u, hu, e⟩ := Outcome.bind_eq_ok.1 e
      cases e
      have hcap : [3, 0, 0, 0] ++ be32i (-8) ++ be32 (2 ^ clipCaps + 2 ^ clipText + 2 ^ clipRequest + 2 ^ clipPeek +
          2 ^ clipNotify + 2 ^ clipProvide) ++ be32 0 = capabilities := by decide +kernel
      have hfl : be32 (fenceRequest + fenceBlockBefore) = [128, 0, 0, 1] := by decide +kernel
      have hlen : (be32 env.now ++ be32 0).length = 8 := by simp [be32]
      have hF : ∀ k : Client, hasEnc k encFence = decide (-312 ∈ k.encodings) := fun k => by
        unfold hasEnc encFence; exact List.contains_eq_mem ..
      have hC : ∀ k : Client, hasEnc k encContUpdates = decide (-313 ∈ k.encodings) := fun k => by
        unfold hasEnc encContUpdates; exact List.contains_eq_mem ..
      have hE : ∀ k : Client, hasEnc k encExtClipboard = decide (-1063131698 ∈ k.encodings) := fun k => by
        unfold hasEnc encExtClipboard; exact List.contains_eq_mem ..
      refine .inr ⟨es, be32 env.now ++ be32 0, _, by simp [be32], ?_, ?_, ?_, ?_, ?_, ?_, rfl⟩
      all_goals
        unfold sendPing sendFence at hu
        simp only [hF, hE, notifyCont, hC, sendClipCaps, hcap, hfl, hlen] at hu
        cases c0 : s.cl.closed <;> cases c1 : s.cl.contNotified <;> by_cases c2 : -313 ∈ es <;>
          by_cases c3 : -1063131698 ∈ es <;> by_cases c4 : -312 ∈ es <;>
          simp [Server.send, Server.emit, St.upd, c0, c1, c2, c3, c4] at hu <;> subst hu <;>
          simp [c2, c3, c4]
  · cases e; exact .inl rfl

theorem encs_known {s s' : St} {a : Bytes} {n : Nat} (hr : s.cl.st = .ready) (h : Known s.cl s.log)
    (e : onSetEncodings env s a = .ok (s', n)) : Known s'.cl s'.log := by
  rcases encs_sent e with rfl | ⟨es, t, m, h0, h1, h2, h3, h4, h5, h6, hm⟩
  · exact h
  · have hd : ∀ x ∈ m, dull x = true := by
      intro x hx
      rw [hm] at hx
      split at hx
      · cases hx
      · simp only [List.mem_append] at hx
        rcases hx with (hx | hx) | hx <;> split at hx <;> simp at hx <;> subst hx <;> rfl
    have hx : ∀ ch b, Eff.send ch .extSupport b ∉ Eff.encodings es :: m := fun ch b hx => by
      rcases List.mem_cons.1 hx with hx | hx
      · cases hx
      · cases hd _ hx
    rw [h6]
    refine ⟨?_, fun hn => absurd (h1.trans hr) hn, ?_, fun hn ch b hm => ?_, fun a ch b d hl => ?_, ?_⟩
    · rw [show s.log ++ .encodings es :: m = (s.log ++ [.encodings es]) ++ m by simp, named_dull hd, h2, named_append]
      rfl
    · rw [show s.log ++ .encodings es :: m = (s.log ++ [.encodings es]) ++ m by simp, knew_append, knew_dull hd,
        Bool.or_false, knew_append, h.cont, h4]
      simp [knew]
    · rcases List.mem_append.1 hm with hm | hm
      · exact h.ext (h3 ▸ hn) ch b hm
      · exact hx ch b hm
    · rcases append_eq_cons hl with ⟨q, g1, rfl⟩ | ⟨q, -, g2⟩
      · obtain ⟨k1, k2, k3⟩ := h.right a ch b q g1
        refine ⟨k1, k2, fun ch b hm => ?_⟩
        rcases List.mem_append.1 hm with hm | hm
        · exact k3 ch b hm
        · exact hx ch b hm
      · exact absurd (by rw [g2]; simp) (hx ch b)
    · rcases h.answers with h7 | h7
      · exact .inl (h5.trans h7)
      cases hc : s.cl.closed with
      | true => exact .inl (h5.trans hc)
      | false =>
        refine .inr fun a x d hl => ?_
        rcases append_eq_cons hl with ⟨q, g1, rfl⟩ | ⟨q, rfl, g2⟩
        · exact (h7 a x q g1).more
        · cases q with
          | nil =>
            rw [List.nil_append, List.cons.injEq, Eff.encodings.injEq] at g2
            obtain ⟨rfl, rfl⟩ := g2
            refine ⟨s.cl.chan, t, [], h0, ?_⟩
            rw [hm, hc, List.append_nil, List.append_nil, h.cont]
            simp
          | cons y q =>
            rw [List.cons_append, List.cons.injEq] at g2
            exact absurd (hd (.encodings x) (by rw [g2.2]; simp)) (by simp [dull])

theorem frame_mute {fb : Fb} {s s' : St} (e : stageFrame env fb s = .ok s') : Mute s s' := by
  unfold stageFrame at e
  rcases ite_cases e with ⟨-, e⟩ | ⟨-, e⟩
  · cases e; exact .refl _
  rcases ite_cases e with ⟨-, e⟩ | ⟨-, e⟩
  · cases e; exact .refl _
  cases he : ensureEncoder env fb s with
  | mk t b =>
  obtain ⟨n, en, i, k, m, hf⟩ := ensureEncoder_frame env fb s
  rw [he] at hf e
  dsimp only at hf
  subst hf
  cases b with
  | false =>
    dsimp only at e
    split at e
    · cases e
    · cases e
      exact ⟨rfl, rfl, rfl, rfl, id, [], by simp, by simp⟩
  | true =>
    dsimp only at e
    split at e
    · cases e
    · split at e
      · cases e
        split <;> exact ⟨rfl, rfl, rfl, rfl, id, [_], rfl, by simp [dull]⟩
      · cases e
        exact ⟨rfl, rfl, rfl, rfl, id, [_], rfl, by simp [dull]⟩

theorem sendFrame_mute (f : Frame) (s : St) : Mute s (sendFrame f s) := by
  unfold sendFrame
  dsimp only
  generalize hu : (if resized f s.cl = true then
      sendResizeRect f.w f.h (send .updateHead (updateHead (nRectsSent f s.cl % 65536)) s)
    else send .updateHead (updateHead (nRectsSent f s.cl % 65536)) s) = u
  have h1 : Mute s u := by
    subst hu
    split
    · exact (Mute.send s .updateHead _).trans ((Mute.upd _).trans (.send _ .resizeRect _))
    · exact .send s .updateHead _
  refine h1.trans (.trans (t := sendPts f.pts u) ?_ (.send _ .frame _))
  unfold sendPts
  split
  · exact .refl _
  · split
    · exact .send _ .ptsRect _
    · exact .refl _

theorem micro_known {lp s s'} (hm : Micro lp table s s') (h : Known s.cl s.log) : Known s'.cl s'.log := by
  cases hm with
  | fenceOut => exact h.mute (.send _ _ _)
  | pfFire => exact h.mute ((Mute.upd _).trans (.send _ _ _))
  | ext hr hx => exact ext_known hr h hx
  | cursor env => exact h.mute (sendCursor_mute env s)
  | led hr => exact h.mute (sendLed_mute s)
  | frame env fb hr e => exact h.mute (frame_mute e)
  | sendFrame f hr hd _ hf => exact h.mute (sendFrame_mute f s)
  | hs env r a h1 h2 =>
    have hf := hs_frame h1 h2
    obtain ⟨_, _, _, _, _, _, _, _, _, _, _, h3⟩ := hf.cl
    obtain ⟨es, h4, h5⟩ := hf.log
    have hd : ∀ e ∈ es, dull e = true := by
      intro e he
      cases h5 e he with
      | send ch k m hk =>
        cases k <;> first | rfl | (exfalso; revert hk; cases s.cl.st <;> simp [hsKind])
      | _ => rfl
    have hn := h.early h1
    have hk : ∀ x, Eff.encodings x ∉ s'.log := fun x hx => by
      rw [h4] at hx
      rcases List.mem_append.1 hx with hx | hx
      · exact hn x hx
      · cases hd _ hx
    have hm : Known s.cl s'.log := by
      have := h.mute (s' := { s with log := s'.log }) ⟨rfl, rfl, rfl, rfl, id, es, h4, hd⟩
      exact this
    exact ⟨by rw [h3]; exact hm.encs, fun _ => hk, by rw [h3]; exact hm.cont, by rw [h3]; exact hm.ext, hm.right,
      .inr fun a x d hl => absurd (by rw [hl]; simp) (hk x)⟩
  | simple env a h1 h2 =>
    rcases simple_mute h2 with e | e
    · exact encs_known h1 h e
    · exact h.mute e
  | fbReq inc r => exact h.mute (fbReqPre_mute inc r s)
  | contOn => exact h.mute ((Mute.upd _).trans (.emit _))
  | contOff => exact h.mute ((Mute.upd _).trans (.send _ _ _))
  | fenceReq flags payload h1 hp h2 => exact h.mute (fenceReq_mute h2)
  | consume => exact h.mute ((Mute.upd _).trans (.emit _))
  | bigCut env c d hr hc h1 h2 => exact h.mute (bigCutText_mute h2)
  | remoteClosed => exact h.mute ((streamClose_mute s).trans (deferClose_mute _))
  | flushed => exact h.mute (streamClose_mute s)
  | free hl h1 => exact h.mute (freeClient_mute s)
  | idle hl h1 h2 => exact h.mute ((Mute.upd s).trans (freeClient_mute _))
  | encoded f hr he => exact h.mute ((Mute.upd _).trans (.emit _))
  | setLed v => exact h.mute ((Mute.upd _).trans (.emit _))
  | damage r => exact h.mute ((Mute.upd _).trans (.emit _))
  | net => exact h.mute (.world rfl rfl)
  | display => exact h.mute (.world rfl rfl)
  | setCursor => exact h.mute (.world rfl rfl)
  | _ => exact h.mute (.upd _)

theorem known_stays : Stays table Known :=
  ⟨fun _ _ hm _ h => micro_known hm h, fun s text _ h => by
    rw [← cutTextTo_cl text s]
    exact h.mute (cutTextTo_mute text s)⟩

theorem known_all {s0 s : Sys} {ops : List SysOp} (h0 : s0.peers = []) (e : sysRun table ops s0 = .ok s)
    {p : Peer} (hp : p ∈ s.peers) : Known p.cl p.log := by
  refine known_stays.all (fun srv => ?_) h0 e hp
  have hn : ∀ x, x ∈ (start srv).log → x = .send .plain .version versionMsg := fun x hx => by simpa [start] using hx
  refine ⟨rfl, fun _ x hx => (nomatch hn _ hx), rfl, fun _ ch b hx => (nomatch hn _ hx), fun a ch b d hl => ?_,
    .inr fun a x d hl => ?_⟩
  · have := hn (.send ch .extSupport b) (by rw [hl]; simp)
    cases this
  · have := hn (.encodings x) (by rw [hl]; simp)
    cases this

/-- **C125**, the part that holds at once: whenever a client names its encodings, the server answers to those of
fences, of continuous updates (the first time) and of the extended clipboard, and to nothing else, before it sends
anything else to that client.

Missing: connections that are closed by now. What is sent to those is not sent any more. -/
theorem c125_answers_partial {s0 s : Sys} {ops : List SysOp} (h0 : s0.peers = []) (e : sysRun table ops s0 = .ok s)
    {p : Peer} (hp : p ∈ s.peers) (hc : p.cl.closed = false) {a d : List Eff} {es : List Int}
    (hl : p.log = a ++ .encodings es :: d) : Answered a es d := by
  rcases (known_all h0 e hp).answers with h | h
  · rw [hc] at h; cases h
  · exact h a es d hl

/-- **C125**: what the server says about the other two extensions is right: it names those that the client named last,
and there is at least one. It says so at most once per connection. -/
theorem c125_announced {s0 s : Sys} {ops : List SysOp} (h0 : s0.peers = []) (e : sysRun table ops s0 = .ok s)
    {p : Peer} (hp : p ∈ s.peers) {a d : List Eff} {ch : Chan} {b : Bytes}
    (hl : p.log = a ++ .send ch .extSupport b :: d) :
    b = announcement (named a) ∧ (-258 ∈ named a ∨ -1001 ∈ named a) ∧ ∀ ch b, .send ch .extSupport b ∉ d :=
  (known_all h0 e hp).right a ch b d hl

/-- **C125**, the part that holds of the announcement: the first request for an update, of whatever kind, of a client
that has named one of the two extensions, is answered with the announcement before anything else is sent.

Missing: clients that name them after their first request, see `c125_late_violated`. -/
theorem c125_first_partial {s s' : St} (hr : s.cl.st = .ready) (ho : s.cl.closed = false)
    (hx : s.cl.extNotified = false) (hu : s.cl.isUpdating = false) (hb : s.srv.fb ≠ none) (hp : 0 ≤ s.cl.nPending)
    (hc : s.cl.cont = false) (he : -258 ∈ s.cl.encodings ∨ -1001 ∈ s.cl.encodings) {inc : UInt8} {q : Rect}
    (hq : q.Fits) {rest : Bytes} {n : Nat}
    (e : tryRead env table reenterInHandler s ((Msg.fbRequest inc q).wire ++ rest) = .ok (s', n)) :
    s.log ++ [.fbReq (inc != 0) q.x q.y q.w q.h,
      .send s.cl.chan .extSupport (announcement s.cl.encodings)] <+: s'.log := by
  rw [msg_fbRequest hr hq, if_neg (by simp [hc])] at e
  obtain ⟨t, ht, e⟩ := Outcome.bind_eq_ok.1 e
  cases e
  obtain ⟨h1, h2, ⟨kw, kh, h3⟩, h4⟩ := fbReqPre_frame (inc != 0) q s
  generalize fbReqPre (inc != 0) q s = u at ht h1 h2 h3 h4
  have c1 : u.cl.closed = false := by rw [h3]; exact ho
  have c2 : u.cl.isUpdating = false := by rw [h3]; exact hu
  have c3 : u.cl.extNotified = false := by rw [h3]; exact hx
  have c4 : u.cl.nPending ≠ 0 := by rw [h3]; show s.cl.nPending + 1 ≠ 0; omega
  have c5 : u.cl.encodings = s.cl.encodings := by rw [h3]
  have c6 : u.cl.chan = s.cl.chan := by rw [h3]
  have c7 : u.cl.st = .ready := by rw [h3]; exact hr
  generalize hL : s.log ++ [.fbReq (inc != 0) q.x q.y q.w q.h,
      .send s.cl.chan .extSupport (announcement s.cl.encodings)] = L
  let I : St → Prop := fun s => s.cl.st = .ready ∧ L <+: s.log
  have hI : ∀ s, I s → s.cl.st = .ready := fun _ h => h.1
  have hm : ∀ s s', Micro false table s s' → I s → I s' :=
    fun s s' hm h => ⟨micro_ready hm h.1, by
      obtain ⟨es, h1, -⟩ := (micro_levels hm).log
      rw [h1]; exact h.2.trans (List.prefix_append _ _)⟩
  have hre := reenterInHandler_keeps hm
  unfold processFb at ht
  rw [if_neg (by simp [c1])] at ht
  cases hf : u.srv.fb with
  | none => rw [h1] at hf; exact absurd hf hb
  | some fb =>
  rw [hf] at ht
  dsimp only at ht
  rw [if_neg (by simp [c2]), if_neg (by simp [c4])] at ht
  obtain ⟨⟨v, b⟩, hv, ht⟩ := Outcome.bind_eq_ok.1 ht
  have i1 : I v := by
    unfold stageExt at hv
    rw [if_neg (by simp [c3])] at hv
    dsimp only at hv
    rw [sendExtSupport_eq, if_pos (by rw [St.upd_cl]; show _ ∈ u.cl.encodings ∨ _ ∈ u.cl.encodings; rw [c5]; exact he)] at hv
    dsimp only at hv
    refine decrementPending_inv hI hm hre ?_ hv
    refine ⟨by rw [send_cl]; exact c7, ?_⟩
    rw [send_log, ← hL]
    show _ <+: u.log ++ if u.cl.closed = true then [] else [.send u.cl.chan .extSupport (announcement u.cl.encodings)]
    rw [c1, c5, c6, h4]
    simp
  cases b
  · cases ht; exact i1.2
  obtain ⟨⟨w, b⟩, hw, ht⟩ := Outcome.bind_eq_ok.1 ht
  have i2 := stageCursor_inv hI hm hre i1 hw
  cases b
  · cases ht; exact i2.2
  obtain ⟨⟨x, b⟩, hx, ht⟩ := Outcome.bind_eq_ok.1 ht
  have i3 := stageLed_inv hI hm hre i2 hx
  cases b
  · cases ht; exact i3.2
  exact (hm _ _ (.frame x env _ (hI _ i3) ht) i3).2

/-- a client that has had its announcement, or missed it -/
def Late (l0 : List Eff) (c : Client) (l : List Eff) : Prop :=
  c.extNotified = true ∧ ∃ es, l = l0 ++ es ∧ ∀ ch b, .send ch .extSupport b ∉ es

theorem Late.more {l0 : List Eff} {s s' : St} (h : Late l0 s.cl s.log)
    (h1 : s'.cl.extNotified = s.cl.extNotified)
    (h2 : ∃ es, s'.log = s.log ++ es ∧ ∀ ch b, .send ch .extSupport b ∉ es) : Late l0 s'.cl s'.log := by
  obtain ⟨g1, es, g2, g3⟩ := h
  obtain ⟨fs, k1, k2⟩ := h2
  refine ⟨h1.trans g1, es ++ fs, by rw [k1, g2, List.append_assoc], fun ch b hx => ?_⟩
  rcases List.mem_append.1 hx with hx | hx
  · exact g3 ch b hx
  · exact k2 ch b hx

theorem Late.mute {l0 : List Eff} {s s' : St} (h : Late l0 s.cl s.log) (hm : Mute s s') : Late l0 s'.cl s'.log := by
  obtain ⟨es, h1, h2⟩ := hm.log
  exact h.more hm.xn ⟨es, h1, fun ch b hx => by cases h2 _ hx⟩

theorem micro_late {l0 : List Eff} {lp s s'} (hm : Micro lp table s s') (h : Late l0 s.cl s.log) :
    Late l0 s'.cl s'.log := by
  cases hm with
  | fenceOut => exact h.mute (.send _ _ _)
  | pfFire => exact h.mute ((Mute.upd _).trans (.send _ _ _))
  | ext hr hx => exact absurd (h.1.symm.trans hx) (by decide)
  | cursor env => exact h.mute (sendCursor_mute env s)
  | led hr => exact h.mute (sendLed_mute s)
  | frame env fb hr e => exact h.mute (frame_mute e)
  | sendFrame f hr hd _ hf => exact h.mute (sendFrame_mute f s)
  | hs env r a h1 h2 =>
    have hf := hs_frame h1 h2
    obtain ⟨_, _, _, _, _, _, _, _, _, _, _, h3⟩ := hf.cl
    obtain ⟨es, h4, h5⟩ := hf.log
    refine h.more (by rw [h3]) ⟨es, h4, fun ch b he => ?_⟩
    cases h5 _ he with
    | send ch k m hk => revert hk; cases s.cl.st <;> simp [hsKind]
  | simple env a h1 h2 =>
    rcases simple_mute h2 with e | e
    · rcases encs_sent e with rfl | ⟨es, t, m, -, -, -, h3, -, -, h6, hm⟩
      · exact h
      · refine h.more h3 ⟨_, h6, fun ch b hx => ?_⟩
        rcases List.mem_cons.1 hx with hx | hx
        · cases hx
        · rw [hm] at hx
          split at hx
          · cases hx
          · simp only [List.mem_append] at hx
            rcases hx with (hx | hx) | hx <;> split at hx <;> simp at hx
    · exact h.mute e
  | fbReq inc r => exact h.mute (fbReqPre_mute inc r s)
  | contOn => exact h.mute ((Mute.upd _).trans (.emit _))
  | contOff => exact h.mute ((Mute.upd _).trans (.send _ _ _))
  | fenceReq flags payload h1 hp h2 => exact h.mute (fenceReq_mute h2)
  | consume => exact h.mute ((Mute.upd _).trans (.emit _))
  | bigCut env c d hr hc h1 h2 => exact h.mute (bigCutText_mute h2)
  | remoteClosed => exact h.mute ((streamClose_mute s).trans (deferClose_mute _))
  | flushed => exact h.mute (streamClose_mute s)
  | free hl h1 => exact h.mute (freeClient_mute s)
  | idle hl h1 h2 => exact h.mute ((Mute.upd s).trans (freeClient_mute _))
  | encoded f hr he => exact h.mute ((Mute.upd _).trans (.emit _))
  | setLed v => exact h.mute ((Mute.upd _).trans (.emit _))
  | damage r => exact h.mute ((Mute.upd _).trans (.emit _))
  | net => exact h.mute (.world rfl rfl)
  | display => exact h.mute (.world rfl rfl)
  | setCursor => exact h.mute (.world rfl rfl)
  | _ => exact h.mute (.upd _)

/-- a client that asks for an update before it names its encodings -/
def early : List (Op × Env × List Read) := (enter []).take 3 ++ [reads fullReq]

/-- **C125** is violated: a client that asks for an update before it names its encodings, as every client may, is never
told about the two extensions, whatever it names and asks for from then on. The connection is open and ready. -/
theorem c125_late_violated : ∃ s, run [] early (start demoSrv) = .ok s ∧ s.cl.st = .ready ∧ s.cl.closed = false ∧
    s.cl.encodings = [] ∧ ∀ evs s', run [] evs s = .ok s' → ∀ ch b, .send ch .extSupport b ∉ s'.log := by
  have h : runCheck early (fun s => s.cl.st == .ready && !s.cl.closed && s.cl.encodings == [] && s.cl.extNotified &&
      s.log.all fun e => match e with | .send _ .extSupport _ => false | _ => true) = true := by decide +kernel
  obtain ⟨s, h1, h2⟩ := runCheck_iff.1 h
  simp only [Bool.and_eq_true, beq_iff_eq, Bool.not_eq_true'] at h2
  obtain ⟨⟨⟨⟨h2, h3⟩, h4⟩, h5⟩, h6⟩ := h2
  refine ⟨s, h1, h2, h3, h4, fun evs s' e ch b hx => ?_⟩
  obtain ⟨-, -, es, h7, h8⟩ := run_inv (I := fun t => Late s.log t.cl t.log) (fun _ _ hm _ h => micro_late hm h) evs
    (fun hn => absurd h2 hn) ⟨h5, [], by simp, by simp⟩ e
  rw [h7] at hx
  rcases List.mem_append.1 hx with hx | hx
  · exact absurd (List.all_eq_true.1 h6 _ hx) (by simp)
  · exact h8 ch b hx

/-- That client names the extension, asks for the next update and gets a frame, but no announcement. -/
example : runCheck (early ++ [(.encoded demoFrame, cursorEnv, []), (.written, cursorEnv, []),
      reads (Msg.setEncodings 0 [-258]).wire, reads fullReq])
    (fun s => s.cl.encodings == [-258] && s.log.any (fun e => match e with | .send _ .frame _ => true | _ => false)) =
      true := by decide +kernel

/-- Another one names everything before it asks; all is answered, and the second time it names them no more than has to be. -/
example : runCheck (enter [7, -313, -312, -258, -1063131698] ++ [reads fullReq,
      reads (Msg.setEncodings 0 [-313, -312]).wire])
    (fun s => s.log.filterMap (fun e => match e with
      | .encodings es => some (es.length, [])
      | .send _ .endOfCont b => some (0, b)
      | .send _ .clip b => some (1, b)
      | .send _ .fence b => some (2, b.take 9)
      | .send _ .extSupport b => some (3, b)
      | _ => none) ==
      [(5, []), (0, [150]), (1, capabilities), (2, [248, 0, 0, 0, 128, 0, 0, 1, 8]), (3, announcement [-258]),
        (2, []), (2, [248, 0, 0, 0, 128, 0, 0, 1, 8])]) = true := by decide +kernel

end Verif.Extensions
