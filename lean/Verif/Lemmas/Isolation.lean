import Verif.Lemmas.System

/-!
# What one client's events depend on

The only thing in `struct nvnc` that the events of different clients write again and again is the
counter `n_damage_clients`.  No event of a client looks at it: an event that starts with another
value of the counter does the same and ends with the counter off by the same amount (`step_damp`).
-/

namespace Verif

/-- apply a function to the result -/
def Outcome.map {α β : Type} (f : α → β) : Outcome α → Outcome β
  | .ok a => .ok (f a)
  | .ub w => .ub w
  | .abort w => .abort w

@[simp] theorem Outcome.map_ok {α β} (f : α → β) (a) : (Outcome.ok a).map f = .ok (f a) := rfl
@[simp] theorem Outcome.map_ub {α β} (f : α → β) (w) : (Outcome.ub w).map f = .ub w := rfl
@[simp] theorem Outcome.map_abort {α β} (f : α → β) (w) : (Outcome.abort w).map f = .abort w := rfl

theorem Outcome.map_bind {α β γ} (x : Outcome α) (f : α → Outcome β) (g : β → γ) :
    (x >>= f).map g = x >>= fun a => (f a).map g := by cases x <;> rfl

theorem Outcome.bind_map {α β γ} (x : Outcome α) (f : β → Outcome γ) (g : α → β) :
    x.map g >>= f = x >>= fun a => f (g a) := by cases x <;> rfl

theorem Outcome.bind_congr {α β} (x : Outcome α) {f g : α → Outcome β} (h : ∀ a, f a = g a) :
    x >>= f = x >>= g := by
  have : f = g := funext h
  rw [this]

theorem ite_through {α β : Type} {c : Prop} [Decidable c] {a b : β} {a' b' : α} {f : α → β}
    (h : c → a = f a') (h' : ¬c → b = f b') : (if c then a else b) = f (if c then a' else b') := by
  by_cases hc : c
  · rw [if_pos hc, if_pos hc]; exact h hc
  · rw [if_neg hc, if_neg hc]; exact h' hc

namespace Server

/-- the same state with the counter of clients that need damage off by `n` -/
def St.damp (n : Int) (s : St) : St :=
  { s with srv := { s.srv with nDamageClients := s.srv.nDamageClients + n } }

variable {n : Int}

theorem damp_cl (s : St) : (s.damp n).cl = s.cl := rfl
theorem damp_net (s : St) : (s.damp n).net = s.net := rfl
theorem damp_log (s : St) : (s.damp n).log = s.log := rfl
theorem damp_fb (s : St) : (s.damp n).srv.fb = s.srv.fb := rfl
theorem damp_name (s : St) : (s.damp n).srv.name = s.srv.name := rfl
theorem damp_seq (s : St) : (s.damp n).srv.cursorSeq = s.srv.cursorSeq := rfl
theorem damp_clip (s : St) : (s.damp n).srv.provideMsg = s.srv.provideMsg := rfl
theorem damp_sec (s : St) : (s.damp n).srv.secTypes = s.srv.secTypes := rfl
theorem upd_damp (f : Client → Client) (s : St) : (s.damp n).upd f = (s.upd f).damp n := rfl
theorem emit_damp (e s) : emit e (s.damp n) = (emit e s).damp n := rfl
theorem upd_cl (f : Client → Client) (s : St) : (s.upd f).cl = f s.cl := rfl

/-- on the state of a pair -/
def both (n : Int) {α : Type} (p : St × α) : St × α := (p.1.damp n, p.2)

theorem both_mk {α} (s : St) (a : α) : both n (s, a) = (s.damp n, a) := rfl

macro "cut" : tactic => `(tactic| first
  | refine ite_through (fun _ => ?_) (fun _ => ?_)
  | split)

theorem send_damp (k b s) : send k b (s.damp n) = (send k b s).damp n := by
  unfold send; cut <;> rfl

/-- what is known about a nested handler -/
def Blind (n : Int) (f : St → Outcome St) : Prop := ∀ s, f (s.damp n) = (f s).map (St.damp n)

macro "damp" : tactic => `(tactic| simp +instances only [damp_cl, damp_net, damp_log, damp_fb, damp_name,
  damp_seq, damp_clip, damp_sec, upd_damp, emit_damp, send_damp, both_mk, Outcome.map_bind,
  Outcome.bind_map, Outcome.bind_ok, Outcome.bind_ub, Outcome.bind_abort, Outcome.map_ok,
  Outcome.map_ub, Outcome.map_abort])

macro "leaf" : tactic => `(tactic| first
  | with_reducible rfl
  | (damp; done)
  | rfl)

macro "parts" : tactic => `(tactic| (repeat' (first | leaf | cut)))

theorem sendFence_damp (fl p s) : sendFence fl p (s.damp n) = (sendFence fl p s).map (St.damp n) := by
  unfold sendFence; damp; parts

theorem sendPing_damp (env m s) : sendPing env m (s.damp n) = (sendPing env m s).map (St.damp n) := by
  unfold sendPing; damp; cut
  · rfl
  · exact sendFence_damp _ _ _

theorem ppf_damp {r} (hr : Blind n r) (s) :
    processPendingFence r (s.damp n) = (processPendingFence r s).map (St.damp n) := by
  unfold processPendingFence; damp
  cut
  · parts
  · cut
    · rfl
    · damp
      simp only [sendFence_damp, Outcome.bind_map]
      refine Outcome.bind_congr _ fun t => ?_
      rw [upd_damp]; exact hr _

theorem dec_damp {r} (hr : Blind n r) (s) :
    decrementPending r (s.damp n) = (decrementPending r s).map (both n) := by
  unfold decrementPending; damp
  cut
  · rfl
  · cut
    · rfl
    · simp only [ppf_damp hr, Outcome.bind_map, Outcome.map_bind]; rfl

theorem sendExt_damp (s) : sendExtSupport (s.damp n) = both n (sendExtSupport s) := by
  unfold sendExtSupport; damp; cut <;> rfl

theorem stageExt_damp {r} (hr : Blind n r) (s) :
    stageExt r (s.damp n) = (stageExt r s).map (both n) := by
  unfold stageExt; damp
  cut
  · rfl
  · rw [sendExt_damp]
    rcases sendExtSupport _ with ⟨t, b⟩
    cases b
    · rfl
    · exact dec_damp hr _

theorem sendCursor_damp (env s) : sendCursor env (s.damp n) = (sendCursor env s).damp n := by
  unfold sendCursor; damp; cut <;> rfl

theorem stageCursor_damp {r} (hr : Blind n r) (env s) :
    stageCursor env r (s.damp n) = (stageCursor env r s).map (both n) := by
  unfold stageCursor; damp
  cut
  · rw [sendCursor_damp]; exact dec_damp hr _
  · rfl

theorem sendLed_damp (s) : sendLed (s.damp n) = both n (sendLed s) := by
  unfold sendLed; damp; parts

theorem stageLed_damp {r} (hr : Blind n r) (s) :
    stageLed r (s.damp n) = (stageLed r s).map (both n) := by
  unfold stageLed; rw [sendLed_damp]
  rcases sendLed s with ⟨t, b⟩
  cases b
  · rfl
  · exact dec_damp hr _

theorem ensureEncoder_damp (env fb s) :
    ensureEncoder env fb (s.damp n) = both n (ensureEncoder env fb s) := by
  unfold ensureEncoder
  damp
  have h1 : ∀ d : Int, s.srv.nDamageClients + n - d = s.srv.nDamageClients - d + n := by
    intro d; omega
  have h2 : ∀ d e : Int, s.srv.nDamageClients - d + n + e = s.srv.nDamageClients - d + e + n := by
    intro d e; omega
  cut
  · rfl
  · cut
    · simp only [both, St.damp, h1, h2]
    · cut
      · simp only [both, St.damp, h1]
      · simp only [both, St.damp, h1, h2]; rfl

theorem stageFrame_damp (env fb s) :
    stageFrame env fb (s.damp n) = (stageFrame env fb s).map (St.damp n) := by
  unfold stageFrame
  damp
  cut
  · rfl
  · cut
    · rfl
    · rw [ensureEncoder_damp]
      rcases ensureEncoder env fb s with ⟨t, b⟩
      cases b
      · simp only [both_mk]; cut <;> rfl
      · simp only [both_mk]; damp
        cut
        · rfl
        · cut
          · simp only [St.upd_cl, emit_cl]
            refine congrArg Outcome.ok ?_
            exact ite_through (fun _ => rfl) (fun _ => rfl)
          · rfl

theorem processFb_damp {r} (hr : Blind n r) (env s) :
    processFb env r (s.damp n) = (processFb env r s).map (St.damp n) := by
  unfold processFb; damp
  cut
  · rfl
  · cut
    · rfl
    · cut
      · rfl
      · cut
        · rfl
        · rw [stageExt_damp hr]; damp
          refine Outcome.bind_congr _ fun ⟨t, go⟩ => ?_
          simp only [both_mk]
          cases go
          · rfl
          · simp only [Bool.not_true, Bool.false_eq_true, if_false]
            rw [stageCursor_damp hr]; damp
            refine Outcome.bind_congr _ fun ⟨t, go⟩ => ?_
            simp only [both_mk]
            cases go
            · rfl
            · simp only [Bool.not_true, Bool.false_eq_true, if_false]
              rw [stageLed_damp hr]; damp
              refine Outcome.bind_congr _ fun ⟨t, go⟩ => ?_
              simp only [both_mk]
              cases go
              · rfl
              · exact stageFrame_damp _ _ _

theorem completeFb_damp {r} (hr : Blind n r) (env s) :
    completeFb env r (s.damp n) = (completeFb env r s).map (St.damp n) := by
  unfold completeFb; damp
  cut
  · rfl
  · exact processFb_damp hr _ _

theorem sendResizeRect_damp (w h s) : sendResizeRect w h (s.damp n) = (sendResizeRect w h s).damp n := by
  unfold sendResizeRect; rw [upd_damp, ← send_damp]; rfl

theorem sendPts_damp (p s) : sendPts p (s.damp n) = (sendPts p s).damp n := by
  unfold sendPts; damp; parts

theorem sendFrame_damp (f s) : sendFrame f (s.damp n) = (sendFrame f s).damp n := by
  unfold sendFrame; damp
  cut
  · simp only [sendResizeRect_damp, sendPts_damp, send_damp]
  · simp only [sendPts_damp, send_damp]

theorem finishFb_damp {r} (hr : Blind n r) (env f s) :
    finishFb env r f (s.damp n) = (finishFb env r f s).map (St.damp n) := by
  unfold finishFb; damp
  cut
  · exact completeFb_damp hr _ _
  · cut
    · exact completeFb_damp hr _ _
    · cut
      · rfl
      · rw [sendFrame_damp]
        have h : (if env.sentAtOnce = true then completeFb env r ((sendFrame f s).damp n)
            else .ok (((sendFrame f s).damp n).upd fun k => { k with writing := true })) =
            (if env.sentAtOnce = true then completeFb env r (sendFrame f s)
            else .ok ((sendFrame f s).upd fun k => { k with writing := true })).map (St.damp n) := by
          cut
          · exact completeFb_damp hr _ _
          · rfl
        rw [show ∀ k, ((if env.sentAtOnce = true then completeFb env r ((sendFrame f s).damp n)
            else .ok (((sendFrame f s).damp n).upd fun k => { k with writing := true })) >>= k) =
            _ from fun k => congrArg (· >>= k) h]; damp
        refine Outcome.bind_congr _ fun t => ?_
        rw [sendPing_damp]; damp
        exact Outcome.bind_congr _ fun t => ppf_damp hr _

theorem deferClose_damp (s) : deferClose (s.damp n) = (deferClose s).damp n := rfl

theorem streamClose_damp (s) : streamClose (s.damp n) = (streamClose s).damp n := by
  unfold streamClose; damp; simp only [deferClose_damp]; parts

theorem remoteClosed_damp (s) : remoteClosed (s.damp n) = (remoteClosed s).damp n := by
  unfold remoteClosed; rw [streamClose_damp, deferClose_damp]

theorem freeClient_damp (s) : freeClient (s.damp n) = (freeClient s).damp n := by
  unfold freeClient; rw [streamClose_damp]
  damp
  have h1 : ∀ d : Int, (streamClose s).srv.nDamageClients + n - d =
      (streamClose s).srv.nDamageClients - d + n := by
    intro d; omega
  simp only [St.damp, h1]

theorem sendAndClose_damp (env k b s) :
    sendAndClose env k b (s.damp n) = (sendAndClose env k b s).damp n := by
  unfold sendAndClose; damp; simp only [deferClose_damp, remoteClosed_damp]; parts

theorem hsFailed_damp (env b s) :
    handshakeFailed env b (s.damp n) = (handshakeFailed env b s).damp n := by
  unfold handshakeFailed; damp; exact sendAndClose_damp _ _ _ _

theorem hsOk_damp (u s) : handshakeOk u (s.damp n) = (handshakeOk u s).damp n := by
  unfold handshakeOk; cases u <;> damp

theorem badVersion_damp (env s) : badVersion env (s.damp n) = (badVersion env s).damp n := by
  unfold badVersion; damp; exact sendAndClose_damp _ _ _ _

theorem authenticate_damp (env u p s) :
    authenticate env u p (s.damp n) = (authenticate env u p s).damp n := by
  unfold authenticate; damp; simp only [hsOk_damp, hsFailed_damp, upd_damp]; parts

/-- what is known about the handler of a message -/
def BlindH (n : Int) (f : Handler) : Prop := ∀ s a, f (s.damp n) a = (f s a).map (both n)

theorem onVersion_damp (env) : BlindH n (onVersion env) := by
  intro s a
  unfold onVersion
  cut
  · rfl
  · cut
    · simp only [badVersion_damp]; rfl
    · have h : initSecTypes (s.damp n).srv = (initSecTypes s.srv).map
          (fun v => { v with nDamageClients := v.nDamageClients + n }) := by
        unfold initSecTypes St.damp; parts
      rw [h, Outcome.bind_map, Outcome.map_bind]
      refine Outcome.bind_congr _ fun v => ?_
      show Outcome.ok ((send .secTypes _ (({ s with srv := v } : St).damp n)).upd _, 12) = _
      rw [send_damp, upd_damp]
      rfl

theorem onSecurity_damp (env) : BlindH n (onSecurity env) := by
  intro s a
  unfold onSecurity
  damp
  simp only [hsFailed_damp, hsOk_damp, upd_damp]
  parts

theorem onVeVersion_damp (env) : BlindH n (onVeVersion env) := by
  intro s a; unfold onVeVersion; damp; simp only [hsFailed_damp]; parts

theorem onVeSubtype_damp (env) : BlindH n (onVeSubtype env) := by
  intro s a; unfold onVeSubtype; damp; simp only [sendAndClose_damp]; parts

theorem vePlainBody_damp (env a u p s) :
    vePlainBody env a u p (s.damp n) = (vePlainBody env a u p s).map (both n) := by
  unfold vePlainBody; simp only [authenticate_damp]; parts

theorem onVePlain_damp (env) : BlindH n (onVePlain env) := by
  intro s a; unfold onVePlain
  split
  · exact vePlainBody_damp _ _ _ _ _
  · rfl

theorem onAppleDh_damp (env) : BlindH n (onAppleDh env) := by
  intro s a; unfold onAppleDh; simp only [authenticate_damp]; parts

theorem rsaPubKeyBody_damp (env a k s) :
    rsaPubKeyBody env a k (s.damp n) = (rsaPubKeyBody env a k s).map (both n) := by
  unfold rsaPubKeyBody; damp; parts

theorem onRsaPubKey_damp (env) : BlindH n (onRsaPubKey env) := by
  intro s a; unfold onRsaPubKey
  split
  · exact rsaPubKeyBody_damp _ _ _ _
  · rfl

theorem onRsaChallenge_damp (env) : BlindH n (onRsaChallenge env) := by
  intro s a; unfold onRsaChallenge; damp; parts

theorem onRsaHash_damp (env) : BlindH n (onRsaHash env) := by
  intro s a; unfold onRsaHash; damp; parts

theorem onRsaCreds_damp (env) : BlindH n (onRsaCreds env) := by
  intro s a; unfold onRsaCreds; simp only [authenticate_damp]; parts

theorem onInit_damp : BlindH n onInit := by
  intro s a
  unfold onInit sendServerInit
  cut
  · rfl
  · damp
    rename_i sh _
    by_cases h : sh = 0
    · simp only [h, if_true]; damp; simp only [emit_srv]
      cases s.srv.fb with
      | none => rfl
      | some fb => dsimp only; cases fb.fmt with
        | none => rfl
        | some f => dsimp only; damp
    · simp only [h, if_false]; damp
      cases s.srv.fb with
      | none => rfl
      | some fb => dsimp only; cases fb.fmt with
        | none => rfl
        | some f => dsimp only; damp

theorem onSetPixelFormat_damp : BlindH n onSetPixelFormat := by
  intro s a; unfold onSetPixelFormat; damp; parts

theorem notifyCont_damp (s) : notifyCont (s.damp n) = (notifyCont s).damp n := by
  unfold notifyCont; damp; parts

theorem sendClipCaps_damp (s) : sendClipCaps (s.damp n) = (sendClipCaps s).damp n := by
  unfold sendClipCaps; damp

theorem onSetEncodings_damp (env) : BlindH n (onSetEncodings env) := by
  intro s a; unfold onSetEncodings
  cut
  · dsimp only
    cut
    · rfl
    · rcases scanEncodings env.experimental _ [] 10 with ⟨encs, q⟩
      damp
      simp only [notifyCont_damp, sendClipCaps_damp, damp_cl]
      cut
      · simp only [sendPing_damp]; damp
      · simp only [sendPing_damp]; damp
  · rfl

theorem fbReqPre_damp (i r s) : fbReqPre i r (s.damp n) = (fbReqPre i r s).damp n := by
  unfold fbReqPre forgetSize; damp; parts

theorem onFbRequest_damp {r} (hr : Blind n r) (env) : BlindH n (onFbRequest env r) := by
  intro s a; unfold onFbRequest
  cut
  · damp; cut
    · rfl
    · rw [fbReqPre_damp, processFb_damp hr]; damp
  · rfl

theorem onKey_damp : BlindH n onKey := by intro s a; unfold onKey; damp; parts
theorem onPointer_damp : BlindH n onPointer := by intro s a; unfold onPointer; damp; parts
theorem onQemu_damp (table) : BlindH n (onQemu table) := by
  intro s a; unfold onQemu onQemuKey; damp; parts

theorem clipProvideText_damp (env z s) :
    clipProvideText env z (s.damp n) = (clipProvideText env z s).map (St.damp n) := by
  unfold clipProvideText; damp; parts

theorem clipAction_damp (env f l b s) :
    clipAction env f l b (s.damp n) = (clipAction env f l b s).map (St.damp n) := by
  unfold clipAction clipSetCaps sendClipProvide sendClipNotify sendClipRequest; damp
  simp only [clipProvideText_damp]
  parts

theorem extTail_damp (env fl len l body e s) (k m : Nat) (w w' : String) (c0 c1 c2 c3 : Prop)
    [Decidable c0] [Decidable c1] [Decidable c2] [Decidable c3] :
    (if c0 then .ub w else if c1 then .ok (s.damp n, 0) else if c2 then .ub w'
      else if c3 then .ok (clipBegin fl l body (s.damp n), k)
      else clipAction env fl len body (emit e (s.damp n)) >>= fun s => .ok (s, m)) =
    (if c0 then .ub w else if c1 then .ok (s, 0) else if c2 then .ub w'
      else if c3 then .ok (clipBegin fl l body s, k)
      else clipAction env fl len body (emit e s) >>= fun s => .ok (s, m)).map (both n) := by
  cut
  · rfl
  · cut
    · rfl
    · cut
      · rfl
      · cut
        · rfl
        · rw [emit_damp, clipAction_damp, Outcome.bind_map, Outcome.map_bind]
          rfl

theorem onExtClipboard_damp (env) : BlindH n (onExtClipboard env) := by
  intro s a
  unfold onExtClipboard
  split
  · exact extTail_damp _ _ _ _ _ _ _ _ _ _ _ _ _ _ _
  · rfl

theorem onCutText_damp (env) : BlindH n (onCutText env) := by
  intro s a; unfold onCutText
  cut
  · damp; cut
    · exact onExtClipboard_damp _ _ _
    · unfold onPlainCutText; damp; parts
  · rfl

theorem onContUpdates_damp {r} (hr : Blind n r) (env) : BlindH n (onContUpdates env r) := by
  intro s a; unfold onContUpdates
  cut
  · damp; cut
    · rw [processFb_damp hr]; damp
    · rfl
  · rfl

theorem onSetDesktopSize_damp (env) : BlindH n (onSetDesktopSize env) := by
  intro s a; unfold onSetDesktopSize
  cut
  · cut
    · rfl
    · rename_i body _
      dsimp only
      generalize ({ w := rd16 _ _, h := rd16 _ _, screens := parseScreens body } : Layout) = l
      rcases checkLayout env l with ⟨st, called⟩
      cases called
      · simp only [Bool.false_eq_true, if_false]; damp
      · simp only [if_true]; damp
  · rfl

theorem onNtp_damp (env) : BlindH n (onNtp env) := by
  intro s a; unfold onNtp; damp; parts

/-- the end of on_fence_request, server.c 1774-1785 -/
def fenceTail (f : Nat) (p : Bytes) (t : St) : Outcome (St × Bool) :=
  if t.cl.pfN = 0 then sendFence (f % 8) p t >>= fun s => Outcome.ok (s, true)
  else .ok (t.upd fun k => { k with
    blocked := decide (f % 8 = fenceBlockBefore + fenceBlockAfter),
    pfFlags := f % 8, pfPayload := p }, true)

theorem fenceTail_damp (f p t) : fenceTail f p (t.damp n) = (fenceTail f p t).map (both n) := by
  unfold fenceTail
  cut
  · rw [sendFence_damp]; damp
  · rfl

theorem onFenceRequest_damp (f p s) :
    onFenceRequest f p (s.damp n) = (onFenceRequest f p s).map (both n) := by
  unfold onFenceRequest
  cut
  · rfl
  · dsimp only [damp_cl]
    have e : (if (f % 8).testBit 0 ∧ 0 < s.cl.nPending + (if s.cl.isUpdating then 1 else 0) then
          (s.damp n).upd fun k => { k with pfN := k.nPending + (if s.cl.isUpdating then 1 else 0) }
        else if (f % 8).testBit 2 ∧ s.cl.isUpdating then
          (s.damp n).upd fun k => { k with pfN := 1, mustBlock := (f % 8).testBit 1 }
        else s.damp n) =
        (if (f % 8).testBit 0 ∧ 0 < s.cl.nPending + (if s.cl.isUpdating then 1 else 0) then
          s.upd fun k => { k with pfN := k.nPending + (if s.cl.isUpdating then 1 else 0) }
        else if (f % 8).testBit 2 ∧ s.cl.isUpdating then
          s.upd fun k => { k with pfN := 1, mustBlock := (f % 8).testBit 1 }
        else s).damp n :=
      ite_through (fun _ => rfl) (fun _ => ite_through (fun _ => rfl) (fun _ => rfl))
    exact (congrArg (fenceTail f p) e).trans (fenceTail_damp _ _ _)

theorem noteFence_damp (f p s) : noteFence f p (s.damp n) = (noteFence f p s).damp n := by
  unfold noteFence
  exact ite_through (fun _ => rfl) (fun _ => emit_damp _ _)

theorem onFenceResponse_damp {r} (hr : Blind n r) (env p s) :
    onFenceResponse env r p (s.damp n) = (onFenceResponse env r p s).map (St.damp n) := by
  unfold onFenceResponse
  cut
  · cut
    · rfl
    · cut
      · rfl
      · rw [upd_damp]; exact processFb_damp hr _ _
  · rfl

theorem onFence_damp {r} (hr : Blind n r) (env) : BlindH n (onFence env r) := by
  intro s a; unfold onFence
  cut
  · cut
    · rfl
    · cut
      · rfl
      · cut
        · rw [noteFence_damp, onFenceRequest_damp]; damp
          refine Outcome.bind_congr _ fun ⟨t, ok⟩ => ?_
          simp only [both_mk]; cut <;> rfl
        · rw [onFenceResponse_damp hr]; damp
  · rfl

theorem onMessage_damp {r} (hr : Blind n r) (env table) : BlindH n (onMessage env table r) := by
  intro s a; unfold onMessage
  cut
  · rfl
  · repeat' cut
    · exact onSetPixelFormat_damp _ _
    · exact onSetEncodings_damp _ _ _
    · exact onFbRequest_damp hr _ _ _
    · exact onKey_damp _ _
    · exact onPointer_damp _ _
    · exact onCutText_damp _ _ _
    · exact onContUpdates_damp hr _ _ _
    · exact onQemu_damp _ _ _
    · exact onSetDesktopSize_damp _ _ _
    · exact onNtp_damp _ _ _
    · exact onFence_damp hr _ _ _
    · rfl

theorem tryRead_damp {r} (hr : Blind n r) (env table) : BlindH n (tryRead env table r) := by
  intro s a; unfold tryRead; damp
  cut
  · rfl
  · exact onVersion_damp _ _ _
  · exact onSecurity_damp _ _ _
  · exact onInit_damp _ _
  · exact onVeVersion_damp _ _ _
  · exact onVeSubtype_damp _ _ _
  · exact onVePlain_damp _ _ _
  · exact onAppleDh_damp _ _ _
  · exact onRsaPubKey_damp _ _ _
  · exact onRsaChallenge_damp _ _ _
  · exact onRsaHash_damp _ _ _
  · exact onRsaCreds_damp _ _ _
  · exact onMessage_damp hr _ _ _ _

theorem nextRead_damp (s) : nextRead (s.damp n) = ((nextRead s).1, (nextRead s).2.damp n) := by
  unfold nextRead; damp
  cut
  · rfl
  · by_cases h : s.cl.closed = true
    · rename_i r _ _
      simp only [h, if_true]
      by_cases h2 : r = .err
      · simp only [h2, if_true]; rfl
      · simp only [h2, if_false]; rfl
    · simp only [h]; rfl

theorem inHandler_damp : Blind n reenterInHandler := by
  intro s; unfold reenterInHandler; damp
  cut
  · rfl
  · rw [nextRead_damp]
    rcases nextRead s with ⟨rd, t⟩
    dsimp only
    cut <;> rename_i h <;> cases h <;> simp only [remoteClosed_damp] <;> rfl

theorem loop_damp (env table) : ∀ fuel, Blind n (loop env table fuel)
  | 0, s => rfl
  | fuel + 1, s => by
    unfold loop; damp
    cut
    · rfl
    · rw [tryRead_damp inHandler_damp]; damp
      refine Outcome.bind_congr _ fun ⟨t, rc⟩ => ?_
      simp only [both_mk]; damp
      cut
      · rfl
      · cut
        · rfl
        · exact loop_damp env table fuel _

theorem bigCutText_damp (env c d s) :
    bigCutText env c d (s.damp n) = (bigCutText env c d s).map (St.damp n) := by
  unfold bigCutText; damp
  cut
  · rfl
  · cut
    · rfl
    · cut
      · cut
        · rw [clipProvideText_damp]; damp
        · rfl
      · rfl

theorem onReadable_damp (env table rd) : Blind n (onReadable env table rd) := by
  intro s; unfold onReadable; damp
  cut
  · cut
    · rfl
    · cut
      · rfl
      · simp only [remoteClosed_damp]; rfl
      · simp only [freeClient_damp]; rfl
      · rfl
      · exact bigCutText_damp _ _ _ _
  · cut
    · rfl
    · cut
      · rfl
      · simp only [remoteClosed_damp]; rfl
      · simp only [freeClient_damp]; rfl
      · rfl
      · cut
        · cut
          · simp only [remoteClosed_damp]; rfl
          · simp only [freeClient_damp]; rfl
          · rfl
        · rw [loop_damp]; damp

theorem reenterTop_damp (env table) : Blind n (reenterTop env table) := by
  intro s; unfold reenterTop; rw [nextRead_damp]
  rcases nextRead s with ⟨rd, t⟩
  dsimp only
  rw [onReadable_damp]; damp
  refine Outcome.bind_congr _ fun t => ?_
  cut <;> rfl

theorem event_damp (table o env) (ho : System.Op.own o = true ∨ ∃ r, o = .damage r) :
    Blind n (event table o env) := by
  intro s
  have hr := reenterTop_damp (n := n) env table
  unfold event; damp
  cut
  · parts
  · cases o with
    | readable rd => dsimp only; cut
                     · rfl
                     · exact onReadable_damp _ _ _ _
    | written => dsimp only; cut
                 · exact completeFb_damp hr _ _
                 · rfl
    | encoded f => dsimp only; cut
                   · exact finishFb_damp hr _ _ _
                   · rfl
    | flushed => dsimp only; cut
                 · rw [streamClose_damp]; rfl
                 · rfl
    | idle => dsimp only; cut
              · rfl
              · rw [freeClient_damp]; rfl
    | appClose => dsimp only; rw [freeClient_damp]; rfl
    | damage r =>
      dsimp only
      refine Eq.trans ?_ (processFb_damp hr _ _)
      refine congrArg (processFb env (reenterTop env table)) ?_
      exact ite_through (fun _ => rfl) (fun _ => rfl)
    | display fb => simp [System.Op.own] at ho
    | cursor => simp [System.Op.own] at ho
    | setLed v => exact processFb_damp hr _ _

/-- an event of a client does not look at the counter -/
theorem step_damp (table o env net) (ho : System.Op.own o = true ∨ ∃ r, o = .damage r) :
    Blind n (step table o env net) := by
  intro s
  exact event_damp table o env ho { s with net := net }

/-- two states of the server that differ in the counter of clients that need damage only -/
def Near (a b : Srv) : Prop := ∃ d, b = { a with nDamageClients := d }

theorem Near.refl (a : Srv) : Near a a := ⟨_, rfl⟩
theorem Near.symm {a b : Srv} (h : Near a b) : Near b a := by
  obtain ⟨d, rfl⟩ := h; exact ⟨a.nDamageClients, rfl⟩
theorem Near.trans {a b c : Srv} (h : Near a b) (h' : Near b c) : Near a c := by
  obtain ⟨d, rfl⟩ := h; obtain ⟨d', rfl⟩ := h'; exact ⟨d', rfl⟩
theorem Near.sec {a b : Srv} (h : Near a b) : b.secTypes = a.secTypes := by
  obtain ⟨d, rfl⟩ := h; rfl
theorem Near.of_eq {a b : Srv} (h : b = a) : Near a b := h ▸ .refl _

theorem freeClient_near (s : St) : Near s.srv (freeClient s).srv := by
  obtain ⟨d, h⟩ := (freeClient_frame s).2.2.2
  rw [(streamClose_Q s).srv] at h
  exact ⟨d, h⟩

/-- once there is a list of security types, the events of a client change nothing else in the server's
state -/
theorem micro_near {table : List Nat} {lp : Bool} {s s' : St} (h : MicroW false lp table s s')
    (hs : s.srv.secTypes ≠ []) : Near s.srv s'.srv := by
  cases h with
  | hs env r a h h2 =>
    rcases (hs_T h h2).srv with h3 | ⟨-, h3⟩
    · exact .of_eq h3
    · unfold initSecTypes at h3
      rw [if_pos hs] at h3
      exact .of_eq (Outcome.ok.inj h3).symm
  | fenceOut _ _ hr => exact .of_eq (by simp)
  | pfFire hr => exact .of_eq (by simp)
  | ext hr =>
    obtain ⟨a1, -⟩ := sendExtSupport_frame (s.upd fun k => { k with extNotified := true })
    exact .of_eq a1
  | cursor env hr => exact .of_eq (sendCursor_frame env s).1
  | led hr => exact .of_eq (sendLed_frame s).1
  | frame env fb hr h => exact (stageFrame_frame h).1
  | sendFrame f hr => exact .of_eq (sendFrame_frame f s).1
  | simple env a hr h2 => exact .of_eq h2.frame.1
  | fbReq inc r hr => exact .of_eq (fbReqPre_frame inc r s).1
  | contOff hr => exact .of_eq (by simp)
  | fenceReq flags payload hr hp h2 => exact .of_eq (fenceSeen_frame h2).1
  | bigCut env c d hr hc h h2 => exact .of_eq (bigCutText_frame h2).1
  | remoteClosed => exact .of_eq (remoteClosed_Q s).srv
  | flushed => exact .of_eq (streamClose_Q s).srv
  | free => exact freeClient_near s
  | idle => exact freeClient_near (s.upd fun k => { k with nDefer := k.nDefer - 1 })
  | display _ hw => cases hw
  | setCursor hw => cases hw
  | _ => exact .refl _

theorem step_near {table : List Nat} {o : Op} {env : Env} {net : List Read} {s t : St} (hb : Base s)
    (ho : Op.calm o = true) (hs : s.srv.secTypes ≠ []) (e : step table o env net s = .ok t) :
    Near s.srv t.srv :=
  (step_invW (wd := false) (I := fun u => Near s.srv u.srv) (fun _ _ hm _ h =>
    h.trans (micro_near hm (by rw [h.sec]; exact hs))) (.inr ho) hb (.refl _) e).2

end Server

namespace System

open Verif.Server

variable {table : List Nat}

theorem cutTextTo_damp {n : Int} (text s) : cutTextTo text (s.damp n) = (cutTextTo text s).damp n := by
  have h1 : ∀ t : St, cutTextSend text (t.damp n) = (cutTextSend text t).damp n := by
    intro t
    unfold cutTextSend sendClipProvide sendClipNotify
    damp
    cut
    · parts
    · rfl
  unfold cutTextTo
  damp
  cut
  · rfl
  · rw [← h1]
    congr 1
    cut <;> rfl

/-- the two states agree in everything but what the clients in `A` are -/
structure Apart (A : Nat → Prop) (a b : Sys) : Prop where
  srv : Near a.srv b.srv
  len : a.peers.length = b.peers.length
  peers : ∀ j, ¬A j → a.peers[j]? = b.peers[j]?

variable {A : Nat → Prop}

theorem Apart.refl (a : Sys) : Apart A a a := ⟨.refl _, rfl, fun _ _ => rfl⟩
theorem Apart.symm {a b : Sys} (h : Apart A a b) : Apart A b a :=
  ⟨h.srv.symm, h.len.symm, fun j hj => (h.peers j hj).symm⟩
theorem Apart.trans {a b c : Sys} (h : Apart A a b) (h' : Apart A b c) : Apart A a c :=
  ⟨h.srv.trans h'.srv, h.len.trans h'.len, fun j hj => (h.peers j hj).trans (h'.peers j hj)⟩

theorem near_damp {a b : Srv} (h : Near a b) : ∃ n : Int, ∀ p : Peer, p.at b = (p.at a).damp n := by
  obtain ⟨d, rfl⟩ := h
  refine ⟨d - a.nDamageClients, fun p => ?_⟩
  have : d = a.nDamageClients + (d - a.nDamageClients) := by omega
  unfold Peer.at St.damp
  dsimp only
  rw [← this]

theorem damp_near {s : St} {n : Int} : Near s.srv (s.damp n).srv := ⟨_, rfl⟩

/-- two loops over clients that are the same but for those in `A` -/
theorem each_apart {f g : Nat → St → Outcome St}
    (hfg : ∀ j, ¬A j → ∀ n s, g j (s.damp n) = (f j s).map (St.damp n))
    (hf : ∀ j s t, Base s → s.srv.secTypes ≠ [] → f j s = .ok t → Near s.srv t.srv)
    (hg : ∀ j s t, Base s → s.srv.secTypes ≠ [] → g j s = .ok t → Near s.srv t.srv) :
    ∀ (ps qs : List Peer) (k : Nat) (a b a' b' : Srv) (ps' qs' : List Peer),
      ps.length = qs.length → (∀ m, ¬A (k + m) → ps[m]? = qs[m]?) → Near a b → a.secTypes ≠ [] →
      (∀ p ∈ ps, ∀ srv, Base (p.at srv)) → (∀ p ∈ qs, ∀ srv, Base (p.at srv)) →
      each f k ps a = .ok (a', ps') → each g k qs b = .ok (b', qs') →
      Near a a' ∧ Near a' b' ∧ ps'.length = qs'.length ∧ ∀ m, ¬A (k + m) → ps'[m]? = qs'[m]? := by
  intro ps
  induction ps with
  | nil =>
    intro qs k a b a' b' ps' qs' hl _ hn _ _ _ e1 e2
    cases qs with
    | cons => cases hl
    | nil => cases e1; cases e2; exact ⟨.refl _, hn, rfl, fun _ _ => rfl⟩
  | cons p ps ih =>
    intro qs k a b a' b' ps' qs' hl ha hn hs hbp hbq e1 e2
    cases qs with
    | nil => cases hl
    | cons q qs =>
      unfold each at e1 e2
      obtain ⟨t, ht, e1⟩ := Outcome.bind_eq_ok.1 e1
      obtain ⟨⟨a2, ps2⟩, h1, e1⟩ := Outcome.bind_eq_ok.1 e1
      obtain ⟨u, hu, e2⟩ := Outcome.bind_eq_ok.1 e2
      obtain ⟨⟨b2, qs2⟩, h2, e2⟩ := Outcome.bind_eq_ok.1 e2
      cases e1
      cases e2
      have k1 : Near a t.srv := hf _ _ _ (hbp p (by simp) _) hs ht
      have k2 : Near t.srv u.srv ∧ (¬A k → Peer.of t = Peer.of u) := by
        by_cases hA : A k
        · have k3 : Near b u.srv := hg _ _ _ (hbq q (by simp) _) (by
            show b.secTypes ≠ []
            rw [hn.sec]; exact hs) hu
          exact ⟨k1.symm.trans (hn.trans k3), fun h => absurd hA h⟩
        · have hpq : p = q := by simpa using ha 0 hA
          subst hpq
          obtain ⟨n, hd⟩ := near_damp hn
          rw [hd, hfg k hA, ht] at hu
          cases hu
          exact ⟨damp_near, fun _ => rfl⟩
      obtain ⟨g1, g2, g3, g4⟩ := ih qs (k + 1) _ _ _ _ _ _ (by simpa using hl) (fun m hm => by
          have := ha (m + 1) (by rw [show k + (m + 1) = k + 1 + m by omega]; exact hm)
          simpa using this) k2.1 (by rw [k1.sec]; exact hs) (fun p hp => hbp p (by simp [hp]))
        (fun p hp => hbq p (by simp [hp])) h1 h2
      refine ⟨k1.trans g1, g2, by simp [g3], fun m hm => ?_⟩
      cases m with
      | zero => simp [k2.2 hm]
      | succ m =>
        have := g4 m (by rw [show k + 1 + m = k + (m + 1) by omega]; exact hm)
        simpa using this

end System
end Verif
