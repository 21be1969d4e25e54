import Verif.Props.Messages

/-!
# C21: fences and aborts
-/

namespace Verif.Server

variable {table : List Nat} {env : Env} {r : St → Outcome St}

/-- no fence is waiting and the client is not held back, nor will it be after the next message -/
structure NoFence (s : St) : Prop where
  pfN : s.cl.pfN = 0
  blocked : s.cl.blocked = false
  mustBlock : s.cl.mustBlock = false

/-- the assertion of the tight encoder is the only way to abort, and no fence is waiting afterwards -/
def Tame (x : Outcome St) : Prop :=
  (∀ w, x = .abort w → w = "tight_encoder_encode: n_rects > 0") ∧ ∀ s', x = .ok s' → NoFence s'

theorem Tame.ok {s : St} (h : NoFence s) : Tame (.ok s) :=
  ⟨(fun _ h => nomatch h), fun _ e => by cases e; exact h⟩

theorem Tame.ub {w} : Tame (.ub w) := ⟨(fun _ h => nomatch h), (fun _ h => nomatch h)⟩

theorem Tame.bind {x : Outcome St} {f : St → Outcome St} (h : Tame x)
    (hf : ∀ s, NoFence s → Tame (f s)) : Tame (x >>= f) := by
  cases x with
  | ok s => exact hf s (h.2 s rfl)
  | ub w => exact .ub
  | abort w => exact ⟨(fun _ e => by cases e; exact h.1 _ rfl), (fun _ e => nomatch e)⟩

theorem ppf_tame {s} (h : NoFence s) : processPendingFence r s = .ok s := by
  unfold processPendingFence
  rw [if_pos h.pfN, if_neg (by rw [h.blocked]; decide)]

/-- a stage of process_fb_update_requests neither aborts nor handles fences -/
def TameStage (s : St) (x : Outcome (St × Bool)) : Prop :=
  ∃ t b, x = .ok (t, b) ∧ NoFence t ∧ t.cl.isUpdating = s.cl.isUpdating

theorem decrementPending_tame {s} (h : NoFence s) (hu : s.cl.isUpdating = false) :
    TameStage s (decrementPending r s) := by
  unfold decrementPending
  rw [if_neg (by rw [hu]; decide)]
  split
  · exact ⟨s, true, rfl, h, rfl⟩
  · rw [ppf_tame h]
    exact ⟨_, _, rfl, ⟨h.pfN, h.blocked, h.mustBlock⟩, rfl⟩

theorem stageExt_tame {s} (h : NoFence s) (hu : s.cl.isUpdating = false) :
    TameStage s (stageExt r s) := by
  unfold stageExt
  split
  · exact ⟨s, true, rfl, h, rfl⟩
  · obtain ⟨-, -, g3, -⟩ := sendExtSupport_frame (s.upd fun k => { k with extNotified := true })
    dsimp only
    generalize sendExtSupport (s.upd fun k => { k with extNotified := true }) = res at g3
    obtain ⟨t, b⟩ := res
    dsimp only at g3
    have ht : NoFence t := ⟨by rw [g3]; exact h.pfN, by rw [g3]; exact h.blocked,
      by rw [g3]; exact h.mustBlock⟩
    have hut : t.cl.isUpdating = s.cl.isUpdating := by rw [g3]; rfl
    cases b
    · exact ⟨t, true, rfl, ht, hut⟩
    · obtain ⟨u, c, h1, h2, h3⟩ := decrementPending_tame (r := r) ht (hut.trans hu)
      exact ⟨u, c, h1, h2, h3.trans hut⟩

theorem stageCursor_tame {s} (h : NoFence s) (hu : s.cl.isUpdating = false) :
    TameStage s (stageCursor env r s) := by
  unfold stageCursor
  split
  · obtain ⟨-, -, ⟨_, g3⟩, -⟩ := sendCursor_frame env s
    have ht : NoFence (sendCursor env s) := ⟨by rw [g3]; exact h.pfN, by rw [g3]; exact h.blocked,
      by rw [g3]; exact h.mustBlock⟩
    have hut : (sendCursor env s).cl.isUpdating = s.cl.isUpdating := by rw [g3]
    obtain ⟨u, c, h1, h2, h3⟩ := decrementPending_tame (r := r) ht (hut.trans hu)
    exact ⟨u, c, h1, h2, h3.trans hut⟩
  · exact ⟨s, true, rfl, h, rfl⟩

theorem stageLed_tame {s} (h : NoFence s) (hu : s.cl.isUpdating = false) :
    TameStage s (stageLed r s) := by
  unfold stageLed
  obtain ⟨-, -, ⟨_, g3⟩, -⟩ := sendLed_frame s
  generalize sendLed s = res at g3
  obtain ⟨t, b⟩ := res
  dsimp only at g3
  have ht : NoFence t := ⟨by rw [g3]; exact h.pfN, by rw [g3]; exact h.blocked,
      by rw [g3]; exact h.mustBlock⟩
  have hut : t.cl.isUpdating = s.cl.isUpdating := by rw [g3]
  cases b
  · exact ⟨t, true, rfl, ht, hut⟩
  · obtain ⟨u, c, h1, h2, h3⟩ := decrementPending_tame (r := r) ht (hut.trans hu)
    exact ⟨u, c, h1, h2, h3.trans hut⟩

theorem stageFrame_tame {fb s} (h : NoFence s) : Tame (stageFrame env fb s) := by
  constructor
  · intro w e
    unfold stageFrame at e
    rcases ite_cases e with ⟨-, e⟩ | ⟨-, e⟩
    · cases e
    rcases ite_cases e with ⟨-, e⟩ | ⟨-, e⟩
    · cases e
    split at e
    · rcases ite_cases e with ⟨-, e⟩ | ⟨-, e⟩ <;> cases e
    · dsimp only at e
      rcases ite_cases e with ⟨-, e⟩ | ⟨-, e⟩
      · cases e; rfl
      rcases ite_cases e with ⟨-, e⟩ | ⟨-, e⟩ <;> cases e
  · intro s' e
    obtain ⟨-, -, ⟨_, _, _, _, _, _, _, _, _, h3⟩, -⟩ := stageFrame_frame e
    exact ⟨by rw [h3]; exact h.pfN, by rw [h3]; exact h.blocked, by rw [h3]; exact h.mustBlock⟩

theorem processFb_tame {s} (h : NoFence s) : Tame (processFb env r s) := by
  unfold processFb
  split
  · exact .ok h
  split
  · exact .ok h
  split
  · exact .ok h
  rename_i hu
  have hu : s.cl.isUpdating = false := by simpa using hu
  split
  · exact .ok h
  obtain ⟨t, b, e1, t1, u1⟩ := stageExt_tame (r := r) h hu
  rw [e1]
  cases b
  · exact .ok t1
  obtain ⟨v, b, e2, t2, u2⟩ := stageCursor_tame (env := env) (r := r) t1 (u1.trans hu)
  change Tame (stageCursor env r t >>= _)
  rw [e2]
  cases b
  · exact .ok t2
  obtain ⟨w, b, e3, t3, -⟩ := stageLed_tame (r := r) t2 (u2.trans (u1.trans hu))
  change Tame (stageLed r v >>= _)
  rw [e3]
  cases b
  · exact .ok t3
  exact stageFrame_tame t3

theorem completeFb_tame {s} (h : NoFence s) : Tame (completeFb env r s) := by
  unfold completeFb
  split
  · exact .ok h
  · exact processFb_tame ⟨h.pfN, h.blocked, h.mustBlock⟩

theorem sendPing_tame {n s} (h : NoFence s) : ∃ t, sendPing env n s = .ok t ∧ NoFence t := by
  unfold sendPing sendFence
  split
  · exact ⟨s, rfl, h⟩
  · dsimp only
    rw [if_neg (by simp [be32])]
    exact ⟨_, rfl, ⟨by rw [send_cl]; exact h.pfN, by rw [send_cl]; exact h.blocked,
      by rw [send_cl]; exact h.mustBlock⟩⟩

theorem finishFb_tame {f s} (h : NoFence s) : Tame (finishFb env r f s) := by
  unfold finishFb
  split
  · exact completeFb_tame h
  split
  · exact completeFb_tame ⟨h.pfN, h.blocked, h.mustBlock⟩
  split
  · exact .ub
  obtain ⟨-, -, ⟨_, _, _, g3, -⟩, -⟩ := sendFrame_frame f s
  have h1 : NoFence (sendFrame f s) := ⟨by rw [g3]; exact h.pfN, by rw [g3]; exact h.blocked,
      by rw [g3]; exact h.mustBlock⟩
  refine Tame.bind ?_ fun t ht => ?_
  · split
    · exact completeFb_tame h1
    · exact .ok ⟨h1.pfN, h1.blocked, h1.mustBlock⟩
  · obtain ⟨u, e, hu⟩ := sendPing_tame (env := env) (n := f.payload.length) ht
    rw [e]
    change Tame (processPendingFence r u)
    rw [ppf_tame hu]
    exact .ok hu

theorem streamClose_noFence {s} (h : NoFence s) : NoFence (streamClose s) := by
  obtain ⟨-, -, ⟨_, _, _, _, _, _, _, _, _, _, _, h3⟩, -⟩ := streamClose_frame (b := .error) s
  exact ⟨by rw [h3]; exact h.pfN, by rw [h3]; exact h.blocked, by rw [h3]; exact h.mustBlock⟩

theorem freeClient_noFence {s} (h : NoFence s) : NoFence (freeClient s) := by
  have := streamClose_noFence h
  exact ⟨by rw [(freeClient_frame s).1]; exact this.pfN, by rw [(freeClient_frame s).1]; exact this.blocked,
    by rw [(freeClient_frame s).1]; exact this.mustBlock⟩

/-- C21, events: while no fence is waiting, no event but reading makes the server abort, whatever is
requested or under way and whatever nested reads would find; and no fence is waiting afterwards.  The
tight encoder's own assertion is the only exception.

Missing: fences that arrive while an update is requested or under way, see `c21_fences_violated`. -/
theorem c21_event_partial {s : St} {o : Op} {net} (h : NoFence s) (ho : ∀ rd, o ≠ .readable rd) :
    (∀ w, step table o env net s = .abort w → w = "tight_encoder_encode: n_rects > 0") ∧
      ∀ s', step table o env net s = .ok s' → NoFence s' := by
  show Tame _
  unfold step event
  have h0 : NoFence { s with net := net } := ⟨h.pfN, h.blocked, h.mustBlock⟩
  generalize ({ s with net := net } : St) = t at h0
  split
  · split
    · split
      · exact .ok h0
      · exact .ub
    · exact .ok h0
  · cases o with
    | readable rd => exact absurd rfl (ho rd)
    | written =>
      dsimp only
      split
      · exact completeFb_tame ⟨h0.pfN, h0.blocked, h0.mustBlock⟩
      · exact .ok h0
    | encoded f =>
      dsimp only
      split
      · exact finishFb_tame ⟨h0.pfN, h0.blocked, h0.mustBlock⟩
      · exact .ok h0
    | flushed =>
      dsimp only
      split
      · exact .ok (streamClose_noFence h0)
      · exact .ok h0
    | idle =>
      dsimp only
      split
      · exact .ok h0
      · exact .ok (freeClient_noFence ⟨h0.pfN, h0.blocked, h0.mustBlock⟩)
    | appClose => exact .ok (freeClient_noFence h0)
    | damage q =>
      refine processFb_tame ?_
      split
      · exact h0
      · exact ⟨h0.pfN, h0.blocked, h0.mustBlock⟩
    | display fb => exact .ok ⟨h0.pfN, h0.blocked, h0.mustBlock⟩
    | cursor => exact processFb_tame ⟨h0.pfN, h0.blocked, h0.mustBlock⟩
    | setLed v => exact processFb_tame ⟨h0.pfN, h0.blocked, h0.mustBlock⟩

theorem fbReqPre_noFence {inc q s} (h : NoFence s) : NoFence (fbReqPre inc q s) := by
  obtain ⟨-, -, ⟨_, _, h3⟩, -⟩ := fbReqPre_frame inc q s
  exact ⟨by rw [h3]; exact h.pfN, by rw [h3]; exact h.blocked, by rw [h3]; exact h.mustBlock⟩

/-- no abort but the one of the tight encoder -/
def Safe (x : Outcome (St × Nat)) : Prop :=
  ∀ w, x = .abort w → w = "tight_encoder_encode: n_rects > 0"

theorem Safe.ok {a} : Safe (.ok a) := fun _ h => by cases h
theorem Safe.ub {w} : Safe (.ub w) := fun _ h => by cases h

theorem Safe.then {x : Outcome St} {n : Nat} (h : Tame x) : Safe (x >>= fun s => .ok (s, n)) := by
  cases x with
  | ok s => exact .ok
  | ub w => exact .ub
  | abort w => intro w' e; cases e; exact h.1 _ rfl

theorem clipAction_safe {flags len body s n} :
    Safe (clipAction env flags len body s >>= fun s => .ok (s, n)) := by
  have : ∀ w, clipAction env flags len body s ≠ .abort w := by
    intro w e
    unfold clipAction clipSetCaps clipProvideText at e
    repeat' split at e
    all_goals first | cases e | skip
    all_goals dsimp only at e
    all_goals repeat' split at e
    all_goals cases e
  intro w e
  generalize clipAction env flags len body s = x at e this
  cases x with
  | ok => cases e
  | ub => cases e
  | abort w => exact absurd rfl (this w)

theorem onFenceRequest_na {flags pl s w} (h : pl.length ≤ 64) : onFenceRequest flags pl s ≠ .abort w := by
  intro e
  by_cases hp : s.cl.nPending ≤ 0
  · rw [onFenceRequest_eq hp] at e
    rcases ite_cases e with ⟨-, e⟩ | ⟨-, e⟩
    · unfold sendFence at e
      rw [if_neg (by omega)] at e
      cases e
    · cases e
  · unfold onFenceRequest at e
    rw [if_pos (by omega)] at e
    cases e

theorem onFence_safe {s : St} {a : Bytes} (h : NoFence s) : Safe (onFence env reenterInHandler s a) := by
  intro w e
  unfold onFence at e
  split at e
  · dsimp only at e
    generalize _ ++ List.map env.stale (List.range 80) = more at e
    rcases ite_cases e with ⟨-, e⟩ | ⟨-, e⟩
    · cases e
    rcases ite_cases e with ⟨-, e⟩ | ⟨hlen, e⟩
    · cases e
    rename_i f0 f1 f2 f3 rest _ _
    generalize rd32 f0 f1 f2 f3 = flags at e
    rcases ite_cases e with ⟨-, e⟩ | ⟨-, e⟩
    · generalize hp : (more.drop 1).take _ = payload at e
      have hpl : payload.length ≤ 64 := by
        rw [← hp, List.length_take]; omega
      have hn := fun w => onFenceRequest_na (flags := flags) (s := noteFence flags payload s) (w := w) hpl
      generalize onFenceRequest flags payload _ = x at e hn
      cases x with
      | ok x => obtain ⟨t, b⟩ := x; cases b <;> cases e
      | ub => cases e
      | abort => exact absurd rfl (hn _)
    · refine Safe.then ?_ w e
      unfold onFenceResponse
      split
      · dsimp only
        split
        · exact .ok h
        split
        · exact .ok h
        exact processFb_tame ⟨h.pfN, h.blocked, h.mustBlock⟩
      · exact .ub
  · cases e

theorem onCutText_safe {s : St} {a : Bytes} : Safe (onCutText env s a) := by
  intro w e
  unfold onCutText at e
  split at e
  · rcases ite_cases e with ⟨-, e⟩ | ⟨-, e⟩
    · unfold onExtClipboard at e
      split at e
      · rename_i l0 l1 l2 l3 f0 f1 f2 f3 body _
        generalize rd32 l0 l1 l2 l3 = l at e
        generalize rd32 f0 f1 f2 f3 = flags at e
        dsimp only at e
        rcases ite_cases e with ⟨-, e⟩ | ⟨-, e⟩
        · cases e
        rcases ite_cases e with ⟨-, e⟩ | ⟨-, e⟩
        · cases e
        rcases ite_cases e with ⟨-, e⟩ | ⟨-, e⟩
        · cases e
        rcases ite_cases e with ⟨-, e⟩ | ⟨-, e⟩
        · cases e
        exact clipAction_safe w e
      · cases e
    · unfold onPlainCutText at e
      dsimp only at e
      rcases ite_cases e with ⟨-, e⟩ | ⟨-, e⟩
      · cases e
      rcases ite_cases e with ⟨-, e⟩ | ⟨-, e⟩ <;> cases e
  · cases e

/-- C21, messages: while no fence is waiting, no message of a client in session makes the server abort,
be it a fence or not and whatever its contents; the tight encoder's own assertion is the only exception.

Missing: what follows a fence that has to wait, see `c21_fences_violated`. -/
theorem c21_message_partial {s : St} {a : Bytes} (h : NoFence s) (hr : s.cl.st = .ready) {w : String}
    (e : tryRead env table reenterInHandler s a = .abort w) :
    w = "tight_encoder_encode: n_rects > 0" := by
  unfold tryRead at e
  rw [hr] at e
  dsimp only at e
  suffices Safe (onMessage env table reenterInHandler s a) from this w e
  clear e w
  unfold onMessage
  split
  · exact .ok
  rename_i t rest
  split
  · unfold onSetPixelFormat
    split <;> exact .ok
  split
  · unfold onSetEncodings
    split
    · dsimp only
      split
      · exact .ok
      · generalize hu : ite (hasEnc (notifyCont _).cl encExtClipboard = true) _ _ = u
        have h1 : NoFence u := by
          have h2 : ∀ v : St, NoFence v → NoFence (notifyCont v) := by
            intro v hv
            unfold notifyCont
            split
            · exact ⟨by rw [send_cl]; exact hv.pfN, by rw [send_cl]; exact hv.blocked,
                by rw [send_cl]; exact hv.mustBlock⟩
            · exact hv
          subst hu
          generalize hv : notifyCont _ = v
          have h3 : NoFence v := by subst hv; exact h2 _ ⟨h.pfN, h.blocked, h.mustBlock⟩
          split
          · exact ⟨by unfold sendClipCaps; rw [send_cl]; exact h3.pfN,
              by unfold sendClipCaps; rw [send_cl]; exact h3.blocked,
              by unfold sendClipCaps; rw [send_cl]; exact h3.mustBlock⟩
          · exact h3
        obtain ⟨x, e, -⟩ := sendPing_tame (env := env) (n := 0) h1
        rw [e]
        exact .ok
    · exact .ok
  split
  · unfold onFbRequest
    split
    · split
      · exact .ok
      · refine Safe.then (processFb_tame ?_)
        exact fbReqPre_noFence h
    · exact .ok
  split
  · unfold onKey; split <;> exact .ok
  split
  · unfold onPointer; split <;> exact .ok
  split
  · exact onCutText_safe
  split
  · unfold onContUpdates
    split
    · split
      · exact Safe.then (processFb_tame ⟨h.pfN, h.blocked, h.mustBlock⟩)
      · exact .ok
    · exact .ok
  split
  · unfold onQemu
    split
    · split
      · unfold onQemuKey
        split
        · dsimp only
          split
          · exact .ub
          · exact .ok
        · exact .ok
      · exact .ub
    · exact .ok
  split
  · unfold onSetDesktopSize
    split
    · split <;> exact .ok
    · exact .ok
  split
  · unfold onNtp
    split
    · exact .ok
    · split <;> exact .ok
  split
  · exact onFence_safe h
  exact .ub

/-- a busy client without fences: a request is being served and another one waits -/
example : (match feed [] [(.read 99, demoEnv)] demoClient
      ((Msg.fbRequest 0 ⟨0, 0, 4, 3⟩).wire ++ (Msg.fbRequest 1 ⟨0, 0, 4, 3⟩).wire) with
    | .ok (s, _) => s.cl.st == .ready && s.cl.pfN == 0 && !s.cl.blocked && s.cl.encoding && s.cl.isUpdating &&
        s.cl.nPending == 1
    | _ => false) = true := by decide +kernel

/-- C21, fences: a message leaves no fence waiting, unless it is a fence request that arrives while an
update is requested or under way -/
theorem c21_keeps_partial {s s' : St} {a : Bytes} {n : Nat} (h : NoFence s) (hr : s.cl.st = .ready)
    (hq : a.head? ≠ some 248 ∨ (s.cl.nPending ≤ 0 ∧ s.cl.isUpdating = false))
    (e : tryRead env table reenterInHandler s a = .ok (s', n)) : NoFence s' := by
  unfold tryRead at e
  rw [hr] at e
  dsimp only at e
  have simple : ∀ {b}, Simple env table s b s' n → NoFence s' := fun hm => by
    obtain ⟨-, -, ⟨_, _, _, _, _, _, _, _, _, h3⟩, -⟩ := hm.frame
    exact ⟨by rw [h3]; exact h.pfN, by rw [h3]; exact h.blocked, by rw [h3]; exact h.mustBlock⟩
  unfold onMessage at e
  split at e
  · cases e; exact h
  · rename_i t rest
    by_cases hc : t = 0
    · rw [if_pos hc] at e; exact simple (.pix e)
    rw [if_neg hc] at e; clear hc
    by_cases hc : t = 2
    · rw [if_pos hc] at e; exact simple (.encs e)
    rw [if_neg hc] at e; clear hc
    by_cases hc : t = 3
    · rw [if_pos hc] at e
      unfold onFbRequest at e
      split at e
      · split at e
        · cases e; exact h
        · obtain ⟨t, ht, e⟩ := Outcome.bind_eq_ok.1 e
          cases e
          exact (processFb_tame (fbReqPre_noFence h)).2 _ ht
      · cases e; exact h
    rw [if_neg hc] at e; clear hc
    by_cases hc : t = 4
    · rw [if_pos hc] at e; exact simple (.key e)
    rw [if_neg hc] at e; clear hc
    by_cases hc : t = 5
    · rw [if_pos hc] at e; exact simple (.pointer e)
    rw [if_neg hc] at e; clear hc
    by_cases hc : t = 6
    · rw [if_pos hc] at e; exact simple (.cut e)
    rw [if_neg hc] at e; clear hc
    by_cases hc : t = 150
    · rw [if_pos hc] at e
      unfold onContUpdates at e
      split at e
      · split at e
        · obtain ⟨t, ht, e⟩ := Outcome.bind_eq_ok.1 e
          cases e
          refine (processFb_tame ?_).2 _ ht
          exact ⟨h.pfN, h.blocked, h.mustBlock⟩
        · cases e
          exact ⟨by rw [send_cl]; exact h.pfN, by rw [send_cl]; exact h.blocked,
            by rw [send_cl]; exact h.mustBlock⟩
      · cases e; exact h
    rw [if_neg hc] at e; clear hc
    by_cases hc : t = 255
    · rw [if_pos hc] at e; exact simple (.qemu e)
    rw [if_neg hc] at e; clear hc
    by_cases hc : t = 251
    · rw [if_pos hc] at e; exact simple (.size e)
    rw [if_neg hc] at e; clear hc
    by_cases hc : t = 160
    · rw [if_pos hc] at e; exact simple (.ntp (h := by rw [hc]; rfl) e)
    rw [if_neg hc] at e; clear hc
    by_cases hc : t = 248
    · rw [if_pos hc] at e
      obtain ⟨hp, hu⟩ := hq.resolve_left (fun hn => hn (by simp [hc]))
      unfold onFence at e
      split at e
      · dsimp only at e
        generalize _ ++ List.map env.stale (List.range 80) = more at e
        split at e
        · cases e; exact h
        · split at e
          · cases e
          · split at e
            · obtain ⟨⟨t, b⟩, ht, e⟩ := Outcome.bind_eq_ok.1 e
              have : NoFence t := by
                rw [noteFence_on hp, onFenceRequest_eq (by exact hp), fenceMark_idle (by exact hp) (by exact hu),
                  if_pos (by exact h.pfN)] at ht
                unfold sendFence at ht
                split at ht
                · cases ht
                · cases ht
                  exact ⟨by rw [send_cl]; exact h.pfN, by rw [send_cl]; exact h.blocked,
                    by rw [send_cl]; exact h.mustBlock⟩
              cases b <;> cases e <;> exact this
            · obtain ⟨t, ht, e⟩ := Outcome.bind_eq_ok.1 e
              cases e
              unfold onFenceResponse at ht
              split at ht
              · dsimp only at ht
                split at ht
                · cases ht; exact h
                · split at ht
                  · cases ht; exact h
                  · refine (processFb_tame ?_).2 _ ht
                    exact ⟨h.pfN, h.blocked, h.mustBlock⟩
              · cases ht
      · cases e; exact h
    rw [if_neg hc] at e; clear hc
    cases e

example : (match feed [] [(.read 99, demoEnv)] demoClient (Msg.fence 0 2147483655 [1, 2, 3]).wire with
    | .ok (s, _) => s.cl.pfN == 0 && !s.cl.blocked && !s.cl.mustBlock && s.cl.nPending == 0 &&
        s.log.getLast? == some (.msg .ready .plain (Msg.fence 0 2147483655 [1, 2, 3]).wire 12)
    | _ => false) = true := by decide +kernel

/-- C21, sequences: as long as none of the messages handled so far has left a fence waiting, handling
the messages of a client in session does not abort -/
theorem c21_loop_partial {w : String} : ∀ (fuel : Nat) {s : St}, s.cl.st = .ready →
    (∀ k ≤ fuel, ∀ t, loop env table k s = .ok t → NoFence t ∧ t.cl.st = .ready) →
    loop env table fuel s = .abort w → w = "tight_encoder_encode: n_rects > 0" := by
  intro fuel
  induction fuel with
  | zero => intro s _ _ e; cases e
  | succ fuel ih =>
    intro s hr hk e
    have h0 := (hk 0 (by omega) s rfl).1
    unfold loop at e
    rw [if_neg (by rw [h0.blocked]; decide)] at e
    dsimp only at e
    have h1 : NoFence (s.upd fun k => { k with blocked := k.mustBlock, mustBlock := false }) :=
      ⟨h0.pfN, h0.mustBlock, rfl⟩
    have hu : loop env table 1 s = _ := rfl
    generalize ha : tryRead env table reenterInHandler _ _ = x at e
    cases x with
    | ub => cases e
    | abort w' =>
      cases e
      exact c21_message_partial h1 hr ha
    | ok p =>
      obtain ⟨t, n⟩ := p
      change (if n = 0 then _ else _) = _ at e
      split at e
      · cases e
      · rename_i hn
        split at e
        · cases e
        · rename_i hb
          refine ih ?_ ?_ e
          · have := (hk 1 (by omega) _ (by
              unfold loop
              rw [if_neg (by rw [h0.blocked]; decide)]
              dsimp only
              rw [ha]
              change (if n = 0 then _ else _) = _
              rw [if_neg hn, if_neg hb]
              rfl)).2
            exact this
          · intro k hkf t' ht'
            refine hk (k + 1) (by omega) t' ?_
            rw [← ht']
            conv => lhs; unfold loop
            rw [if_neg (by rw [h0.blocked]; decide)]
            dsimp only
            rw [ha]
            change (if n = 0 then _ else _) = _
            rw [if_neg hn, if_neg hb]

/-- the exception is real: a client that asks for tight and then for an update of an area outside the
framebuffer (the damage is clipped to nothing, server.c 943-947; enc/tight.c asserts that there is some) -/
theorem c21_tight_violated : feed [] [(.read 99, demoEnv)] demoClient
    ((Msg.setEncodings 0 [7]).wire ++ (Msg.fbRequest 0 ⟨9, 9, 1, 1⟩).wire) =
      .abort "tight_encoder_encode: n_rects > 0" := by decide +kernel

/-- a sequence of messages in which no fence is left waiting -/
example : ∀ k ≤ 4, ∀ t, loop demoEnv [] k { demoClient with cl := { demoClient.cl with
      buf := (Msg.fence 0 2147483649 [1]).wire ++ (Msg.key 1 0 65).wire ++ (Msg.fence 0 2147483655 []).wire } } =
      .ok t → NoFence t ∧ t.cl.st = .ready := by
  intro k hk
  match k, hk with
  | 0, _ | 1, _ | 2, _ | 3, _ | 4, _ =>
    intro t ht
    injection ht with ht
    subst ht
    exact ⟨⟨by decide +kernel, by decide +kernel, by decide +kernel⟩, by decide +kernel⟩

end Verif.Server
