import Verif.Lemmas.Flow

/-!
# Events as sequences of whole calls of the update flow

When nested reads find nothing, every event is a sequence of the steps below: what the event does to
the update flow is one call of `processFb`, `completeFb` or `finishFb`, and everything else leaves the
flow alone.
-/

namespace Verif.Server

variable {table : List Nat} {env : Env} {r : St → Outcome St} {I : St → Prop}

/-- the messages that begin a framebuffer update sent in answer to an update request -/
def Kind.starts : Kind → Bool
  | .extSupport | .cursor | .led | .updateHead => true
  | _ => false

/-- entries of the log that belong to the update flow -/
def Eff.flow : Eff → Bool
  | .fbReq .. | .encode .. | .encodeFail | .contOn | .encodeDone _ => true
  | .send _ k _ => k.starts
  | _ => false

/-- nothing in the update flow changed -/
structure Same (s s' : St) : Prop where
  net : s'.net = s.net
  nPending : s'.cl.nPending = s.cl.nPending
  cont : s'.cl.cont = s.cl.cont
  isUpdating : s'.cl.isUpdating = s.cl.isUpdating
  encoding : s'.cl.encoding = s.cl.encoding
  writing : s'.cl.writing = s.cl.writing
  log : ∃ es, s'.log = s.log ++ es ∧ ∀ e ∈ es, e.flow = false

theorem Same.quiet {s s' : St} (h1 : s'.net = s.net) (h2 : s'.log = s.log)
    (h3 : s'.cl.nPending = s.cl.nPending ∧ s'.cl.cont = s.cl.cont ∧
      s'.cl.isUpdating = s.cl.isUpdating ∧ s'.cl.encoding = s.cl.encoding ∧
      s'.cl.writing = s.cl.writing) : Same s s' :=
  ⟨h1, h3.1, h3.2.1, h3.2.2.1, h3.2.2.2.1, h3.2.2.2.2, [], by simp [h2], by simp⟩

theorem Same.one {s s' : St} (e : Eff) (he : e.flow = false) (h1 : s'.net = s.net)
    (h2 : s'.log = s.log ++ [e])
    (h3 : s'.cl.nPending = s.cl.nPending ∧ s'.cl.cont = s.cl.cont ∧
      s'.cl.isUpdating = s.cl.isUpdating ∧ s'.cl.encoding = s.cl.encoding ∧
      s'.cl.writing = s.cl.writing) : Same s s' :=
  ⟨h1, h3.1, h3.2.1, h3.2.2.1, h3.2.2.2.1, h3.2.2.2.2, [e], h2, by simpa using he⟩

theorem SimpleFrame.same {s s' : St} (h : SimpleFrame s s') : Same s s' := by
  obtain ⟨-, h2, ⟨_, _, _, _, _, _, _, _, _, h3⟩, es, h4, h5⟩ := h
  refine ⟨h2, by rw [h3], by rw [h3], by rw [h3], by rw [h3], by rw [h3], es, h4, fun e he => ?_⟩
  cases h5 e he with
  | send k b hc hk => cases k <;> first | rfl | cases hk
  | _ => rfl

theorem HsFrame.same {b : CState} {s s' : St} (h : HsFrame b s s') : Same s s' := by
  obtain ⟨-, h2, ⟨_, _, _, _, _, _, _, _, _, _, _, h3⟩, es, h4, h5⟩ := h
  refine ⟨h2, by rw [h3], by rw [h3], by rw [h3], by rw [h3], by rw [h3], es, h4, fun e he => ?_⟩
  cases h5 e he with
  | send ch k m hk => cases k <;> first | rfl | (cases b <;> cases hk)
  | _ => rfl

theorem freeClient_same (s : St) : Same s (freeClient s) := by
  obtain ⟨h1, h2, h3, -⟩ := freeClient_frame s
  obtain ⟨g1, g2, g3, g4, g5, g6, g7⟩ := (streamClose_frame (b := .error) s).same
  exact ⟨by rw [h3, g1], by rw [h1, ← g2], by rw [h1, ← g3], by rw [h1, ← g4], by rw [h1, ← g5],
    by rw [h1, ← g6], by rw [h2]; exact g7⟩

theorem fenceSeen_same {flags payload s s' b}
    (e : onFenceRequest flags payload (noteFence flags payload s) = .ok (s', b)) :
    Same s s' := by
  obtain ⟨-, h2, ⟨_, _, _, _, _, h3⟩, h4⟩ := fenceSeen_frame e
  refine ⟨h2, by rw [h3], by rw [h3], by rw [h3], by rw [h3], by rw [h3], ?_⟩
  rcases h4 with h4 | h4 | ⟨-, b, h4⟩
  · exact ⟨_, h4, by simp [Eff.flow]⟩
  · exact ⟨_, h4, by simp [Eff.flow]⟩
  · exact ⟨_, h4, by simp [Eff.flow, Kind.starts]⟩

/-- the steps; `b` allows that an encoder finishes -/
inductive BigW (b : Bool) : St → St → Prop
  | same (s s') (hq : Same s s') : BigW b s s'
  | request (s inc q) : BigW b s (fbReqPre inc q s)
  | contOn (s q) : BigW b s (emit .contOn (s.upd fun k => { k with cont := true, contRect := q }))
  | contOff (s) : BigW b s (send .endOfCont [150] (s.upd fun k => { k with
      cont := false, contRect := { x := 0, y := 0, w := 0, h := 0 } }))
  | process (s env r) {s'} (hr : Quiet r) (h : processFb env r s = .ok s') : BigW b s s'
  | written (s env r) {s'} (hr : Quiet r) (hw : s.cl.writing = true)
      (h : completeFb env r (s.upd fun k => { k with writing := false }) = .ok s') : BigW b s s'
  | encoded (s env r f) {s'} (hr : Quiet r) (hw : s.cl.encoding = true)
      (h : finishFb env r f (emit (.encodeDone f) (s.upd fun k => { k with encoding := false })) = .ok s')
      (hb : b = true := by rfl) : BigW b s s'

/-- with all of them -/
abbrev Big := BigW true

theorem big_net {b : Bool} {s s'} (h : BigW b s s') (hn : s.net = []) : s'.net = [] := by
  cases h with
  | same _ hq => rw [hq.net, hn]
  | request inc q => rw [(fbReqPre_frame inc q s).2.1, hn]
  | contOn => exact hn
  | contOff => simpa using hn
  | process env r hr h => rw [(processFb_flow hr hn h).net, hn]
  | written env r hr hw h => rw [(completeFb_flow hr (by exact hn) h).net]; exact hn
  | encoded env r f hr hw h => rw [(finishFb_flow hr (by exact hn) h).net]; exact hn

/-- what is preserved by the steps when nested reads find nothing -/
def Holds (I : St → Prop) (s : St) : Prop := s.net = [] ∧ I s

section
variable {b : Bool} (h : ∀ s s', s.net = [] → BigW b s s' → I s → I s')
include h

theorem holds_step {s s'} (hs : Holds I s) (hb : BigW b s s') : Holds I s' :=
  ⟨big_net hb hs.1, h _ _ hs.1 hb hs.2⟩

theorem onFence_big {s a s' n} (hs : Holds I s)
    (e : onFence env reenterInHandler s a = .ok (s', n)) : Holds I s' := by
  unfold onFence at e
  split at e
  · dsimp only at e
    generalize _ ++ List.map env.stale (List.range 80) = more at e
    split at e
    · cases e; exact hs
    · split at e
      · cases e
      · split at e
        · obtain ⟨⟨t, b⟩, ht, e⟩ := Outcome.bind_eq_ok.1 e
          have := holds_step h hs (.same _ _ (fenceSeen_same ht))
          cases b <;> cases e <;> exact this
        · obtain ⟨t, ht, e⟩ := Outcome.bind_eq_ok.1 e
          cases e
          unfold onFenceResponse at ht
          split at ht
          · dsimp only at ht
            split at ht
            · cases ht; exact hs
            · split at ht
              · cases ht; exact hs
              · generalize hu : s.upd _ = u at ht
                have h1 : Holds I u := by
                  subst hu
                  exact holds_step h hs (.same _ _ (.quiet rfl rfl ⟨rfl, rfl, rfl, rfl, rfl⟩))
                exact holds_step h h1 (.process _ _ _ reenterInHandler_quiet ht)
          · cases ht
  · cases e; exact hs

theorem onMessage_big {s a s' n} (hs : Holds I s)
    (e : onMessage env table reenterInHandler s a = .ok (s', n)) : Holds I s' := by
  have simple : ∀ {b}, Simple env table s b s' n → Holds I s' := fun hm =>
    holds_step h hs (.same _ _ hm.frame.same)
  unfold onMessage at e
  split at e
  · cases e; exact hs
  · rename_i t rest
    by_cases hc : t = 0
    · rw [if_pos hc] at e; exact simple (.pix e)
    rw [if_neg hc] at e; clear hc
    by_cases hc : t = 2
    · rw [if_pos hc] at e; exact simple (.encs e)
    rw [if_neg hc] at e; clear hc
    by_cases hc : t = 3
    · rw [if_pos hc] at e
      unfold onFbRequest at e
      split at e
      · split at e
        · cases e; exact hs
        · obtain ⟨t, ht, e⟩ := Outcome.bind_eq_ok.1 e
          cases e
          exact holds_step h (holds_step h hs (.request s _ _)) (.process _ _ _ reenterInHandler_quiet ht)
      · cases e; exact hs
    rw [if_neg hc] at e; clear hc
    by_cases hc : t = 4
    · rw [if_pos hc] at e; exact simple (.key e)
    rw [if_neg hc] at e; clear hc
    by_cases hc : t = 5
    · rw [if_pos hc] at e; exact simple (.pointer e)
    rw [if_neg hc] at e; clear hc
    by_cases hc : t = 6
    · rw [if_pos hc] at e; exact simple (.cut e)
    rw [if_neg hc] at e; clear hc
    by_cases hc : t = 150
    · rw [if_pos hc] at e
      unfold onContUpdates at e
      split at e
      · split at e
        · obtain ⟨t, ht, e⟩ := Outcome.bind_eq_ok.1 e
          cases e
          exact holds_step h (holds_step h hs (.contOn s _)) (.process _ _ _ reenterInHandler_quiet ht)
        · cases e; exact holds_step h hs (.contOff s)
      · cases e; exact hs
    rw [if_neg hc] at e; clear hc
    by_cases hc : t = 255
    · rw [if_pos hc] at e; exact simple (.qemu e)
    rw [if_neg hc] at e; clear hc
    by_cases hc : t = 251
    · rw [if_pos hc] at e; exact simple (.size e)
    rw [if_neg hc] at e; clear hc
    by_cases hc : t = 160
    · rw [if_pos hc] at e; exact simple (.ntp (h := by rw [hc]; rfl) e)
    rw [if_neg hc] at e; clear hc
    by_cases hc : t = 248
    · rw [if_pos hc] at e; exact onFence_big h hs e
    rw [if_neg hc] at e; clear hc
    cases e

theorem tryRead_big {s a s' n} (hs : Holds I s)
    (e : tryRead env table reenterInHandler s a = .ok (s', n)) : Holds I s' := by
  by_cases hst : s.cl.st = .ready
  · unfold tryRead at e; rw [hst] at e
    exact onMessage_big h hs e
  · exact holds_step h hs (.same _ _ (hs_frame hst e).same)

theorem loop_big (fuel : Nat) : ∀ {s s'}, Holds I s → loop env table fuel s = .ok s' → Holds I s' := by
  induction fuel with
  | zero => intro s s' hs e; cases e; exact hs
  | succ fuel ih =>
    intro s s' hs e
    unfold loop at e
    split at e
    · cases e; exact hs
    · dsimp only at e
      obtain ⟨⟨t, n⟩, ht, e⟩ := Outcome.bind_eq_ok.1 e
      have h1 : Holds I t := by
        refine tryRead_big h ?_ ht
        exact holds_step h hs (.same _ _ (.quiet rfl rfl ⟨rfl, rfl, rfl, rfl, rfl⟩))
      dsimp only at e
      split at e
      · cases e; exact h1
      · split at e
        · cases e
        · refine ih ?_ e
          exact holds_step h h1 (.same _ _ (.one _ (by rfl) rfl rfl ⟨rfl, rfl, rfl, rfl, rfl⟩))

theorem onReadable_big {rd s s'} (hs : Holds I s) (e : onReadable env table rd s = .ok s') :
    Holds I s' := by
  have rem : Holds I (remoteClosed s) :=
    holds_step h hs (.same _ _ (remoteClosed_frame (b := .error) s).same)
  have fre : Holds I (freeClient s) := holds_step h hs (.same _ _ (freeClient_same s))
  unfold onReadable at e
  split at e
  · split at e
    · cases e
    · cases rd with
      | again => cases e; exact hs
      | closed => cases e; exact rem
      | err => cases e; exact fre
      | data d =>
        cases d with
        | nil => cases e; exact hs
        | cons b d => exact holds_step h hs (.same _ _ (bigCutText_frame e).same)
  · split at e
    · cases e
    · cases rd with
      | again => cases e; exact hs
      | closed => cases e; exact rem
      | err => cases e; exact fre
      | data d =>
        cases d with
        | nil => cases e; exact hs
        | cons b d =>
          simp only at e
          split at e
          · split at e <;> cases e
            · exact rem
            · exact fre
            · exact hs
          · obtain ⟨t, ht, e⟩ := Outcome.bind_eq_ok.1 e
            cases e
            have h1 : Holds I t := by
              refine loop_big h _ ?_ ht
              exact holds_step h hs (.same _ _ (.quiet rfl rfl ⟨rfl, rfl, rfl, rfl, rfl⟩))
            exact holds_step h h1 (.same _ _ (.quiet rfl rfl ⟨rfl, rfl, rfl, rfl, rfl⟩))

/-- what every step preserves, every event preserves in which nested reads find nothing -/
theorem step_big {o s s'} (hs : I s) (hnet : ∀ s n, I s → I { s with net := n })
    (e : step table o env [] s = .ok s') (ho : ∀ f, o = .encoded f → b = true := by exact fun _ _ => rfl) :
    Holds I s' := by
  unfold step event at e
  have h0 : Holds I { s with net := [] } := ⟨rfl, hnet _ _ hs⟩
  generalize ({ s with net := [] } : St) = t at e h0
  have q := reenterTop_quiet (env := env) (table := table)
  split at e
  · split at e
    · split at e <;> cases e; exact h0
    · cases e; exact h0
  · cases o with
    | readable rd =>
      dsimp only at e
      split at e
      · cases e; exact h0
      · exact onReadable_big h h0 e
    | written =>
      dsimp only at e
      split at e
      · rename_i hw; exact holds_step h h0 (.written _ _ _ q hw e)
      · cases e; exact h0
    | encoded f =>
      dsimp only at e
      split at e
      · rename_i hw; exact holds_step h h0 (.encoded _ _ _ f q hw e (ho f rfl))
      · cases e; exact h0
    | flushed =>
      dsimp only at e
      split at e
      · cases e; exact holds_step h h0 (.same _ _ (streamClose_frame (b := .error) t).same)
      · cases e; exact h0
    | idle =>
      dsimp only at e
      split at e
      · cases e; exact h0
      · cases e
        exact holds_step h (holds_step h h0 (.same _ (t.upd fun k => { k with nDefer := k.nDefer - 1 })
          (.quiet rfl rfl ⟨rfl, rfl, rfl, rfl, rfl⟩))) (.same _ _ (freeClient_same _))
    | appClose => cases e; exact holds_step h h0 (.same _ _ (freeClient_same t))
    | damage q' =>
      dsimp only at e
      generalize hu : @ite St _ (instDecidableEqBool t.cl.closed true) _ _ = u at e
      have h1 : Holds I u := by
        subst hu
        split
        · exact h0
        · exact holds_step h h0 (.same _ _ (.one _ (by rfl) rfl rfl ⟨rfl, rfl, rfl, rfl, rfl⟩))
      exact holds_step h h1 (.process _ _ _ q e)
    | display fb => cases e; exact holds_step h h0 (.same _ _ (.quiet rfl rfl ⟨rfl, rfl, rfl, rfl, rfl⟩))
    | cursor =>
      exact holds_step h (holds_step h h0 (.same _ { t with srv := { t.srv with cursorSeq := t.srv.cursorSeq + 1 } }
        (.quiet rfl rfl ⟨rfl, rfl, rfl, rfl, rfl⟩))) (.process _ _ _ q e)
    | setLed v =>
      exact holds_step h (holds_step h h0 (.same _ (emit (.ledSet v) (t.upd fun k => { k with pendingLed := v }))
        (.one _ (by rfl) rfl rfl ⟨rfl, rfl, rfl, rfl, rfl⟩))) (.process _ _ _ q e)

end

end Verif.Server
