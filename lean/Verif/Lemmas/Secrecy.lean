import Verif.Lemmas.Access

/-! # OnChan which channel the handshake is answered -/

namespace Verif.Server

variable {table : List Nat}

/-- what is written in `s` goes over the channel it has there, and the application is asked only in a phase with
credentials -/
structure OnChan (s s' : St) : Prop where
  chan : s'.cl.chan = s.cl.chan
  log : ∃ es, s'.log = s.log ++ es ∧ (∀ ch k b, .send ch k b ∈ es → ch = s.cl.chan) ∧
    ∀ u p ok, .auth u p ok ∈ es → AuthSt s.cl.st

theorem OnChan.refl (s : St) : OnChan s s := ⟨rfl, [], by simp, by simp, by simp⟩

theorem OnChan.upd (s : St) {f : Client → Client} (h : (f s.cl).chan = s.cl.chan) : OnChan s (s.upd f) :=
  ⟨h, [], by simp, by simp, by simp⟩

/-- steps that write and ask nothing -/
structure Mute (s s' : St) : Prop where
  chan : s'.cl.chan = s.cl.chan
  log : ∃ es, s'.log = s.log ++ es ∧ ∀ e ∈ es, (∃ k b, e = .send s.cl.chan k b) ∨ e = .deferClose ∨
    e = .disconnectOthers ∨ e = .newClient

theorem Mute.refl (s : St) : Mute s s := ⟨rfl, [], by simp, by simp⟩

theorem Mute.upd (s : St) {f : Client → Client} (h : (f s.cl).chan = s.cl.chan) : Mute s (s.upd f) :=
  ⟨h, [], by simp, by simp⟩

theorem Mute.trans {s t u : St} (h1 : Mute s t) (h2 : Mute t u) : Mute s u := by
  obtain ⟨a1, es, a2, a3⟩ := h1
  obtain ⟨b1, fs, b2, b3⟩ := h2
  refine ⟨b1.trans a1, es ++ fs, by rw [b2, a2, List.append_assoc], fun e h => ?_⟩
  rcases List.mem_append.1 h with h | h
  · exact a3 _ h
  · rw [← a1]; exact b3 _ h

theorem Mute.emit (s : St) {e : Eff} (h : e = .deferClose ∨ e = .disconnectOthers ∨ e = .newClient) :
    Mute s (emit e s) := ⟨rfl, [e], rfl, by simpa using .inr h⟩

theorem Mute.send (s : St) (k b) : Mute s (send k b s) := by
  refine ⟨by simp, ?_⟩
  rw [send_log]
  split
  · exact ⟨[], by simp, by simp⟩
  · exact ⟨_, rfl, by simp⟩

theorem Mute.over {s s' : St} (h : Mute s s') : OnChan s s' := by
  obtain ⟨h1, es, h2, h3⟩ := h
  refine ⟨h1, es, h2, fun ch k b h => ?_, fun u p ok h => ?_⟩
  · rcases h3 _ h with ⟨_, _, h⟩ | h | h | h <;> cases h
    rfl
  · rcases h3 _ h with ⟨_, _, h⟩ | h | h | h <;> cases h

theorem deferClose_mute (s) : Mute s (deferClose s) := by
  unfold deferClose
  exact .trans (.upd _ rfl) (.emit _ (by simp))

theorem streamClose_mute (s) : Mute s (streamClose s) := by
  unfold streamClose
  split
  · exact .refl _
  · dsimp only
    refine .trans (.upd s (f := fun k => { k with closed := true }) rfl) ?_
    split
    · exact .trans (.upd _ rfl) (deferClose_mute _)
    · exact .refl _

theorem remoteClosed_mute (s) : Mute s (remoteClosed s) := .trans (streamClose_mute s) (deferClose_mute _)

theorem sendAndClose_mute (env k m s) : Mute s (sendAndClose env k m s) := by
  unfold sendAndClose
  split
  · exact .refl _
  · split
    · exact .trans (.send s k m) (.trans (.upd _ rfl) (deferClose_mute _))
    · exact .trans (.send s k m) (.upd _ rfl)
    · exact .trans (.upd _ rfl) (remoteClosed_mute _)

theorem handshakeFailed_mute (env r s) : Mute s (handshakeFailed env r s) := by
  unfold handshakeFailed
  exact .trans (.upd s (f := fun k => { k with st := .error }) rfl) (sendAndClose_mute _ _ _ _)

theorem authenticate_over {env u p s} (hs : AuthSt s.cl.st) : OnChan s (authenticate env u p s) := by
  unfold authenticate
  dsimp only
  have key : ∀ t, Mute (emit (.auth (cstr u) (cstr p) (env.authFn (cstr u) (cstr p))) s) t → OnChan s t := by
    rintro t ⟨h1, es, h2, h3⟩
    refine ⟨h1, _ :: es, by rw [h2]; simp; rfl, fun ch k b h => ?_, fun _ _ _ _ => hs⟩
    rcases List.mem_cons.1 h with h | h
    · cases h
    · rcases h3 _ h with ⟨_, _, h⟩ | h | h | h <;> cases h
      rfl
  split
  · exact key _ (.trans (.trans (.upd _ rfl) (.send _ _ _)) (.upd _ rfl))
  · exact key _ (handshakeFailed_mute _ _ _)

theorem failed_mute (env k m s) : Mute s (sendAndClose env k m (s.upd fun k => { k with st := .error })) :=
  .trans (.upd s (f := fun k => { k with st := .error }) rfl) (sendAndClose_mute _ _ _ _)

theorem badVersion_mute (env s) : Mute s (badVersion env s) := by
  unfold badVersion
  generalize "Unsupported version\n".toUTF8.toList = r
  exact failed_mute _ _ _ _

/-- an upgrade, with writes before and after it -/
def Switch (s s' : St) : Prop :=
  ∃ ch es fs, s'.log = s.log ++ es ++ .upgrade ch :: fs ∧ s'.cl.chan = ch ∧ ch ≠ .plain ∧
    (∀ e ∈ es, ∃ k b, e = .send s.cl.chan k b) ∧ ∀ e ∈ fs, ∃ k b, e = .send ch k b

theorem onVersion_over {env s a s' n} (e : onVersion env s a = .ok (s', n)) :
    OnChan s s' ∨ Switch s s' := by
  unfold onVersion at e
  left
  split at e
  · cases e; exact .refl _
  · rcases ite_cases e with ⟨-, e⟩ | ⟨-, e⟩
    · cases e
      exact (badVersion_mute _ _).over
    · obtain ⟨srv, h1, e⟩ := Outcome.bind_eq_ok.1 e
      cases e
      have : Mute s { s with srv := srv } := ⟨rfl, [], by simp, by simp⟩
      exact (this.trans (.trans (.send _ _ _) (.upd _ rfl))).over

theorem onSecurity_over {env s a s' n} (e : onSecurity env s a = .ok (s', n)) :
    OnChan s s' ∨ Switch s s' := by
  unfold onSecurity at e
  left
  split at e
  · cases e; exact .refl _
  · rcases ite_cases e with ⟨-, e⟩ | ⟨ho, e⟩
    · cases e; exact (handshakeFailed_mute _ _ _).over
    rcases ite_cases e with ⟨ht, e⟩ | ⟨-, e⟩
    · cases e; exact (Mute.trans (.send _ _ _) (.upd _ rfl)).over
    rcases ite_cases e with ⟨ht, e⟩ | ⟨-, e⟩
    · cases e; exact (Mute.trans (.send _ _ _) (.upd _ rfl)).over
    rcases ite_cases e with ⟨ht, e⟩ | ⟨-, e⟩
    · cases e; exact (Mute.trans (.send _ _ _) (.upd _ rfl)).over
    rcases ite_cases e with ⟨ht, e⟩ | ⟨-, e⟩
    · cases e; exact (Mute.trans (.upd _ rfl) (.trans (.send _ _ _) (.upd _ rfl))).over
    rcases ite_cases e with ⟨ht, e⟩ | ⟨-, e⟩
    · cases e; exact (Mute.trans (.upd _ rfl) (.trans (.send _ _ _) (.upd _ rfl))).over
    · cases e; exact (handshakeFailed_mute _ _ _).over

theorem onInit_over {s a s' n} (e : onInit s a = .ok (s', n)) :
    OnChan s s' ∨ Switch s s' := by
  unfold onInit at e
  left
  split at e
  · cases e; exact .refl _
  · rename_i shared _
    dsimp only at e
    have h0 : Mute s (if shared = 0 then emit .disconnectOthers s else s) := by
      split
      · exact .emit _ (by simp)
      · exact .refl _
    generalize (if shared = 0 then emit .disconnectOthers s else s) = t at e h0
    split at e
    · cases e
    · rename_i u heq
      have h1 : Mute t u := by
        unfold sendServerInit at heq
        split at heq
        · cases heq
        · split at heq
          · cases heq
          · cases heq
            exact .trans (.upd _ rfl) (.trans (.send _ _ _) (.upd _ rfl))
      cases e
      exact ((h0.trans h1).trans (.trans (.emit _ (by simp)) (.upd _ rfl))).over

theorem onVeVersion_over {env s a s' n} (e : onVeVersion env s a = .ok (s', n)) :
    OnChan s s' ∨ Switch s s' := by
  unfold onVeVersion at e
  left
  split at e
  · rcases ite_cases e with ⟨-, e⟩ | ⟨-, e⟩ <;> cases e
    · exact (handshakeFailed_mute _ _ _).over
    · exact (Mute.trans (.send _ _ _) (.trans (.send _ _ _) (.upd _ rfl))).over
  · cases e; exact .refl _

theorem onVeSubtype_over {env s a s' n} (e : onVeSubtype env s a = .ok (s', n)) :
    OnChan s s' ∨ Switch s s' := by
  unfold onVeSubtype at e
  split at e
  · rcases ite_cases e with ⟨-, e⟩ | ⟨-, e⟩
    · cases e
      exact .inl (Mute.trans (.upd s (f := fun k => { k with st := .error }) rfl) (sendAndClose_mute _ _ _ _)).over
    · dsimp only at e
      rcases ite_cases e with ⟨-, e⟩ | ⟨-, e⟩ <;> cases e
      refine .inr ⟨.tls, if s.cl.closed then [] else [.send s.cl.chan .veAck [1]], [], ?_, rfl, by decide, ?_,
        by simp⟩
      · show (send .veAck [1] s).log ++ [.upgrade .tls] = _
        rw [send_log]
      · intro x hx
        split at hx <;> simp at hx
        exact ⟨_, _, hx⟩
  · cases e; exact .inl (.refl _)

theorem vePlainBody_over {env s a ul pl s' n} (hs : s.cl.st = .vePlain)
    (e : vePlainBody env a ul pl s = .ok (s', n)) :
    OnChan s s' ∨ Switch s s' := by
  unfold vePlainBody at e
  left
  split at e <;> cases e
  · exact authenticate_over (.inl hs)
  · exact .refl _

theorem onVePlain_over {env s a s' n} (hs : s.cl.st = .vePlain) (e : onVePlain env s a = .ok (s', n)) :
    OnChan s s' ∨ Switch s s' := by
  unfold onVePlain at e
  split at e
  · exact vePlainBody_over hs e
  · cases e; exact .inl (.refl _)

theorem onAppleDh_over {env s a s' n} (hs : s.cl.st = .appleDh) (e : onAppleDh env s a = .ok (s', n)) :
    OnChan s s' ∨ Switch s s' := by
  unfold onAppleDh at e
  left
  split at e <;> cases e
  · exact authenticate_over (.inr (.inl hs))
  · exact .refl _

theorem rsaPubKeyBody_over {env s a l s' n} (e : rsaPubKeyBody env a l s = .ok (s', n)) :
    OnChan s s' ∨ Switch s s' := by
  unfold rsaPubKeyBody at e
  left
  split at e
  · dsimp only at e
    rcases ite_cases e with ⟨-, e⟩ | ⟨-, e⟩
    · cases e
    · split at e <;> cases e
      · exact (Mute.trans (.upd _ rfl) (.send _ _ _)).over
      · exact (Mute.trans (.upd _ rfl) (.send _ _ _)).over
  · cases e; exact .refl _

theorem onRsaPubKey_over {env s a s' n} (e : onRsaPubKey env s a = .ok (s', n)) :
    OnChan s s' ∨ Switch s s' := by
  unfold onRsaPubKey at e
  split at e
  · exact rsaPubKeyBody_over e
  · cases e; exact .inl (.refl _)

theorem onRsaChallenge_over {env s a s' n} (e : onRsaChallenge env s a = .ok (s', n)) :
    OnChan s s' ∨ Switch s s' := by
  unfold onRsaChallenge at e
  split at e
  · dsimp only at e
    split at e
    · split at e <;> cases e
      rename_i r _
      refine .inr ⟨.rsa, [], if s.cl.closed then [] else
        [.send .rsa .rsaHash ((hashBuf (env.serverHash r)).take (rsaHashLen s.cl))], ?_, ?_, by decide, by simp, ?_⟩
      · rw [St.upd_log, send_log]
        by_cases hc : s.cl.closed = true <;> simp [rsaHashLen, hc]
      · simp
      · intro x hx
        split at hx <;> simp at hx
        exact ⟨_, _, hx⟩
    · cases e; exact .inl (.refl _)
  · cases e; exact .inl (.refl _)

theorem onRsaHash_over {env s a s' n} (e : onRsaHash env s a = .ok (s', n)) :
    OnChan s s' ∨ Switch s s' := by
  unfold onRsaHash at e
  left
  split at e
  · rcases ite_cases e with ⟨-, e⟩ | ⟨-, e⟩ <;> cases e
    exact (Mute.trans (.send _ _ _) (.upd _ rfl)).over
  · cases e; exact .refl _

theorem onRsaCreds_over {env s a s' n} (hs : s.cl.st = .rsaCreds) (e : onRsaCreds env s a = .ok (s', n)) :
    OnChan s s' ∨ Switch s s' := by
  unfold onRsaCreds at e
  left
  split at e
  · dsimp only at e
    split at e
    · split at e <;> cases e
      · exact authenticate_over (.inr (.inr hs))
      · exact .refl _
    · cases e; exact .refl _
  · cases e; exact .refl _

/-- every message of the handshake is answered on the channel it arrived on, except those that change it -/
theorem hs_over {env r s a s' n} (hst : s.cl.st ≠ .ready) (e : tryRead env table r s a = .ok (s', n)) :
    OnChan s s' ∨ Switch s s' := by
  unfold tryRead at e
  split at e
  · cases e; exact .inl (.refl _)
  · exact onVersion_over e
  · exact onSecurity_over e
  · exact onInit_over e
  · exact onVeVersion_over e
  · exact onVeSubtype_over e
  · exact onVePlain_over ‹_› e
  · exact onAppleDh_over ‹_› e
  · exact onRsaPubKey_over e
  · exact onRsaChallenge_over e
  · exact onRsaHash_over e
  · exact onRsaCreds_over ‹_› e
  · exact absurd ‹_› hst

end Verif.Server
