import Verif.Lemmas.Lifetime

/-!
# Lemmas: a client is closed once
-/

namespace Verif.Server

variable {env : Env} {table : List Nat}

/-- a client whose closing has been scheduled exactly if its stream is closed -/
structure Sole (s : St) : Prop where
  there : s.cl.freed = false
  once : s.cl.nDefer = if s.cl.closed then 1 else 0
  none : s.cl.closePending = false

/-- the same, where a last message may still be in the send queue -/
structure Tidy (s : St) : Prop where
  there : s.cl.freed = false
  once : s.cl.nDefer = if s.cl.closed then 1 else 0
  queued : s.cl.closePending = true → s.cl.closed = false ∧ s.cl.st = .error

theorem Sole.tidy {s} (h : Sole s) : Tidy s := ⟨h.there, h.once, fun hp => by rw [h.none] at hp; cases hp⟩

def lifeKey (s : St) : Bool × Nat × Bool × Bool := (s.cl.freed, s.cl.nDefer, s.cl.closed, s.cl.closePending)

theorem Sole.congr {s t} (h : Sole s) (e : lifeKey t = lifeKey s) : Sole t := by
  unfold lifeKey at e
  simp only [Prod.mk.injEq] at e
  obtain ⟨e1, e2, e3, e4⟩ := e
  exact ⟨e1.trans h.there, by rw [e2, e3]; exact h.once, e4.trans h.none⟩

@[simp] theorem lifeKey_send (k b s) : lifeKey (send k b s) = lifeKey s := by unfold lifeKey; simp

@[simp] theorem lifeKey_emit (e s) : lifeKey (emit e s) = lifeKey s := rfl

theorem SimpleFrame.lifeKey {s t} (h : SimpleFrame s t) : lifeKey t = lifeKey s := by
  obtain ⟨-, -, ⟨_, _, _, _, _, _, _, _, _, h⟩, -⟩ := h
  unfold Server.lifeKey; rw [h]

theorem calm_remote {s} (h : Sole s) (hc : s.cl.closed = false) : Sole (remoteClosed s) := by
  obtain ⟨h1, h2, h3⟩ := h
  rw [hc] at h2
  unfold remoteClosed streamClose
  rw [if_neg (by rw [hc]; exact Bool.false_ne_true)]
  dsimp only
  rw [if_neg (by show ¬ s.cl.closePending = true; rw [h3]; exact Bool.false_ne_true)]
  refine ⟨h1, ?_, h3⟩
  show s.cl.nDefer + 1 = 1
  rw [h2]; rfl

theorem micro_calm {s s'} (h : Micro false table s s') (hr : s.cl.st = .ready) (hs : Sole s) : Sole s' := by
  cases h with
  | consume _ _ _ hl => cases hl
  | recv _ hl => cases hl
  | compact hl => cases hl
  | free hl => cases hl
  | idle hl => cases hl
  | fenceOut => exact hs.congr (lifeKey_send _ _ _)
  | pfFire => exact hs.congr (lifeKey_send _ _ _)
  | ext =>
    refine hs.congr ?_
    unfold lifeKey
    rw [(sendExtSupport_frame _).2.2.1]; rfl
  | cursor env =>
    obtain ⟨_, h⟩ := (sendCursor_frame env s).2.2.1
    exact hs.congr (by unfold lifeKey; rw [h])
  | led =>
    obtain ⟨_, h⟩ := (sendLed_frame s).2.2.1
    exact hs.congr (by unfold lifeKey; rw [h])
  | frame env fb hr h =>
    obtain ⟨_, _, _, _, _, _, _, _, _, h⟩ := (stageFrame_frame h).2.2.1
    exact hs.congr (by unfold lifeKey; rw [h])
  | sendFrame f =>
    obtain ⟨_, _, _, h, -⟩ := (sendFrame_frame f s).2.2.1
    exact hs.congr (by unfold lifeKey; rw [h])
  | hs env r a h h2 => exact absurd hr h
  | simple env a h h2 => exact hs.congr h2.frame.lifeKey
  | fbReq inc r =>
    obtain ⟨_, _, h⟩ := (fbReqPre_frame inc r s).2.2.1
    exact hs.congr (by unfold lifeKey; rw [h])
  | contOff => exact hs.congr (lifeKey_send _ _ _)
  | fenceReq flags payload h hp h2 =>
    obtain ⟨_, _, _, _, _, h⟩ := (fenceSeen_frame h2).2.2.1
    exact hs.congr (by unfold lifeKey; rw [h])
  | bigCut env c d hr hc h h2 => exact hs.congr (bigCutText_frame h2).lifeKey
  | remoteClosed h => exact calm_remote hs h
  | flushed h => rw [hs.none] at h; cases h
  | _ => exact ⟨hs.there, hs.once, hs.none⟩

/-! ## The handshake -/

theorem sendAndClose_tidy {k b s} (h : Sole s) (hst : s.cl.st = .error) (hw : env.lastWrite ≠ .broken) :
    Tidy (sendAndClose env k b s) := by
  obtain ⟨h1, h2, h3⟩ := h
  unfold sendAndClose
  split
  · exact Sole.tidy ⟨h1, h2, h3⟩
  · rename_i hc
    have hc : s.cl.closed = false := by simpa using hc
    rw [hc] at h2
    split
    · refine ⟨by simpa [deferClose] using h1, ?_, ?_⟩
      · simp [deferClose, h2]
      · simp [deferClose, h3]
    · refine ⟨by simpa using h1, by simp [h2, hc], fun _ => by simp [hc, hst]⟩
    · rename_i hb; exact absurd hb hw

theorem handshakeFailed_tidy {m s} (h : Sole s) (hw : env.lastWrite ≠ .broken) :
    Tidy (handshakeFailed env m s) := by
  unfold handshakeFailed
  exact sendAndClose_tidy (h.congr (by rfl)) rfl hw

theorem authenticate_tidy {u p s} (h : Sole s) (hw : env.lastWrite ≠ .broken) :
    Tidy (authenticate env u p s) := by
  unfold authenticate
  dsimp only
  split
  · refine Sole.tidy (h.congr ?_)
    show lifeKey (handshakeOk _ _) = _
    unfold handshakeOk
    dsimp only
    rw [lifeKey_send]; rfl
  · exact handshakeFailed_tidy (h.congr (by rfl)) hw

theorem onVersion_tidy {s a s' n} (hc : Sole s) (hw : env.lastWrite ≠ .broken)
    (e : onVersion env s a = .ok (s', n)) : Tidy s' := by
  have h := hc.tidy
  unfold onVersion at e
  split at e
  · cases e; exact h
  · rcases ite_cases e with ⟨-, e⟩ | ⟨-, e⟩
    · cases e
      unfold badVersion
      exact sendAndClose_tidy (hc.congr (by rfl)) rfl hw
    · obtain ⟨srv, h1, e⟩ := Outcome.bind_eq_ok.1 e
      cases e
      refine Sole.tidy (hc.congr ?_)
      show lifeKey (send _ _ _) = _
      rw [lifeKey_send]; rfl

theorem onSecurity_tidy {s a s' n} (hc : Sole s) (hw : env.lastWrite ≠ .broken)
    (e : onSecurity env s a = .ok (s', n)) : Tidy s' := by
  have h := hc.tidy
  unfold onSecurity at e
  split at e
  · cases e; exact h
  · rcases ite_cases e with ⟨-, e⟩ | ⟨-, e⟩
    · cases e; exact handshakeFailed_tidy hc hw
    rcases ite_cases e with ⟨-, e⟩ | ⟨-, e⟩
    · cases e
      refine Sole.tidy (hc.congr ?_)
      show lifeKey (send _ _ _) = _
      rw [lifeKey_send]
    rcases ite_cases e with ⟨-, e⟩ | ⟨-, e⟩
    · cases e
      refine Sole.tidy (hc.congr ?_)
      show lifeKey (send _ _ _) = _
      rw [lifeKey_send]
    rcases ite_cases e with ⟨-, e⟩ | ⟨-, e⟩
    · cases e
      refine Sole.tidy (hc.congr ?_)
      show lifeKey (send _ _ _) = _
      rw [lifeKey_send]
    rcases ite_cases e with ⟨-, e⟩ | ⟨-, e⟩
    · cases e
      refine Sole.tidy (hc.congr ?_)
      show lifeKey (send _ _ _) = _
      rw [lifeKey_send]; rfl
    rcases ite_cases e with ⟨-, e⟩ | ⟨-, e⟩
    · cases e
      refine Sole.tidy (hc.congr ?_)
      show lifeKey (send _ _ _) = _
      rw [lifeKey_send]; rfl
    · cases e; exact handshakeFailed_tidy hc hw

theorem onInit_tidy {s a s' n} (hc : Sole s)
    (e : onInit s a = .ok (s', n)) : Tidy s' := by
  have h := hc.tidy
  unfold onInit at e
  split at e
  · cases e; exact h
  · rename_i shared _
    dsimp only at e
    have h0 : lifeKey (if shared = 0 then emit .disconnectOthers s else s) = lifeKey s := by
      split <;> rfl
    generalize (if shared = 0 then emit .disconnectOthers s else s) = t at e h0
    split at e
    · cases e
    · rename_i heq
      cases e
      refine Sole.tidy (hc.congr (Eq.trans ?_ h0))
      unfold sendServerInit at heq
      split at heq
      · cases heq
      · split at heq
        · cases heq
        · cases heq
          show lifeKey (send _ _ _) = _
          rw [lifeKey_send]; rfl

theorem onVeVersion_tidy {s a s' n} (hc : Sole s) (hw : env.lastWrite ≠ .broken)
    (e : onVeVersion env s a = .ok (s', n)) : Tidy s' := by
  have h := hc.tidy
  unfold onVeVersion at e
  split at e
  · rcases ite_cases e with ⟨-, e⟩ | ⟨-, e⟩ <;> cases e
    · exact handshakeFailed_tidy hc hw
    · refine Sole.tidy (hc.congr ?_)
      show lifeKey (send _ _ (send _ _ _)) = _
      rw [lifeKey_send, lifeKey_send]
  · cases e; exact h

theorem onVeSubtype_tidy {s a s' n} (hc : Sole s) (hw : env.lastWrite ≠ .broken)
    (e : onVeSubtype env s a = .ok (s', n)) : Tidy s' := by
  have h := hc.tidy
  unfold onVeSubtype at e
  split at e
  · rcases ite_cases e with ⟨-, e⟩ | ⟨-, e⟩
    · cases e; exact sendAndClose_tidy (hc.congr (by rfl)) rfl hw
    · dsimp only at e
      rcases ite_cases e with ⟨-, e⟩ | ⟨-, e⟩ <;> cases e
      refine Sole.tidy (hc.congr ?_)
      show lifeKey (send _ _ _) = _
      rw [lifeKey_send]
  · cases e; exact h

theorem vePlainBody_tidy {s a u p s' n} (hc : Sole s) (hw : env.lastWrite ≠ .broken)
    (e : vePlainBody env a u p s = .ok (s', n)) : Tidy s' := by
  unfold vePlainBody at e
  split at e <;> cases e
  · exact authenticate_tidy hc hw
  · exact hc.tidy

theorem onVePlain_tidy {s a s' n} (hc : Sole s) (hw : env.lastWrite ≠ .broken)
    (e : onVePlain env s a = .ok (s', n)) : Tidy s' := by
  unfold onVePlain at e
  split at e
  · exact vePlainBody_tidy hc hw e
  · cases e; exact hc.tidy

theorem onAppleDh_tidy {s a s' n} (hc : Sole s) (hw : env.lastWrite ≠ .broken)
    (e : onAppleDh env s a = .ok (s', n)) : Tidy s' := by
  have h := hc.tidy
  unfold onAppleDh at e
  split at e <;> cases e
  · exact authenticate_tidy hc hw
  · exact h

theorem rsaPubKeyBody_tidy {s a l s' n} (hc : Sole s)
    (e : rsaPubKeyBody env a l s = .ok (s', n)) : Tidy s' := by
  unfold rsaPubKeyBody at e
  split at e
  · dsimp only at e
    rcases ite_cases e with ⟨-, e⟩ | ⟨-, e⟩
    · cases e
    · split at e <;> cases e <;>
      · refine Sole.tidy (hc.congr ?_)
        show lifeKey (send _ _ _) = _
        rw [lifeKey_send]; rfl
  · cases e; exact hc.tidy

theorem onRsaPubKey_tidy {s a s' n} (hc : Sole s)
    (e : onRsaPubKey env s a = .ok (s', n)) : Tidy s' := by
  unfold onRsaPubKey at e
  split at e
  · exact rsaPubKeyBody_tidy hc e
  · cases e; exact hc.tidy

theorem onRsaChallenge_tidy {s a s' n} (hc : Sole s)
    (e : onRsaChallenge env s a = .ok (s', n)) : Tidy s' := by
  have h := hc.tidy
  unfold onRsaChallenge at e
  split at e
  · dsimp only at e
    split at e
    · split at e <;> cases e
      refine Sole.tidy (hc.congr ?_)
      show lifeKey (send _ _ _) = _
      rw [lifeKey_send]; rfl
    · cases e; exact h
  · cases e; exact h

theorem onRsaHash_tidy {s a s' n} (hc : Sole s)
    (e : onRsaHash env s a = .ok (s', n)) : Tidy s' := by
  have h := hc.tidy
  unfold onRsaHash at e
  split at e
  · rcases ite_cases e with ⟨-, e⟩ | ⟨-, e⟩ <;> cases e
    refine Sole.tidy (hc.congr ?_)
    show lifeKey (send _ _ _) = _
    rw [lifeKey_send]
  · cases e; exact h

theorem onRsaCreds_tidy {s a s' n} (hc : Sole s) (hw : env.lastWrite ≠ .broken)
    (e : onRsaCreds env s a = .ok (s', n)) : Tidy s' := by
  have h := hc.tidy
  unfold onRsaCreds at e
  split at e
  · dsimp only at e
    split at e
    · split at e <;> cases e
      · exact authenticate_tidy hc hw
      · exact h
    · cases e; exact h
  · cases e; exact h

theorem hs_tidy {r s a s' n} (hst : s.cl.st ≠ .ready) (h : Tidy s) (hw : env.lastWrite ≠ .broken)
    (e : tryRead env table r s a = .ok (s', n)) : Tidy s' := by
  unfold tryRead at e
  split at e
  · cases e; exact h
  all_goals
    rename_i hs'
    have hc : Sole s := ⟨h.there, h.once, by
      cases hp : s.cl.closePending with
      | false => rfl
      | true => exact absurd ((h.queued hp).2.symm.trans hs') nofun⟩
  · exact onVersion_tidy hc hw e
  · exact onSecurity_tidy hc hw e
  · exact onInit_tidy hc e
  · exact onVeVersion_tidy hc hw e
  · exact onVeSubtype_tidy hc hw e
  · exact onVePlain_tidy hc hw e
  · exact onAppleDh_tidy hc hw e
  · exact onRsaPubKey_tidy hc e
  · exact onRsaChallenge_tidy hc e
  · exact onRsaHash_tidy hc e
  · exact onRsaCreds_tidy hc hw e
  · exact absurd (by assumption) hst

/-! ## The receive loop -/

theorem Tidy.calm {s} (h : Tidy s) (hr : s.cl.st = .ready) : Sole s :=
  ⟨h.there, h.once, by
    cases hp : s.cl.closePending with
    | false => rfl
    | true => exact absurd ((h.queued hp).2.symm.trans hr) nofun⟩

theorem micro_quietReady : ∀ s s', Micro false table s s' → (Sole s ∧ s.cl.st = .ready) →
    (Sole s' ∧ s'.cl.st = .ready) :=
  fun _ _ hm ht => ⟨micro_calm hm ht.2 ht.1, micro_ready hm ht.2⟩

theorem tryRead_tidy {s a s' n} (h : Tidy s) (hw : env.lastWrite ≠ .broken)
    (e : tryRead env table reenterInHandler s a = .ok (s', n)) : Tidy s' := by
  by_cases hst : s.cl.st = .ready
  · unfold tryRead at e; rw [hst] at e
    exact (onMessage_inv (I := fun s => Sole s ∧ s.cl.st = .ready) (fun _ h => h.2)
      micro_quietReady (reenterInHandler_keeps (micro_quietReady (table := table))) hst ⟨h.calm hst, hst⟩ e).1.tidy
  · exact hs_tidy hst h hw e

theorem loop_tidy (hw : env.lastWrite ≠ .broken) (fuel : Nat) :
    ∀ {s s'}, Tidy s → loop env table fuel s = .ok s' → Tidy s' := by
  induction fuel with
  | zero => intro s s' hs e; cases e; exact hs
  | succ fuel ih =>
    intro s s' hs e
    unfold loop at e
    rcases ite_cases e with ⟨-, e⟩ | ⟨-, e⟩
    · cases e; exact hs
    dsimp only at e
    obtain ⟨⟨t, n⟩, ht, e⟩ := Outcome.bind_eq_ok.1 e
    have h1 : Tidy t := tryRead_tidy (s := s.upd fun k => { k with blocked := k.mustBlock, mustBlock := false })
      ⟨hs.there, hs.once, hs.queued⟩ hw ht
    dsimp only at e
    rcases ite_cases e with ⟨-, e⟩ | ⟨-, e⟩
    · cases e; exact h1
    rcases ite_cases e with ⟨-, e⟩ | ⟨-, e⟩
    · cases e
    · refine ih ?_ e
      exact ⟨h1.there, h1.once, h1.queued⟩

/-- what is left when `client_close` has run -/
structure Parted (s : St) : Prop where
  freed : s.cl.freed = true
  closed : s.cl.closed = true
  done : s.cl.nDefer = 0

theorem gone_free {s} (h : Tidy s) (hc : s.cl.closed = false) (hp : s.cl.closePending = false) :
    Parted (freeClient s) := by
  have h2 := h.once
  rw [hc] at h2
  unfold freeClient streamClose
  rw [if_neg (by rw [hc]; exact Bool.false_ne_true)]
  dsimp only
  rw [if_neg (by show ¬ s.cl.closePending = true; rw [hp]; exact Bool.false_ne_true)]
  exact ⟨rfl, rfl, h2⟩

/-- a read of the stream, while the stream is open or with nothing to read -/
theorem onReadable_tidy {rd s s'} (hw : env.lastWrite ≠ .broken) (h : Tidy s)
    (hop : s.cl.closed = true → rd = .again ∨ rd = .err)
    (hq : s.cl.closePending = true → rd = .again ∨ ∃ d, rd = .data d ∧ s.cl.buf.length < msgBufferSize)
    (hb : Base s) (e : onReadable env table rd s = .ok s') :
    Tidy s' ∨ (s'.cl.freed = true ∧ (s.cl.closed = false → Parted s')) := by
  have hcalm : rd = .closed ∨ rd = .err → Sole s := fun hrd => ⟨h.there, h.once, by
    cases hp : s.cl.closePending with
    | false => rfl
    | true => rcases hq hp with g | ⟨d, g, -⟩ <;> rw [g] at hrd <;> rcases hrd with g | g <;> cases g⟩
  have hfree : s.cl.closePending = false →
      (freeClient s).cl.freed = true ∧ (s.cl.closed = false → Parted (freeClient s)) :=
    fun hp => ⟨rfl, fun hc => gone_free h hc hp⟩
  unfold onReadable at e
  split at e
  · rename_i c hc
    rcases ite_cases e with ⟨-, e⟩ | ⟨-, e⟩
    · cases e
    cases rd with
    | again => cases e; exact .inl h
    | closed =>
      cases e
      exact .inl (calm_remote (hcalm (.inl rfl)) (open_of hop nofun nofun)).tidy
    | err => cases e; exact .inr (hfree (hcalm (.inr rfl)).none)
    | data d =>
      cases d with
      | nil => cases e; exact .inl h
      | cons b d =>
        have hst : s.cl.st = .ready := Classical.byContradiction fun hn => by
            rw [(hb hn).cut] at hc; cases hc
        exact .inl ((h.calm hst).congr (bigCutText_frame e).lifeKey).tidy
  · rcases ite_cases e with ⟨-, e⟩ | ⟨-, e⟩
    · cases e
    cases rd with
    | again => cases e; exact .inl h
    | closed =>
      cases e
      exact .inl (calm_remote (hcalm (.inl rfl)) (open_of hop nofun nofun)).tidy
    | err => cases e; exact .inr (hfree (hcalm (.inr rfl)).none)
    | data d =>
      cases d with
      | nil => cases e; exact .inl h
      | cons b d =>
        simp only at e
        rcases ite_cases e with ⟨hfull, e⟩ | ⟨hfull, e⟩
        · have hp : s.cl.closePending = false := by
            cases hp : s.cl.closePending with
            | false => rfl
            | true =>
              rcases hq hp with g | ⟨_, -, g⟩
              · cases g
              · omega
          split at e <;> cases e
          · exact .inl (calm_remote ⟨h.there, h.once, hp⟩ (open_of hop nofun nofun)).tidy
          · exact .inr (hfree hp)
          · exact .inl h
        · obtain ⟨t, ht, e⟩ := Outcome.bind_eq_ok.1 e
          cases e
          have h1 : Tidy t := by
            refine loop_tidy hw _ ?_ ht
            exact ⟨h.there, h.once, h.queued⟩
          exact .inl ⟨h1.there, h1.once, h1.queued⟩

theorem reenterTop_calm (hw : env.lastWrite ≠ .broken) :
    Keeps (fun s => Sole s ∧ s.cl.st = .ready) (reenterTop env table) := by
  intro s s' hs e
  unfold reenterTop at e
  have h1 := nextRead_inv (micro_quietReady (table := table)) hs
  have h3 := nextRead_closed s
  generalize nextRead s = res at e h1 h3
  obtain ⟨rd, t⟩ := res
  dsimp only at e
  obtain ⟨u, hu, e⟩ := Outcome.bind_eq_ok.1 e
  rcases ite_cases e with ⟨-, e⟩ | ⟨hf, e⟩
  · cases e
  cases e
  have hst : s'.cl.st = .ready := onReadable_inv (wd := true) (I := fun s => s.cl.st = .ready)
    (fun _ _ hm ht => micro_ready hm ht) (fun hn => absurd h1.2 hn) h1.1.there h3 h1.2 hu
  rcases onReadable_tidy hw h1.1.tidy h3 (fun hp => by rw [h1.1.none] at hp; cases hp)
    (fun hn => absurd h1.2 hn) hu with h | ⟨h, -⟩
  · exact ⟨h.calm hst, hst⟩
  · exact absurd h hf

/-! ## Runs -/

theorem step_once {o net s s'} (hw : env.lastWrite ≠ .broken)
    (ha : o = .appClose → s.cl.freed = false → s.cl.closed = false)
    (hq : s.cl.closePending = true → Patient s o) (hb : Base s) (h : Tidy s ∨ Parted s)
    (e : step table o env net s = .ok s') : Tidy s' ∨ Parted s' := by
  unfold step event at e
  rcases h with h | h
  · have h0 : Tidy { s with net := net } := ⟨h.there, h.once, h.queued⟩
    have hb0 : Base { s with net := net } := hb
    replace ha : o = .appClose → ({ s with net := net } : St).cl.freed = false →
      ({ s with net := net } : St).cl.closed = false := ha
    replace hq : ({ s with net := net } : St).cl.closePending = true →
      Patient { s with net := net } o := hq
    clear h hb
    generalize ({ s with net := net } : St) = t at e h0 hb0 ha hq
    rw [if_neg (by rw [h0.there]; exact Bool.false_ne_true)] at e
    have flow : ∀ u u', Tidy u → Base u → processFb env (reenterTop env table) u = .ok u' →
        Tidy u' := by
      intro u u' hu hbu eu
      by_cases hst : u.cl.st = .ready
      · exact (processFb_inv (I := fun s => Sole s ∧ s.cl.st = .ready) (fun _ h => h.2)
          (micro_quietReady (table := table)) (reenterTop_calm hw) ⟨hu.calm hst, hst⟩ eu).1.tidy
      · rw [processFb_idle (hbu hst)] at eu; cases eu; exact hu
    cases o with
    | readable rd =>
      dsimp only at e
      rcases ite_cases e with ⟨-, e⟩ | ⟨hc, e⟩
      · cases e; exact .inl h0
      · have hc : t.cl.closed = false := by simpa using hc
        rcases onReadable_tidy hw h0 (fun h => by rw [hc] at h; cases h)
          (fun hp => (hq hp).2 rd rfl) hb0 e with h | ⟨-, h⟩
        · exact .inl h
        · exact .inr (h hc)
    | written =>
      dsimp only at e
      rcases ite_cases e with ⟨hw', e⟩ | ⟨-, e⟩
      · have hst : t.cl.st = .ready := Classical.byContradiction fun hn => by
          rw [(hb0 hn).writing] at hw'; cases hw'
        exact .inl (completeFb_inv (I := fun s => Sole s ∧ s.cl.st = .ready) (fun _ h => h.2)
          (micro_quietReady (table := table)) (reenterTop_calm hw) (micro_quietReady (table := table) _ _ (.written t hst hw')
            ⟨h0.calm hst, hst⟩) e).1.tidy
      · cases e; exact .inl h0
    | encoded f =>
      dsimp only at e
      rcases ite_cases e with ⟨hw', e⟩ | ⟨-, e⟩
      · have hst : t.cl.st = .ready := Classical.byContradiction fun hn => by
          rw [(hb0 hn).encoding] at hw'; cases hw'
        exact .inl (finishFb_inv (I := fun s => Sole s ∧ s.cl.st = .ready) (fun _ h => h.2)
          (micro_quietReady (table := table)) (reenterTop_calm hw) (by simp [emit]) (micro_quietReady (table := table) _ _
            (.encoded t f hst hw') ⟨h0.calm hst, hst⟩) e).1.tidy
      · cases e; exact .inl h0
    | flushed =>
      dsimp only at e
      rcases ite_cases e with ⟨hp, e⟩ | ⟨-, e⟩ <;> cases e
      · obtain ⟨hc, -⟩ := h0.queued hp
        have h2 := h0.once
        rw [hc] at h2
        unfold streamClose
        rw [if_neg (by rw [hc]; exact Bool.false_ne_true)]
        dsimp only
        rw [if_pos (by exact hp)]
        refine .inl ⟨h0.there, ?_, nofun⟩
        show t.cl.nDefer + 1 = 1
        rw [h2]; rfl
      · exact .inl h0
    | idle =>
      dsimp only at e
      rcases ite_cases e with ⟨-, e⟩ | ⟨hn, e⟩ <;> cases e
      · exact .inl h0
      · have hc : t.cl.closed = true := by
          cases hc : t.cl.closed with
          | true => rfl
          | false => exact absurd (by rw [h0.once, hc]; rfl) hn
        have h2 := h0.once
        rw [hc] at h2
        unfold freeClient streamClose
        rw [if_pos (by exact hc)]
        refine .inr ⟨rfl, hc, ?_⟩
        show t.cl.nDefer - 1 = 0
        rw [h2]; rfl
    | appClose =>
      cases e
      refine .inr (gone_free h0 (ha rfl h0.there) ?_)
      cases hp : t.cl.closePending with
      | false => rfl
      | true => exact absurd rfl (hq hp).1
    | damage q =>
      dsimp only at e
      refine .inl (flow _ _ ?_ ?_ e)
      · split <;> exact ⟨h0.there, h0.once, h0.queued⟩
      · split
        · exact hb0
        · rename_i hc
          exact micro_base (wd := true) (.damage (lp := false) (table := table) t q (by simpa using hc)) hb0
    | display fb => cases e; exact .inl ⟨h0.there, h0.once, h0.queued⟩
    | cursor =>
      dsimp only at e
      refine .inl (flow _ _ ?_ ?_ e)
      · exact ⟨h0.there, h0.once, h0.queued⟩
      · exact micro_base (.setCursor (lp := false) (table := table) t) hb0
    | setLed v =>
      dsimp only at e
      refine .inl (flow _ _ ?_ ?_ e)
      · exact ⟨h0.there, h0.once, h0.queued⟩
      · exact micro_base (wd := true) (.setLed (lp := false) (table := table) t v) hb0
  · rw [if_pos (by exact h.freed)] at e
    right
    split at e
    · rcases ite_cases e with ⟨-, e⟩ | ⟨-, e⟩ <;> cases e
      exact ⟨h.freed, h.closed, h.done⟩
    · cases e; exact ⟨h.freed, h.closed, h.done⟩

theorem run_once (evs : List (Op × Env × List Read)) : ∀ {s s'}, Careful table evs s → Base s →
    Tidy s ∨ Parted s → run table evs s = .ok s' → Tidy s' ∨ Parted s' := by
  induction evs with
  | nil => intro s s' _ _ h e; cases e; exact h
  | cons ev evs ih =>
    intro s s' hc hb h e
    obtain ⟨o, env, net⟩ := ev
    obtain ⟨t, ht, e⟩ := Outcome.bind_eq_ok.1 e
    obtain ⟨h1, h2, h3, h4⟩ := hc
    exact ih (h4 t ht) (step_inv (I := fun _ => True) (fun _ _ _ _ _ => trivial) hb trivial ht).1
      (step_once h1 h2 h3 hb h ht) e

end Verif.Server
