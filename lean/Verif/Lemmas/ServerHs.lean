import Verif.Lemmas.ServerFrame

/-!
# What the handshake handlers leave alone
-/

namespace Verif.Server

variable {table : List Nat} {I : St → Prop}

/-- the messages the server writes in each phase of the handshake -/
def hsKind : CState → Kind → Bool
  | .version, .secTypes | .version, .badVersion => true
  | .security, .secOk | .security, .secFail | .security, .veVersion | .security, .appleKey
  | .security, .rsaKey => true
  | .veVersion, .veAck | .veVersion, .veSubtypes | .veVersion, .secFail => true
  | .veSubtype, .veAck => true
  | .vePlain, .secOk | .vePlain, .secFail => true
  | .appleDh, .secOk | .appleDh, .secFail => true
  | .rsaPubKey, .rsaChallenge => true
  | .rsaChallenge, .rsaHash => true
  | .rsaHash, .rsaSubtype => true
  | .rsaCreds, .secOk | .rsaCreds, .secFail => true
  | .init, .serverInit => true
  | _, _ => false

/-- what the handshake lets the world see in phase `b` -/
inductive HsEff (b : CState) : Eff → Prop
  | send (ch k m) : hsKind b k = true → HsEff b (.send ch k m)
  | upgrade (ch) : HsEff b (.upgrade ch)
  | auth (u p ok) : HsEff b (.auth u p ok)
  | newClient : b = .init → HsEff b .newClient
  | disconnectOthers : b = .init → HsEff b .disconnectOthers
  | deferClose : HsEff b .deferClose

/-- what a handshake message may change -/
structure HsFrame (b : CState) (s s' : St) : Prop where
  srv : ∃ l, s'.srv = { s.srv with secTypes := l }
  net : s'.net = s.net
  cl : ∃ st ch un r rl px kw kh clo cp nd, s'.cl = { s.cl with
    st := st, chan := ch, username := un, rsa256 := r, rsaKeyLen := rl, pix := px, knownW := kw,
    knownH := kh, closed := clo, closePending := cp, nDefer := nd }
  log : ∃ es, s'.log = s.log ++ es ∧ ∀ e ∈ es, HsEff b e

variable {b : CState}

theorem HsFrame.refl (s : St) : HsFrame b s s :=
  ⟨⟨_, rfl⟩, rfl, ⟨_, _, _, _, _, _, _, _, _, _, _, rfl⟩, ⟨[], by simp, by simp⟩⟩

theorem HsFrame.trans {s t u : St} (h1 : HsFrame b s t) (h2 : HsFrame b t u) :
    HsFrame b s u := by
  obtain ⟨⟨_, a1⟩, a2, ⟨_, _, _, _, _, _, _, _, _, _, _, a3⟩, ⟨es, a4, a5⟩⟩ := h1
  obtain ⟨⟨_, b1⟩, b2, ⟨_, _, _, _, _, _, _, _, _, _, _, b3⟩, ⟨fs, b4, b5⟩⟩ := h2
  refine ⟨⟨_, by rw [b1, a1]⟩, b2.trans a2, ⟨_, _, _, _, _, _, _, _, _, _, _, by rw [b3, a3]⟩,
    ⟨es ++ fs, by rw [b4, a4, List.append_assoc], ?_⟩⟩
  intro e he
  rcases List.mem_append.1 he with he | he
  · exact a5 e he
  · exact b5 e he

theorem HsFrame.emit {s e} (h : HsEff b e) : HsFrame b s (emit e s) :=
  ⟨⟨_, rfl⟩, rfl, ⟨_, _, _, _, _, _, _, _, _, _, _, rfl⟩, ⟨[e], rfl, by simpa using h⟩⟩

theorem HsFrame.send' (s k m) (h : ∀ ch, HsEff b (.send ch k m)) : HsFrame b s (send k m s) := by
  unfold Server.send
  split
  · exact .refl s
  · exact .emit (h _)

theorem HsFrame.send (s k m) (h : hsKind b k = true := by rfl) : HsFrame b s (send k m s) :=
  .send' s k m fun _ => .send _ k m h

theorem HsFrame.upd (s) {f : Client → Client}
    (h : ∃ st ch un r rl px kw kh clo cp nd, f s.cl = { s.cl with
      st := st, chan := ch, username := un, rsa256 := r, rsaKeyLen := rl, pix := px, knownW := kw,
      knownH := kh, closed := clo, closePending := cp, nDefer := nd }) : HsFrame b s (s.upd f) :=
  ⟨⟨_, rfl⟩, rfl, h, ⟨[], by simp, by simp⟩⟩

theorem deferClose_frame (s) : HsFrame b s (deferClose s) :=
  .trans (.upd s ⟨_, _, _, _, _, _, _, _, _, _, _, rfl⟩) (.emit .deferClose)

theorem streamClose_frame (s) : HsFrame b s (streamClose s) := by
  unfold streamClose
  split
  · exact .refl _
  · dsimp only
    refine .trans (.upd s (f := fun k => { k with closed := true })
      ⟨_, _, _, _, _, _, _, _, _, _, _, rfl⟩) ?_
    split
    · exact .trans (.upd _ ⟨_, _, _, _, _, _, _, _, _, _, _, rfl⟩) (deferClose_frame _)
    · exact .refl _

theorem remoteClosed_frame (s) : HsFrame b s (remoteClosed s) :=
  .trans (streamClose_frame s) (deferClose_frame _)

theorem sendAndClose_frame (env k m s) (hk : hsKind b k = true := by rfl) :
    HsFrame b s (sendAndClose env k m s) := by
  unfold sendAndClose
  split
  · exact .refl _
  · split
    · exact .trans (.send s k m hk) (.trans (.upd _ ⟨_, _, _, _, _, _, _, _, _, _, _, rfl⟩)
        (deferClose_frame _))
    · exact .trans (.send s k m hk) (.upd _ ⟨_, _, _, _, _, _, _, _, _, _, _, rfl⟩)
    · exact .trans (.upd _ ⟨_, _, _, _, _, _, _, _, _, _, _, rfl⟩) (remoteClosed_frame _)

theorem handshakeFailed_frame (env r s) (hk : hsKind b .secFail = true := by rfl) :
    HsFrame b s (handshakeFailed env r s) :=
  .trans (.upd s ⟨_, _, _, _, _, _, _, _, _, _, _, rfl⟩) (sendAndClose_frame _ _ _ _ hk)

theorem handshakeOk_frame (u s) (hk : hsKind b .secOk = true := by rfl) :
    HsFrame b s (handshakeOk u s) := by
  unfold handshakeOk
  cases u
  · exact .send _ _ _ hk
  · exact .trans (.upd s ⟨_, _, _, _, _, _, _, _, _, _, _, rfl⟩) (.send _ _ _ hk)

theorem authenticate_frame (env u p s) (hk : hsKind b .secOk = true := by rfl)
    (hf : hsKind b .secFail = true := by rfl) : HsFrame b s (authenticate env u p s) := by
  unfold authenticate
  dsimp only
  refine .trans (.emit (.auth (cstr u) (cstr p) (env.authFn (cstr u) (cstr p)))) ?_
  split
  · exact .trans (handshakeOk_frame _ _ hk) (.upd _ ⟨_, _, _, _, _, _, _, _, _, _, _, rfl⟩)
  · exact handshakeFailed_frame _ _ _ hf

theorem sendServerInit_frame {s s'} (e : sendServerInit s = some s') : HsFrame .init s s' := by
  unfold sendServerInit at e
  split at e
  · cases e
  · split at e
    · cases e
    · cases e
      exact .trans (.upd _ ⟨_, _, _, _, _, _, _, _, _, _, _, rfl⟩) (.trans (.send _ _ _)
        (.upd _ ⟨_, _, _, _, _, _, _, _, _, _, _, rfl⟩))

theorem initSecTypes_frame {srv srv'} (e : initSecTypes srv = .ok srv') :
    ∃ l, srv' = { srv with secTypes := l } := by
  unfold initSecTypes at e
  rcases ite_cases e with ⟨-, e⟩ | ⟨-, e⟩
  · cases e; exact ⟨_, rfl⟩
  rcases ite_cases e with ⟨-, e⟩ | ⟨-, e⟩
  · rcases ite_cases e with ⟨-, e⟩ | ⟨-, e⟩ <;> cases e
    exact ⟨_, rfl⟩
  · cases e; exact ⟨_, rfl⟩

theorem onVersion_hs {env s a s' n} (e : onVersion env s a = .ok (s', n)) :
    HsFrame .version s s' := by
  unfold onVersion at e
  split at e
  · cases e; exact .refl _
  · rcases ite_cases e with ⟨-, e⟩ | ⟨-, e⟩
    · cases e
      unfold badVersion
      dsimp only
      refine .trans (.upd s (f := fun k => { k with st := .error })
        ⟨_, _, _, _, _, _, _, _, _, _, _, rfl⟩) ?_
      exact sendAndClose_frame _ _ _ _
    · obtain ⟨srv, h1, e⟩ := Outcome.bind_eq_ok.1 e
      cases e
      refine .trans ?_ (.trans (.send _ _ _) (.upd _ ⟨_, _, _, _, _, _, _, _, _, _, _, rfl⟩))
      exact ⟨initSecTypes_frame h1, rfl, ⟨_, _, _, _, _, _, _, _, _, _, _, rfl⟩,
        ⟨[], by simp, by simp⟩⟩

theorem onSecurity_hs {env s a s' n} (e : onSecurity env s a = .ok (s', n)) :
    HsFrame .security s s' := by
  unfold onSecurity at e
  split at e
  · cases e; exact .refl _
  · rcases ite_cases e with ⟨-, e⟩ | ⟨-, e⟩
    · cases e; exact handshakeFailed_frame _ _ _
    rcases ite_cases e with ⟨-, e⟩ | ⟨-, e⟩
    · cases e
      exact .trans (handshakeOk_frame _ _) (.upd _ ⟨_, _, _, _, _, _, _, _, _, _, _, rfl⟩)
    rcases ite_cases e with ⟨-, e⟩ | ⟨-, e⟩
    · cases e
      exact .trans (.send _ _ _) (.upd _ ⟨_, _, _, _, _, _, _, _, _, _, _, rfl⟩)
    rcases ite_cases e with ⟨-, e⟩ | ⟨-, e⟩
    · cases e
      exact .trans (.send _ _ _) (.upd _ ⟨_, _, _, _, _, _, _, _, _, _, _, rfl⟩)
    rcases ite_cases e with ⟨-, e⟩ | ⟨-, e⟩
    · cases e
      exact .trans (.upd _ ⟨_, _, _, _, _, _, _, _, _, _, _, rfl⟩) (.trans (.send _ _ _)
        (.upd _ ⟨_, _, _, _, _, _, _, _, _, _, _, rfl⟩))
    rcases ite_cases e with ⟨-, e⟩ | ⟨-, e⟩
    · cases e
      exact .trans (.upd _ ⟨_, _, _, _, _, _, _, _, _, _, _, rfl⟩) (.trans (.send _ _ _)
        (.upd _ ⟨_, _, _, _, _, _, _, _, _, _, _, rfl⟩))
    · cases e; exact handshakeFailed_frame _ _ _

theorem onInit_hs {s a s' n} (e : onInit s a = .ok (s', n)) :
    HsFrame .init s s' := by
  unfold onInit at e
  split at e
  · cases e; exact .refl _
  · rename_i shared _
    dsimp only at e
    have h0 : HsFrame .init s (if shared = 0 then emit .disconnectOthers s else s) := by
      split
      · exact .emit (.disconnectOthers rfl)
      · exact .refl _
    refine .trans h0 ?_
    generalize (if shared = 0 then emit .disconnectOthers s else s) = t at e
    split at e
    · cases e
    · rename_i heq
      cases e
      exact .trans (sendServerInit_frame heq) (.trans (.emit (.newClient rfl))
        (.upd _ ⟨_, _, _, _, _, _, _, _, _, _, _, rfl⟩))

theorem onVeVersion_hs {env s a s' n} (e : onVeVersion env s a = .ok (s', n)) :
    HsFrame .veVersion s s' := by
  unfold onVeVersion at e
  split at e
  · rcases ite_cases e with ⟨-, e⟩ | ⟨-, e⟩ <;> cases e
    · exact handshakeFailed_frame _ _ _
    · exact .trans (.send _ _ _) (.trans (.send _ _ _)
        (.upd _ ⟨_, _, _, _, _, _, _, _, _, _, _, rfl⟩))
  · cases e; exact .refl _

theorem onVeSubtype_hs {env s a s' n} (e : onVeSubtype env s a = .ok (s', n)) :
    HsFrame .veSubtype s s' := by
  unfold onVeSubtype at e
  split at e
  · rcases ite_cases e with ⟨-, e⟩ | ⟨-, e⟩
    · cases e
      exact .trans (.upd s ⟨_, _, _, _, _, _, _, _, _, _, _, rfl⟩) (sendAndClose_frame _ _ _ _)
    · dsimp only at e
      rcases ite_cases e with ⟨-, e⟩ | ⟨-, e⟩ <;> cases e
      exact .trans (.send _ _ _) (.trans (.upd _ ⟨_, _, _, _, _, _, _, _, _, _, _, rfl⟩)
        (.trans (.emit (.upgrade .tls)) (.upd _ ⟨_, _, _, _, _, _, _, _, _, _, _, rfl⟩)))
  · cases e; exact .refl _

theorem vePlainBody_hs {env s a u p s' n} (e : vePlainBody env a u p s = .ok (s', n)) :
    HsFrame .vePlain s s' := by
  unfold vePlainBody at e
  split at e <;> cases e
  · exact authenticate_frame _ _ _ _
  · exact .refl _

theorem rsaPubKeyBody_hs {env s a l s' n} (e : rsaPubKeyBody env a l s = .ok (s', n)) :
    HsFrame .rsaPubKey s s' := by
  unfold rsaPubKeyBody at e
  split at e
  · dsimp only at e
    rcases ite_cases e with ⟨-, e⟩ | ⟨-, e⟩
    · cases e
    · split at e <;> cases e <;>
        exact .trans (.upd _ ⟨_, _, _, _, _, _, _, _, _, _, _, rfl⟩) (.send _ _ _)
  · cases e; exact .refl _

theorem onVePlain_hs {env s a s' n} (e : onVePlain env s a = .ok (s', n)) :
    HsFrame .vePlain s s' := by
  unfold onVePlain at e
  split at e
  · exact vePlainBody_hs e
  · cases e; exact .refl _

theorem onRsaPubKey_hs {env s a s' n} (e : onRsaPubKey env s a = .ok (s', n)) :
    HsFrame .rsaPubKey s s' := by
  unfold onRsaPubKey at e
  split at e
  · exact rsaPubKeyBody_hs e
  · cases e; exact .refl _

theorem onAppleDh_hs {env s a s' n} (e : onAppleDh env s a = .ok (s', n)) :
    HsFrame .appleDh s s' := by
  unfold onAppleDh at e
  split at e <;> cases e
  · exact authenticate_frame _ _ _ _
  · exact .refl _

theorem onRsaChallenge_hs {env s a s' n} (e : onRsaChallenge env s a = .ok (s', n)) :
    HsFrame .rsaChallenge s s' := by
  unfold onRsaChallenge at e
  split at e
  · dsimp only at e
    split at e
    · split at e <;> cases e
      exact .trans (.upd _ ⟨_, _, _, _, _, _, _, _, _, _, _, rfl⟩)
        (.trans (.emit (.upgrade .rsa)) (.trans (.send _ _ _)
          (.upd _ ⟨_, _, _, _, _, _, _, _, _, _, _, rfl⟩)))
    · cases e; exact .refl _
  · cases e; exact .refl _

theorem onRsaHash_hs {env s a s' n} (e : onRsaHash env s a = .ok (s', n)) :
    HsFrame .rsaHash s s' := by
  unfold onRsaHash at e
  split at e
  · rcases ite_cases e with ⟨-, e⟩ | ⟨-, e⟩ <;> cases e
    exact .trans (.send _ _ _) (.upd _ ⟨_, _, _, _, _, _, _, _, _, _, _, rfl⟩)
  · cases e; exact .refl _

theorem onRsaCreds_hs {env s a s' n} (e : onRsaCreds env s a = .ok (s', n)) :
    HsFrame .rsaCreds s s' := by
  unfold onRsaCreds at e
  split at e
  · dsimp only at e
    split at e
    · split at e <;> cases e
      · exact authenticate_frame _ _ _ _
      · exact .refl _
    · cases e; exact .refl _
  · cases e; exact .refl _

/-- a handshake message touches nothing of the update flow and of the receive buffer -/
theorem hs_frame {env r s a s' n} (hst : s.cl.st ≠ .ready)
    (e : tryRead env table r s a = .ok (s', n)) :
    HsFrame s.cl.st s s' := by
  unfold tryRead at e
  split at e
  · cases e; exact .refl _
  · rename_i h; rw [h]; exact onVersion_hs e
  · rename_i h; rw [h]; exact onSecurity_hs e
  · rename_i h; rw [h]; exact onInit_hs e
  · rename_i h; rw [h]; exact onVeVersion_hs e
  · rename_i h; rw [h]; exact onVeSubtype_hs e
  · rename_i h; rw [h]; exact onVePlain_hs e
  · rename_i h; rw [h]; exact onAppleDh_hs e
  · rename_i h; rw [h]; exact onRsaPubKey_hs e
  · rename_i h; rw [h]; exact onRsaChallenge_hs e
  · rename_i h; rw [h]; exact onRsaHash_hs e
  · rename_i h; rw [h]; exact onRsaCreds_hs e
  · exact absurd (by assumption) hst

theorem fenceReq_frame {flags payload s s' b} (e : onFenceRequest flags payload s = .ok (s', b)) :
    s'.srv = s.srv ∧ s'.net = s.net ∧
    (∃ bl mb pn pf pp, s'.cl = { s.cl with
      blocked := bl, mustBlock := mb, pfN := pn, pfFlags := pf, pfPayload := pp }) ∧
    (s'.log = s.log ∨ (s.cl.closed = false ∧ ∃ b, s'.log = s.log ++ [.send s.cl.chan .fence b])) := by
  unfold onFenceRequest at e
  dsimp only at e
  rcases ite_cases e with ⟨-, e⟩ | ⟨-, e⟩
  · cases e; exact ⟨rfl, rfl, ⟨_, _, _, _, _, rfl⟩, .inl rfl⟩
  have h0 : ∀ u : Int, ∃ mb pn, (if (flags % 8).testBit 0 = true ∧ 0 < s.cl.nPending + u then
        (s.upd fun k => { k with pfN := k.nPending + u })
      else if (flags % 8).testBit 2 = true ∧ s.cl.isUpdating = true then
        (s.upd fun k => { k with pfN := 1, mustBlock := (flags % 8).testBit 1 })
      else s) = s.upd fun k => { k with mustBlock := mb, pfN := pn } := by
    intro u
    split
    · exact ⟨_, _, rfl⟩
    · split
      · exact ⟨_, _, rfl⟩
      · exact ⟨s.cl.mustBlock, s.cl.pfN, rfl⟩
  obtain ⟨mb, pn, h0⟩ := h0 (if s.cl.isUpdating = true then 1 else 0)
  rw [h0] at e
  rcases ite_cases e with ⟨-, e⟩ | ⟨-, e⟩
  · obtain ⟨t, ht, e⟩ := Outcome.bind_eq_ok.1 e
    cases e
    unfold sendFence at ht
    rcases ite_cases ht with ⟨-, ht⟩ | ⟨-, ht⟩
    · cases ht
    · cases ht
      refine ⟨by simp, by simp, ⟨_, _, _, _, _, by rw [send_cl]; rfl⟩, ?_⟩
      cases hc : s.cl.closed
      · exact .inr ⟨rfl, _, by simp [hc]; rfl⟩
      · exact .inl (by simp [hc])
  · cases e; exact ⟨rfl, rfl, ⟨_, _, _, _, _, rfl⟩, .inl rfl⟩

@[simp] theorem noteFence_cl (f p s) : (noteFence f p s).cl = s.cl := by unfold noteFence; split <;> rfl
@[simp] theorem noteFence_srv (f p s) : (noteFence f p s).srv = s.srv := by unfold noteFence; split <;> rfl
@[simp] theorem noteFence_net (f p s) : (noteFence f p s).net = s.net := by unfold noteFence; split <;> rfl
theorem noteFence_on {f p s} (h : s.cl.nPending ≤ 0) : noteFence f p s = emit (.fenceReq f p) s := by
  unfold noteFence; rw [if_neg (by omega)]
theorem noteFence_off {f p s} (h : 0 < s.cl.nPending) : noteFence f p s = s := by
  unfold noteFence; rw [if_pos h]

theorem fenceSeen_frame {flags payload s s' b}
    (e : onFenceRequest flags payload (noteFence flags payload s) = .ok (s', b)) :
    s'.srv = s.srv ∧ s'.net = s.net ∧
    (∃ bl mb pn pf pp, s'.cl = { s.cl with
      blocked := bl, mustBlock := mb, pfN := pn, pfFlags := pf, pfPayload := pp }) ∧
    (s'.log = s.log ++ [] ∨ s'.log = s.log ++ [.fenceReq flags payload] ∨ (s.cl.closed = false ∧
      ∃ b, s'.log = s.log ++ [.fenceReq flags payload, .send s.cl.chan .fence b])) := by
  by_cases hp : 0 < s.cl.nPending
  · rw [noteFence_off hp] at e
    unfold onFenceRequest at e
    rw [if_pos hp] at e
    cases e
    exact ⟨rfl, rfl, ⟨_, _, _, _, _, rfl⟩, .inl (by simp)⟩
  rw [noteFence_on (by omega)] at e
  obtain ⟨h1, h2, h3, h4⟩ := fenceReq_frame e
  refine ⟨h1, h2, h3, .inr ?_⟩
  rcases h4 with h4 | ⟨h4, b, h5⟩
  · exact .inl h4
  · exact .inr ⟨h4, b, by rw [h5]; simp⟩

theorem ensureEncoder_frame (env fb s) : ∃ n e i k m, (ensureEncoder env fb s).1 =
    { s with
      srv := { s.srv with nDamageClients := n }
      cl := { s.cl with encoder := e, encId := i, kept := k, nEncs := m } } := by
  unfold ensureEncoder
  dsimp only
  split
  · exact ⟨s.srv.nDamageClients, s.cl.encoder, _, _, _, rfl⟩
  · split
    · exact ⟨_, _, _, _, _, rfl⟩
    · split
      · exact ⟨_, _, _, _, _, rfl⟩
      · exact ⟨_, _, _, _, _, rfl⟩

theorem stageFrame_frame {env fb s s'} (e : stageFrame env fb s = .ok s') :
    (∃ n, s'.srv = { s.srv with nDamageClients := n }) ∧ s'.net = s.net ∧
    (∃ enc ei ek ne dm up fc en np, s'.cl = { s.cl with
      encoder := enc, encId := ei, kept := ek, nEncs := ne, damage := dm, isUpdating := up, formatsChanged := fc, encoding := en,
      nPending := np }) ∧
    (s'.log = s.log ∨ (∃ en dm f q, s'.log = s.log ++ [.encode en dm f q]) ∨
      s'.log = s.log ++ [.encodeFail]) := by
  unfold stageFrame at e
  rcases ite_cases e with ⟨-, e⟩ | ⟨-, e⟩
  · cases e; exact ⟨⟨_, rfl⟩, rfl, ⟨_, _, _, _, _, _, _, _, _, rfl⟩, .inl rfl⟩
  rcases ite_cases e with ⟨-, e⟩ | ⟨-, e⟩
  · cases e; exact ⟨⟨_, rfl⟩, rfl, ⟨_, _, _, _, _, _, _, _, _, rfl⟩, .inl rfl⟩
  obtain ⟨n, en, i, k, m, hf⟩ := ensureEncoder_frame env fb s
  generalize ensureEncoder env fb s = res at e hf
  obtain ⟨t, b⟩ := res
  dsimp only at hf
  subst hf
  cases b
  · dsimp only at e
    rcases ite_cases e with ⟨-, e⟩ | ⟨-, e⟩
    · cases e
    cases e; exact ⟨⟨_, rfl⟩, rfl, ⟨_, _, _, _, _, _, _, _, _, rfl⟩, .inl rfl⟩
  · dsimp only at e
    rcases ite_cases e with ⟨-, e⟩ | ⟨-, e⟩
    · cases e
    rcases ite_cases e with ⟨-, e⟩ | ⟨-, e⟩
    · cases e
      split
      · exact ⟨⟨_, rfl⟩, rfl, ⟨_, _, _, _, _, _, _, _, _, rfl⟩, .inr (.inl ⟨_, _, _, _, rfl⟩)⟩
      · exact ⟨⟨_, rfl⟩, rfl, ⟨_, _, _, _, _, _, _, _, _, rfl⟩, .inr (.inl ⟨_, _, _, _, rfl⟩)⟩
    · cases e; exact ⟨⟨_, rfl⟩, rfl, ⟨_, _, _, _, _, _, _, _, _, rfl⟩, .inr (.inr rfl)⟩

/-- writes in the session phase -/
def SendsOnly (s s' : St) : Prop :=
  ∃ es, s'.log = s.log ++ es ∧ ∀ e ∈ es, s.cl.closed = false ∧ ∃ k b,
    k.early = false ∧ e = .send s.cl.chan k b

theorem sendExtSupport_frame (s) : (sendExtSupport s).1.srv = s.srv ∧
    (sendExtSupport s).1.net = s.net ∧ (sendExtSupport s).1.cl = s.cl ∧
    ((sendExtSupport s).1.log = s.log ∨ (s.cl.closed = false ∧
      ∃ b, (sendExtSupport s).1.log = s.log ++ [.send s.cl.chan .extSupport b])) := by
  have h : (sendExtSupport s).1 = s ∨ ∃ b, (sendExtSupport s).1 = send .extSupport b s := by
    unfold sendExtSupport
    dsimp only
    by_cases hc : (if hasEnc s.cl encQemuKey = true then 1 else 0) +
      (if hasEnc s.cl encNtp = true then 1 else 0) = 0
    · rw [if_pos hc]; exact .inl rfl
    · rw [if_neg hc]; exact .inr ⟨_, rfl⟩
  rcases h with h | ⟨b, h⟩
  · rw [h]; exact ⟨rfl, rfl, rfl, .inl rfl⟩
  · rw [h]
    refine ⟨by simp, by simp, by simp, ?_⟩
    cases hc : s.cl.closed
    · exact .inr ⟨rfl, b, by simp [hc]⟩
    · exact .inl (by simp [hc])

theorem sendCursor_frame (env s) : (sendCursor env s).srv = s.srv ∧
    (sendCursor env s).net = s.net ∧ (∃ c, (sendCursor env s).cl = { s.cl with cursorSeq := c }) ∧
    ((sendCursor env s).log = s.log ∨ (s.cl.closed = false ∧
      ∃ b, (sendCursor env s).log = s.log ++ [.send s.cl.chan .cursor b])) := by
  unfold sendCursor
  split
  · exact ⟨rfl, rfl, ⟨s.cl.cursorSeq, rfl⟩, .inl rfl⟩
  · refine ⟨by simp, by simp, ⟨_, by rw [send_cl]; rfl⟩, ?_⟩
    cases hc : s.cl.closed
    · exact .inr ⟨rfl, _, by simp [hc]; rfl⟩
    · exact .inl (by simp [hc])

theorem sendLed_frame (s) : (sendLed s).1.srv = s.srv ∧
    (sendLed s).1.net = s.net ∧ (∃ c, (sendLed s).1.cl = { s.cl with led := c }) ∧
    ((sendLed s).1.log = s.log ∨ (s.cl.closed = false ∧
      ∃ b, (sendLed s).1.log = s.log ++ [.send s.cl.chan .led b])) := by
  unfold sendLed
  split
  · exact ⟨rfl, rfl, ⟨s.cl.led, rfl⟩, .inl rfl⟩
  · dsimp only
    split
    · exact ⟨rfl, rfl, ⟨s.cl.led, rfl⟩, .inl rfl⟩
    · refine ⟨by simp, by simp, ⟨_, by rw [St.upd_cl, send_cl]⟩, ?_⟩
      cases hc : s.cl.closed
      · exact .inr ⟨rfl, _, by simp [hc]; rfl⟩
      · exact .inl (by simp [hc])

theorem bigCutText_frame {env c d s s'} (e : bigCutText env c d s = .ok s') : SimpleFrame s s' := by
  unfold bigCutText at e
  rcases ite_cases e with ⟨-, e⟩ | ⟨-, e⟩
  · cases e
  dsimp only at e
  rcases ite_cases e with ⟨-, e⟩ | ⟨-, e⟩
  · cases e; exact .upd _ ⟨_, _, _, _, _, _, _, _, _, rfl⟩
  obtain ⟨t, ht, e⟩ := Outcome.bind_eq_ok.1 e
  cases e
  refine .trans ?_ (.upd _ ⟨_, _, _, _, _, _, _, _, _, rfl⟩)
  rcases ite_cases ht with ⟨-, ht⟩ | ⟨-, ht⟩
  · rcases ite_cases ht with ⟨-, ht⟩ | ⟨-, ht⟩
    · exact clipProvideText_frame ht
    · cases ht; exact .refl _
  · cases ht; exact .emit (.cutText _)

end Verif.Server
