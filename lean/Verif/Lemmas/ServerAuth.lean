import Verif.Lemmas.ServerStep

/-!
# The handshake as a transition system
-/

namespace Verif.Server

variable {table : List Nat}

/-- is a security type offered? (one byte on the wire) -/
def Offers (secs : List Nat) (t : Nat) : Prop := ∃ x ∈ secs, x % 256 = t

/-- the phases in which credentials are checked -/
def AuthSt (st : CState) : Prop := st = .vePlain ∨ st = .appleDh ∨ st = .rsaCreds

/-- possible successors of a handshake phase -/
inductive Next (secs : List Nat) : CState → CState → Prop
  | same (st) : Next secs st st
  | fail (st) : Next secs st .error
  | version : Next secs .version .security
  | none : Offers secs 1 → Next secs .security .init
  | ve : Offers secs 19 → Next secs .security .veVersion
  | apple : Offers secs 30 → Next secs .security .appleDh
  | rsa : Offers secs 5 ∨ Offers secs 129 → Next secs .security .rsaPubKey
  | veVersion : Next secs .veVersion .veSubtype
  | veSubtype : Next secs .veSubtype .vePlain
  | rsaPubKey : Next secs .rsaPubKey .rsaChallenge
  | rsaChallenge : Next secs .rsaChallenge .rsaHash
  | rsaHash : Next secs .rsaHash .rsaCreds
  | auth (st) : AuthSt st → Next secs st .init
  | init : Next secs .init .ready

/-- the verdicts in a log that were positive -/
def trueAuths : List Eff → List (Bytes × Bytes)
  | [] => []
  | .auth u p true :: es => (u, p) :: trueAuths es
  | _ :: es => trueAuths es

@[simp] theorem trueAuths_append (a b) : trueAuths (a ++ b) = trueAuths a ++ trueAuths b := by
  induction a with
  | nil => rfl
  | cons e a ih =>
    cases e with
    | auth u p ok => cases ok <;> simp [trueAuths, ih]
    | _ => simp [trueAuths, ih]

/-- the part of the client the handshake is about stays as it is -/
structure Q (s s' : St) : Prop where
  st : s'.cl.st = s.cl.st
  chan : s'.cl.chan = s.cl.chan
  username : s'.cl.username = s.cl.username
  rsa : s'.cl.rsa256 = s.cl.rsa256
  srv : s'.srv = s.srv
  log : ∃ es, s'.log = s.log ++ es ∧ trueAuths es = []

theorem Q.refl (s) : Q s s := ⟨rfl, rfl, rfl, rfl, rfl, ⟨[], by simp, rfl⟩⟩

theorem Q.trans {s t u} (a : Q s t) (b : Q t u) : Q s u := by
  obtain ⟨es, h1, h2⟩ := a.log
  obtain ⟨fs, h3, h4⟩ := b.log
  exact ⟨b.st.trans a.st, b.chan.trans a.chan, b.username.trans a.username, b.rsa.trans a.rsa,
    b.srv.trans a.srv, ⟨es ++ fs, by rw [h3, h1, List.append_assoc], by simp [h2, h4]⟩⟩

theorem Q.send (s k m) : Q s (send k m s) :=
  ⟨by simp, by simp, by simp, by simp, by simp, ⟨_, send_log k m s, by split <;> rfl⟩⟩

theorem Q.upd (s) {f : Client → Client} (h : (f s.cl).st = s.cl.st ∧ (f s.cl).chan = s.cl.chan ∧
    (f s.cl).username = s.cl.username ∧ (f s.cl).rsa256 = s.cl.rsa256) : Q s (s.upd f) :=
  ⟨h.1, h.2.1, h.2.2.1, h.2.2.2, rfl, ⟨[], by simp, rfl⟩⟩

theorem deferClose_Q (s) : Q s (deferClose s) :=
  ⟨rfl, rfl, rfl, rfl, rfl, ⟨[.deferClose], rfl, rfl⟩⟩

theorem streamClose_Q (s) : Q s (streamClose s) := by
  unfold streamClose
  split
  · exact .refl _
  · dsimp only
    refine .trans (.upd s (f := fun k => { k with closed := true }) ⟨rfl, rfl, rfl, rfl⟩) ?_
    split
    · exact .trans (.upd _ ⟨rfl, rfl, rfl, rfl⟩) (deferClose_Q _)
    · exact .refl _

theorem remoteClosed_Q (s) : Q s (remoteClosed s) := .trans (streamClose_Q s) (deferClose_Q _)

theorem sendAndClose_Q (env k m s) : Q s (sendAndClose env k m s) := by
  unfold sendAndClose
  split
  · exact .refl _
  · split
    · exact .trans (.send s k m) (.trans (.upd _ ⟨rfl, rfl, rfl, rfl⟩) (deferClose_Q _))
    · exact .trans (.send s k m) (.upd _ ⟨rfl, rfl, rfl, rfl⟩)
    · exact .trans (.upd _ ⟨rfl, rfl, rfl, rfl⟩) (remoteClosed_Q _)

/-- the channel after a move from one phase to another -/
def chanAfter : CState → CState → Chan → Chan
  | .veSubtype, .vePlain, _ => .tls
  | .rsaChallenge, .rsaHash, _ => .rsa
  | _, _, c => c

/-- what a handshake message does -/
structure HsT (s s' : St) : Prop where
  next : Next s'.srv.secTypes s.cl.st s'.cl.st
  chan : s'.cl.chan = chanAfter s.cl.st s'.cl.st s.cl.chan
  auth : ∃ es, s'.log = s.log ++ es ∧
    ((trueAuths es = [] ∧ s'.cl.username = s.cl.username ∧ ¬ (AuthSt s.cl.st ∧ s'.cl.st = .init)) ∨
     ∃ u p, trueAuths es = [(u, p)] ∧ s'.cl.username = u ∧ AuthSt s.cl.st ∧ s'.cl.st = .init)
  srv : s'.srv = s.srv ∨ (s.cl.st = .version ∧ initSecTypes s.srv = .ok s'.srv)

/-- a message that was not complete -/
theorem HsT.stay {s} (h : s.cl.st ≠ .ready) : HsT s s :=
  ⟨.same _, by cases hs : s.cl.st <;> simp [chanAfter],
    ⟨[], by simp, .inl ⟨rfl, rfl, by
      rintro ⟨h1, h2⟩; rw [h2] at h1; simp [AuthSt] at h1⟩⟩, .inl rfl⟩

/-- a move without a verdict -/
theorem HsT.move {s s'} (st : CState) (hn : Next s.srv.secTypes s.cl.st st)
    (ha : ¬ (AuthSt s.cl.st ∧ st = .init)) (h1 : s'.cl.st = st)
    (h2 : s'.cl.chan = chanAfter s.cl.st st s.cl.chan) (h3 : s'.cl.username = s.cl.username)
    (h4 : s'.srv = s.srv) (h5 : ∃ es, s'.log = s.log ++ es ∧ trueAuths es = []) : HsT s s' := by
  obtain ⟨es, h5, h6⟩ := h5
  exact ⟨by rw [h4, h1]; exact hn, by rw [h1]; exact h2,
    ⟨es, h5, .inl ⟨h6, h3, by rw [h1]; exact ha⟩⟩, .inl h4⟩

/-- the usual shape: some writes, then the new phase -/
theorem HsT.moveQ {s t} (st : CState) (hq : Q s t) (hn : Next s.srv.secTypes s.cl.st st)
    (ha : ¬ (AuthSt s.cl.st ∧ st = .init)) (hc : chanAfter s.cl.st st s.cl.chan = s.cl.chan) :
    HsT s (t.upd fun k => { k with st := st }) :=
  .move st hn ha rfl (by rw [hc]; exact hq.chan) hq.username hq.srv hq.log

theorem handshakeFailed_T (env r s) : HsT s (handshakeFailed env r s) := by
  have hq := sendAndClose_Q env .secFail (be32 1 ++ be32 r.length ++ r)
    (s.upd fun k => { k with st := .error })
  refine .move .error (.fail _) (by simp) hq.st ?_ hq.username hq.srv hq.log
  rw [show chanAfter s.cl.st .error s.cl.chan = s.cl.chan by
    cases s.cl.st <;> rfl]
  exact hq.chan

theorem cstr_length (b : Bytes) : (cstr b).length ≤ b.length :=
  (List.takeWhile_sublist _).length_le

theorem cstr_cstr (b : Bytes) : cstr (cstr b) = cstr b := by
  unfold cstr
  induction b with
  | nil => rfl
  | cons x b ih =>
    by_cases h : x = 0
    · simp [h]
    · simp only [List.takeWhile_cons, bne_iff_ne, ne_eq, h, not_false_eq_true, if_true]
      rw [ih]

theorem authenticate_T {env u p s} (hs : AuthSt s.cl.st) (hu : u.length ≤ 255) :
    HsT s (authenticate env u p s) := by
  unfold authenticate
  dsimp only
  split
  · rename_i hok
    unfold handshakeOk
    dsimp only
    have hq := Q.send ((emit (.auth (cstr u) (cstr p) (env.authFn (cstr u) (cstr p))) s).upd
      fun k => { k with username := (cstr (cstr u)).take 255 }) .secOk (be32 0)
    obtain ⟨es, h5, h6⟩ := hq.log
    have hun : (cstr (cstr u)).take 255 = cstr u := by
      rw [cstr_cstr]; exact List.take_of_length_le (Nat.le_trans (cstr_length u) hu)
    refine ⟨?_, ?_, ?_, .inl hq.srv⟩
    · exact .auth _ hs
    · rcases hs with h | h | h <;> rw [h] <;> exact hq.chan
    · refine ⟨.auth (cstr u) (cstr p) true :: es, ?_, .inr ⟨cstr u, cstr p, ?_, ?_, hs, rfl⟩⟩
      · rw [St.upd_log, h5]; simp [hok]
      · simp [trueAuths, h6]
      · exact hq.username.trans hun
  · rename_i hok
    have hT := handshakeFailed_T env "Invalid username or password".toUTF8.toList
      (emit (.auth (cstr u) (cstr p) (env.authFn (cstr u) (cstr p))) s)
    obtain ⟨es, h1, h2⟩ := hT.auth
    have hst : (handshakeFailed env "Invalid username or password".toUTF8.toList
      (emit (.auth (cstr u) (cstr p) (env.authFn (cstr u) (cstr p))) s)).cl.st = .error := by
      unfold handshakeFailed; rw [(sendAndClose_Q _ _ _ _).st]; rfl
    refine ⟨hT.next, hT.chan, ?_, ?_⟩
    · refine ⟨.auth (cstr u) (cstr p) false :: es, ?_, ?_⟩
      · rw [h1]; simp at hok; simp [hok]
      · rcases h2 with h2 | ⟨u', p', h3, h4, h5, h6⟩
        · exact .inl h2
        · rw [hst] at h6; cases h6
    · rcases hT.srv with h | ⟨h, -⟩
      · exact .inl h
      · rcases hs with h' | h' | h' <;> simp [h'] at h

theorem offers_of_any {secs : List Nat} {t : UInt8}
    (h : ¬¬ (secs.any (fun x => UInt8.ofNat x == t) = true)) : Offers secs t.toNat := by
  have h := Classical.not_not.1 h
  rw [List.any_eq_true] at h
  obtain ⟨x, hx, he⟩ := h
  refine ⟨x, hx, ?_⟩
  have : UInt8.ofNat x = t := by simpa using he
  rw [← this]; simp

theorem offer {secs : List Nat} {t u : Nat} (h : t = u) (ho : Offers secs t) : Offers secs u := h ▸ ho

theorem onVersion_T {env s a s' n} (hs : s.cl.st = .version) (e : onVersion env s a = .ok (s', n)) :
    HsT s s' := by
  unfold onVersion at e
  split at e
  · cases e; exact .stay (by rw [hs]; decide)
  · rcases ite_cases e with ⟨-, e⟩ | ⟨-, e⟩
    · cases e
      unfold badVersion
      dsimp only
      have hq := sendAndClose_Q env .badVersion ([0] ++ be32 "Unsupported version\n".toUTF8.toList.length ++ "Unsupported version\n".toUTF8.toList)
        (s.upd fun k => { k with st := .error })
      refine .move .error (.fail _) (by simp) hq.st ?_ hq.username hq.srv hq.log
      rw [hs]; exact hq.chan
    · obtain ⟨srv, h1, e⟩ := Outcome.bind_eq_ok.1 e
      cases e
      have hq := Q.send { s with srv := srv } .secTypes
        ([UInt8.ofNat srv.secTypes.length] ++ srv.secTypes.map UInt8.ofNat)
      refine ⟨?_, ?_, ?_, .inr ⟨hs, ?_⟩⟩
      · rw [hs]; exact .version
      · rw [hs]; exact hq.chan
      · obtain ⟨es, h5, h6⟩ := hq.log
        refine ⟨es, h5, .inl ⟨h6, hq.username, ?_⟩⟩
        rintro ⟨h, -⟩; simp [AuthSt, hs] at h
      · rw [h1]; exact congrArg Outcome.ok hq.srv.symm

theorem onSecurity_T {env s a s' n} (hs : s.cl.st = .security)
    (e : onSecurity env s a = .ok (s', n)) : HsT s s' := by
  unfold onSecurity at e
  split at e
  · cases e; exact .stay (by rw [hs]; decide)
  · rename_i t _
    rcases ite_cases e with ⟨-, e⟩ | ⟨ho, e⟩
    · cases e; exact handshakeFailed_T _ _ _
    have ho := offers_of_any ho
    have hna : ∀ st : CState, ¬ (AuthSt s.cl.st ∧ st = .init) := by
      rintro st ⟨h, -⟩; simp [AuthSt, hs] at h
    rcases ite_cases e with ⟨ht, e⟩ | ⟨-, e⟩
    · cases e
      exact .moveQ _ (.send _ _ _) (by rw [hs]; exact .none (offer ht ho)) (hna _) (by rw [hs]; rfl)
    rcases ite_cases e with ⟨ht, e⟩ | ⟨-, e⟩
    · cases e
      exact .moveQ _ (.send _ _ _) (by rw [hs]; exact .ve (offer ht ho)) (hna _) (by rw [hs]; rfl)
    rcases ite_cases e with ⟨ht, e⟩ | ⟨-, e⟩
    · cases e
      exact .moveQ _ (.send _ _ _) (by rw [hs]; exact .apple (offer ht ho)) (hna _) (by rw [hs]; rfl)
    rcases ite_cases e with ⟨ht, e⟩ | ⟨-, e⟩
    · cases e
      have hq := Q.send (s.upd fun k => { k with rsa256 := false }) .rsaKey env.rsaKey
      refine .move .rsaPubKey (by rw [hs]; exact .rsa (.inl (offer ht ho))) (hna _) rfl ?_
        hq.username hq.srv hq.log
      rw [hs]; exact hq.chan
    rcases ite_cases e with ⟨ht, e⟩ | ⟨-, e⟩
    · cases e
      have hq := Q.send (s.upd fun k => { k with rsa256 := true }) .rsaKey env.rsaKey
      refine .move .rsaPubKey (by rw [hs]; exact .rsa (.inr (offer ht ho))) (hna _) rfl ?_
        hq.username hq.srv hq.log
      rw [hs]; exact hq.chan
    · cases e; exact handshakeFailed_T _ _ _

theorem onInit_T {s a s' n} (hs : s.cl.st = .init) (e : onInit s a = .ok (s', n)) : HsT s s' := by
  unfold onInit at e
  split at e
  · cases e; exact .stay (by rw [hs]; decide)
  · rename_i shared _
    dsimp only at e
    have h0 : Q s (if shared = 0 then emit .disconnectOthers s else s) := by
      split
      · exact ⟨rfl, rfl, rfl, rfl, rfl, ⟨[.disconnectOthers], rfl, rfl⟩⟩
      · exact .refl _
    generalize (if shared = 0 then emit .disconnectOthers s else s) = t at e h0
    split at e
    · cases e
    · rename_i u heq
      have h1 : Q t u := by
        unfold sendServerInit at heq
        split at heq
        · cases heq
        · split at heq
          · cases heq
          · cases heq
            exact .trans (.upd _ ⟨rfl, rfl, rfl, rfl⟩) (.trans (.send _ _ _)
              (.upd _ ⟨rfl, rfl, rfl, rfl⟩))
      cases e
      have h2 : Q u (emit .newClient u) := ⟨rfl, rfl, rfl, rfl, rfl, ⟨[.newClient], rfl, rfl⟩⟩
      exact .moveQ _ ((h0.trans h1).trans h2) (by rw [hs]; exact .init) (by simp)
        (by rw [hs]; rfl)

theorem onVeVersion_T {env s a s' n} (hs : s.cl.st = .veVersion)
    (e : onVeVersion env s a = .ok (s', n)) : HsT s s' := by
  unfold onVeVersion at e
  split at e
  · rcases ite_cases e with ⟨-, e⟩ | ⟨-, e⟩ <;> cases e
    · exact handshakeFailed_T _ _ _
    · exact .moveQ _ (.trans (.send _ _ _) (.send _ _ _)) (by rw [hs]; exact .veVersion) (by simp)
        (by rw [hs]; rfl)
  · cases e; exact .stay (by rw [hs]; decide)

theorem onVeSubtype_T {env s a s' n} (hs : s.cl.st = .veSubtype)
    (e : onVeSubtype env s a = .ok (s', n)) : HsT s s' := by
  unfold onVeSubtype at e
  split at e
  · rcases ite_cases e with ⟨-, e⟩ | ⟨-, e⟩
    · cases e
      have hq := sendAndClose_Q env .veAck [0] (s.upd fun k => { k with st := .error })
      refine .move .error (.fail _) (by simp) hq.st ?_ hq.username hq.srv hq.log
      rw [hs]; exact hq.chan
    · dsimp only at e
      rcases ite_cases e with ⟨-, e⟩ | ⟨-, e⟩ <;> cases e
      have hq := Q.send s .veAck [1]
      obtain ⟨es, h5, h6⟩ := hq.log
      refine .move .vePlain (by rw [hs]; exact .veSubtype) (by simp) rfl (by rw [hs]; rfl)
        hq.username hq.srv ⟨es ++ [.upgrade .tls], ?_, by simp [h6, trueAuths]⟩
      show (send .veAck [1] s).log ++ [.upgrade .tls] = _
      rw [h5, List.append_assoc]
  · cases e; exact .stay (by rw [hs]; decide)

theorem vePlainBody_T {env s a ul pl s' n} (hs : s.cl.st = .vePlain)
    (e : vePlainBody env a ul pl s = .ok (s', n)) : HsT s s' := by
  unfold vePlainBody at e
  split at e <;> cases e
  · exact authenticate_T (.inl hs) (List.length_take_le _ _)
  · exact .stay (by rw [hs]; decide)

theorem onVePlain_T {env s a s' n} (hs : s.cl.st = .vePlain)
    (e : onVePlain env s a = .ok (s', n)) : HsT s s' := by
  unfold onVePlain at e
  split at e
  · exact vePlainBody_T hs e
  · cases e; exact .stay (by rw [hs]; decide)

theorem onAppleDh_T {env s a s' n} (hs : s.cl.st = .appleDh)
    (e : onAppleDh env s a = .ok (s', n)) : HsT s s' := by
  unfold onAppleDh at e
  split at e <;> cases e
  · exact authenticate_T (.inr (.inl hs)) (Nat.le_trans (List.length_take_le _ _) (by decide))
  · exact .stay (by rw [hs]; decide)

theorem rsaPubKeyBody_T {env s a l s' n} (hs : s.cl.st = .rsaPubKey)
    (e : rsaPubKeyBody env a l s = .ok (s', n)) : HsT s s' := by
  unfold rsaPubKeyBody at e
  split at e
  · dsimp only at e
    rcases ite_cases e with ⟨-, e⟩ | ⟨-, e⟩
    · cases e
    · have key : ∀ m x t, t = send .rsaChallenge m (s.upd fun k =>
          { k with st := .rsaChallenge, rsaKeyLen := x }) → HsT s t := by
        rintro m x t rfl
        have hq := Q.send (s.upd fun k =>
          { k with st := .rsaChallenge, rsaKeyLen := x }) .rsaChallenge m
        refine .move .rsaChallenge (by rw [hs]; exact .rsaPubKey) (by simp) hq.st ?_ hq.username
          hq.srv hq.log
        rw [hs]; exact hq.chan
      split at e <;> cases e
      · exact key _ _ _ rfl
      · exact key _ _ _ rfl
  · cases e; exact .stay (by rw [hs]; decide)

theorem onRsaPubKey_T {env s a s' n} (hs : s.cl.st = .rsaPubKey)
    (e : onRsaPubKey env s a = .ok (s', n)) : HsT s s' := by
  unfold onRsaPubKey at e
  split at e
  · exact rsaPubKeyBody_T hs e
  · cases e; exact .stay (by rw [hs]; decide)

theorem onRsaChallenge_T {env s a s' n} (hs : s.cl.st = .rsaChallenge)
    (e : onRsaChallenge env s a = .ok (s', n)) : HsT s s' := by
  unfold onRsaChallenge at e
  split at e
  · dsimp only at e
    split at e
    · split at e <;> cases e
      rename_i r _
      have hq := Q.send (emit (.upgrade .rsa) (s.upd fun k => { k with chan := .rsa })) .rsaHash
        ((hashBuf (env.serverHash r)).take (rsaHashLen s.cl))
      obtain ⟨es, h5, h6⟩ := hq.log
      refine .move .rsaHash (by rw [hs]; exact .rsaChallenge) (by simp) rfl ?_ hq.username hq.srv
        ⟨.upgrade .rsa :: es, ?_, by simp [h6, trueAuths]⟩
      · rw [hs]; exact hq.chan
      · refine Eq.trans h5 ?_
        simp
    · cases e; exact .stay (by rw [hs]; decide)
  · cases e; exact .stay (by rw [hs]; decide)

theorem onRsaHash_T {env s a s' n} (hs : s.cl.st = .rsaHash)
    (e : onRsaHash env s a = .ok (s', n)) : HsT s s' := by
  unfold onRsaHash at e
  split at e
  · rcases ite_cases e with ⟨-, e⟩ | ⟨-, e⟩ <;> cases e
    exact .moveQ _ (.send _ _ _) (by rw [hs]; exact .rsaHash) (by simp) (by rw [hs]; rfl)
  · cases e; exact .stay (by rw [hs]; decide)

theorem slice_length {a : Bytes} {i n b} (h : slice a i n = some b) : b.length = n := by
  unfold slice at h
  split at h
  · cases h; simp; omega
  · cases h

theorem onRsaCreds_T {env s a s' n} (hs : s.cl.st = .rsaCreds)
    (e : onRsaCreds env s a = .ok (s', n)) : HsT s s' := by
  unfold onRsaCreds at e
  split at e
  · dsimp only at e
    split at e
    · rename_i h1 h2
      split at e <;> cases e
      · refine authenticate_T (.inr (.inr hs)) ?_
        rw [slice_length h1]
        exact Nat.le_of_lt_succ (UInt8.toNat_lt _)
      · exact .stay (by rw [hs]; decide)
    · cases e; exact .stay (by rw [hs]; decide)
  · cases e; exact .stay (by rw [hs]; decide)

theorem hs_T {env r s a s' n} (hst : s.cl.st ≠ .ready)
    (e : tryRead env table r s a = .ok (s', n)) : HsT s s' := by
  unfold tryRead at e
  split at e
  · cases e; exact .stay hst
  · exact onVersion_T ‹_› e
  · exact onSecurity_T ‹_› e
  · exact onInit_T ‹_› e
  · exact onVeVersion_T ‹_› e
  · exact onVeSubtype_T ‹_› e
  · exact onVePlain_T ‹_› e
  · exact onAppleDh_T ‹_› e
  · exact onRsaPubKey_T ‹_› e
  · exact onRsaChallenge_T ‹_› e
  · exact onRsaHash_T ‹_› e
  · exact onRsaCreds_T ‹_› e
  · exact absurd ‹_› hst

end Verif.Server

namespace Verif.Server

variable {table : List Nat}

/-- what a client in the session can cause -/
inductive ReadyEff (s : St) : Eff → Prop
  | send (k b) : s.cl.closed = false → k.early = false → ReadyEff s (.send s.cl.chan k b)
  | key (k d) : ReadyEff s (.key k d)
  | keyCode (k d) : ReadyEff s (.keyCode k d)
  | pointer (x y m) : ReadyEff s (.pointer x y m)
  | cutText (b) : ReadyEff s (.cutText b)
  | layout (l) : ReadyEff s (.layout l)
  | fbReq (i x y w h) : ReadyEff s (.fbReq i x y w h)
  | encode (e d f q) : ReadyEff s (.encode e d f q)
  | contOn : ReadyEff s .contOn
  | fenceReq (f p) : ReadyEff s (.fenceReq f p)
  | encodings (es) : ReadyEff s (.encodings es)
  | clipMsg (f d) : ReadyEff s (.clipMsg f d)
  | pixFmt (f) : ReadyEff s (.pixFmt f)

theorem SimpleEff.ready {s e} (h : SimpleEff s e) : ReadyEff s e := by
  cases h with
  | send k b h hk => exact .send k b h (Kind.reply_early hk)
  | key => exact .key _ _
  | keyCode => exact .keyCode _ _
  | pointer => exact .pointer _ _ _
  | cutText => exact .cutText _
  | layout => exact .layout _
  | encodings => exact .encodings _
  | clipMsg => exact .clipMsg _ _
  | pixFmt => exact .pixFmt _

/-- what may be logged for a client in any phase -/
inductive Aside : Eff → Prop
  | deferClose : Aside .deferClose
  | encodeDone (f) : Aside (.encodeDone f)
  | encodeFail : Aside .encodeFail
  | damaged (r) : Aside (.damaged r)
  | ledSet (v) : Aside (.ledSet v)

/-- the effects of a micro step that is not a handshake message -/
def KeepEff (lp : Bool) (s : St) (e : Eff) : Prop :=
  (s.cl.st = .ready ∧ ReadyEff s e) ∨ Aside e ∨
    ∃ st ch n, lp = true ∧
      e = .msg st ch ((s.cl.buf.drop s.cl.idx).take n) (min n s.cl.plain)

/-- a step that leaves the result of the handshake alone -/
structure Keep (lp : Bool) (s s' : St) : Prop where
  st : s'.cl.st = s.cl.st
  chan : s'.cl.chan = s.cl.chan
  username : s'.cl.username = s.cl.username
  srv : ∃ fb cs nd, s'.srv = { s.srv with fb := fb, cursorSeq := cs, nDamageClients := nd }
  log : ∃ es, s'.log = s.log ++ es ∧ ∀ e ∈ es, KeepEff lp s e

variable {lp : Bool}

theorem Keep.upd (s : St) {f : Client → Client} (h1 : (f s.cl).st = s.cl.st)
    (h2 : (f s.cl).chan = s.cl.chan) (h3 : (f s.cl).username = s.cl.username) :
    Keep lp s (s.upd f) :=
  ⟨h1, h2, h3, ⟨_, _, _, rfl⟩, ⟨[], by simp, by simp⟩⟩

theorem Keep.ready {s s' : St} (hr : s.cl.st = .ready) (h1 : s'.cl.st = s.cl.st)
    (h2 : s'.cl.chan = s.cl.chan) (h3 : s'.cl.username = s.cl.username)
    (hs : s'.srv = s.srv) (hl : ∃ es, s'.log = s.log ++ es ∧ ∀ e ∈ es, ReadyEff s e) :
    Keep lp s s' := by
  obtain ⟨es, h4, h5⟩ := hl
  exact ⟨h1, h2, h3, ⟨_, _, _, hs⟩, ⟨es, h4, fun e he => .inl ⟨hr, h5 e he⟩⟩⟩

theorem SendsOnly.ready {s s'} (h : SendsOnly s s') :
    ∃ es, s'.log = s.log ++ es ∧ ∀ e ∈ es, ReadyEff s e := by
  obtain ⟨es, h1, h2⟩ := h
  refine ⟨es, h1, fun e he => ?_⟩
  obtain ⟨h3, k, b, hk, rfl⟩ := h2 e he
  exact .send k b h3 hk

theorem log_one {s s' : St} {k : Kind} (hk : k.early = false := by rfl)
    (h : s'.log = s.log ∨ (s.cl.closed = false ∧ ∃ b, s'.log = s.log ++ [.send s.cl.chan k b])) :
    ∃ es, s'.log = s.log ++ es ∧ ∀ e ∈ es, ReadyEff s e := by
  rcases h with h | ⟨hc, b, h⟩
  · exact ⟨[], by simp [h], by simp⟩
  · exact ⟨_, h, by simpa using .send k b hc hk⟩

theorem Keep.closing {s s' : St} (h1 : s'.cl.st = s.cl.st)
    (h2 : s'.cl.chan = s.cl.chan) (h3 : s'.cl.username = s.cl.username)
    (h4 : ∃ nd, s'.srv = { s.srv with nDamageClients := nd })
    (h5 : ∃ es, s'.log = s.log ++ es ∧ ∀ e ∈ es, e = .deferClose) : Keep lp s s' := by
  obtain ⟨es, h5, h6⟩ := h5
  obtain ⟨nd, h4⟩ := h4
  exact ⟨h1, h2, h3, ⟨_, _, nd, h4⟩, ⟨es, h5, fun e he => .inr (.inl (h6 e he ▸ .deferClose))⟩⟩

theorem streamClose_log (s) : ∃ es, (streamClose s).log = s.log ++ es ∧ ∀ e ∈ es, e = .deferClose := by
  unfold streamClose deferClose
  split
  · exact ⟨[], by simp, by simp⟩
  · dsimp only
    split
    · exact ⟨[.deferClose], rfl, by simp⟩
    · exact ⟨[], by simp, by simp⟩

theorem remoteClosed_log (s) :
    ∃ es, (remoteClosed s).log = s.log ++ es ∧ ∀ e ∈ es, e = .deferClose := by
  obtain ⟨es, h1, h2⟩ := streamClose_log s
  refine ⟨es ++ [.deferClose], ?_, ?_⟩
  · unfold remoteClosed deferClose; rw [emit_log, St.upd_log, h1, List.append_assoc]
  · intro e he
    rcases List.mem_append.1 he with he | he
    · exact h2 e he
    · simpa using he

theorem freeClient_keep (s) : Keep lp s (freeClient s) := by
  have hq := streamClose_Q s
  obtain ⟨g1, g2, g3, nd, g4⟩ := freeClient_frame s
  refine .closing ?_ ?_ ?_ ⟨nd, ?_⟩ ?_
  · rw [g1]; exact hq.st
  · rw [g1]; exact hq.chan
  · rw [g1]; exact hq.username
  · rw [g4, hq.srv]
  · rw [g2]; exact streamClose_log s

/-- ClientInit is the only way into the session and announces the client -/
theorem hs_new {env r s a s' n} (hst : s.cl.st ≠ .ready)
    (e : tryRead env table r s a = .ok (s', n)) (hr : s'.cl.st = .ready) :
    s.cl.st = .init ∧ .newClient ∈ s'.log := by
  have hT := (hs_T hst e).next
  rw [hr] at hT
  have hi : s.cl.st = .init := by
    generalize s.cl.st = st at hT hst
    cases hT with
    | same => exact absurd rfl hst
    | init => rfl
  refine ⟨hi, ?_⟩
  unfold tryRead at e
  rw [hi] at e
  dsimp only at e
  unfold onInit at e
  split at e
  · cases e; exact absurd hr hst
  · dsimp only at e
    split at e
    · cases e
    · cases e; simp

theorem sendAndClose_mem {env k m s e} (h : e ∈ (sendAndClose env k m s).log) :
    e ∈ s.log ∨ e = .deferClose ∨ e = .send s.cl.chan k m := by
  unfold sendAndClose at h
  split at h
  · exact .inl h
  · split at h
    · unfold deferClose at h
      simp only [emit_log, St.upd_log, send_log, List.mem_append, List.mem_singleton] at h
      rcases h with (h | h) | h
      · exact .inl h
      · split at h <;> simp at h
        exact .inr (.inr h)
      · exact .inr (.inl h)
    · simp only [St.upd_log, send_log, List.mem_append] at h
      rcases h with h | h
      · exact .inl h
      · split at h <;> simp at h
        exact .inr (.inr h)
    · obtain ⟨es, h1, h2⟩ := remoteClosed_log (s.upd fun k => { k with closePending := true })
      rw [h1] at h
      rcases List.mem_append.1 h with h | h
      · exact .inl h
      · exact .inr (.inl (h2 _ h))

/-- the list of security types that is sent is the server's list -/
theorem hs_secTypes {env r s a s' n} (hst : s.cl.st ≠ .ready)
    (e : tryRead env table r s a = .ok (s', n)) {ch b} (h : .send ch .secTypes b ∈ s'.log) :
    .send ch .secTypes b ∈ s.log ∨
      (b = UInt8.ofNat s'.srv.secTypes.length :: s'.srv.secTypes.map UInt8.ofNat ∧
        initSecTypes s.srv = .ok s'.srv) := by
  by_cases hv : s.cl.st = .version
  · unfold tryRead at e
    rw [hv] at e
    dsimp only at e
    unfold onVersion at e
    split at e
    · cases e; exact .inl h
    · rcases ite_cases e with ⟨-, e⟩ | ⟨-, e⟩
      · cases e
        unfold badVersion at h
        dsimp only at h
        rcases sendAndClose_mem h with h | h | h
        · exact .inl h
        · cases h
        · cases h
      · obtain ⟨srv, h1, e⟩ := Outcome.bind_eq_ok.1 e
        cases e
        simp only [St.upd_log, send_log, List.mem_append] at h
        rcases h with h | h
        · exact .inl h
        · split at h <;> simp at h
          refine .inr ⟨by rw [h.2]; simp, by simpa using h1⟩
  · obtain ⟨es, h1, h2⟩ := (hs_frame hst e).log
    rw [h1] at h
    rcases List.mem_append.1 h with h | h
    · exact .inl h
    · cases h2 _ h with
      | send _ _ _ hk =>
        exfalso
        generalize s.cl.st = st at hk hv
        cases st <;> first | exact hv rfl | cases hk

/-- what a handshake message does, in one place -/
structure Hs (s s' : St) : Prop where
  ne : s.cl.st ≠ .ready
  frame : HsFrame s.cl.st s s'
  move : HsT s s'
  new : s'.cl.st = .ready → s.cl.st = .init ∧ .newClient ∈ s'.log
  secTypes : ∀ ch b, .send ch .secTypes b ∈ s'.log → .send ch .secTypes b ∈ s.log ∨
    (b = UInt8.ofNat s'.srv.secTypes.length :: s'.srv.secTypes.map UInt8.ofNat ∧
      initSecTypes s.srv = .ok s'.srv)
  read : ∃ env table r a n, tryRead env table r s a = .ok (s', n)

/-- every micro step is either a handshake message or keeps its outcome -/
theorem micro_keep {s s'} (h : Micro lp table s s') :
    Hs s s' ∨ Keep lp s s' := by
  cases h with
  | hs env r a h h2 => exact .inl ⟨h, hs_frame h h2, hs_T h h2, hs_new h h2, fun _ _ => hs_secTypes h h2,
      env, table, r, a, _, h2⟩
  | fenceOut _ _ hr =>
    exact .inr (.ready hr (by simp) (by simp) (by simp) (by simp) (SendsOnly.send _ _ _).ready)
  | pfFire hr =>
    exact .inr (.ready hr (by simp) (by simp) (by simp) (by simp)
      (SendsOnly.trans (s := s) (t := s.upd _) rfl rfl (.upd _ _) (.send _ _ _)).ready)
  | ext hr =>
    obtain ⟨a1, a2, a3, a4⟩ := sendExtSupport_frame (s.upd fun k => { k with extNotified := true })
    exact .inr (.ready hr (by rw [a3]; rfl) (by rw [a3]; rfl) (by rw [a3]; rfl) a1 (log_one rfl a4))
  | cursor env hr =>
    obtain ⟨a1, a2, ⟨_, a3⟩, a4⟩ := sendCursor_frame env s
    exact .inr (.ready hr (by rw [a3]) (by rw [a3]) (by rw [a3]) a1 (log_one rfl a4))
  | led hr =>
    obtain ⟨a1, a2, ⟨_, a3⟩, a4⟩ := sendLed_frame s
    exact .inr (.ready hr (by rw [a3]) (by rw [a3]) (by rw [a3]) a1 (log_one rfl a4))
  | frame env fb hr h =>
    obtain ⟨⟨n, a1⟩, a2, ⟨_, _, _, _, _, _, _, _, _, a3⟩, a4⟩ := stageFrame_frame h
    refine .inr ⟨by rw [a3], by rw [a3], by rw [a3], ⟨_, _, n, a1⟩, ?_⟩
    rcases a4 with a4 | ⟨en, dm, f, q, a4⟩ | a4
    · exact ⟨[], by simp [a4], by simp⟩
    · exact ⟨_, a4, by simpa using .inl ⟨hr, .encode _ _ _ _⟩⟩
    · exact ⟨_, a4, by simpa using .inr (.inl .encodeFail)⟩
  | sendFrame f hr =>
    obtain ⟨a1, a2, ⟨_, _, _, a3, -⟩, a4⟩ := sendFrame_frame f s
    exact .inr (.ready hr (by rw [a3]) (by rw [a3]) (by rw [a3]) a1 a4.ready)
  | simple env a hr h2 =>
    obtain ⟨a1, a2, ⟨_, _, _, _, _, _, _, _, _, a3⟩, ⟨es, a4, a5⟩⟩ := h2.frame
    exact .inr (.ready hr (by rw [a3]) (by rw [a3]) (by rw [a3]) a1
      ⟨es, a4, fun e he => (a5 e he).ready⟩)
  | fbReq inc r hr =>
    obtain ⟨a1, a2, ⟨_, _, a3⟩, a4⟩ := fbReqPre_frame inc r s
    exact .inr (.ready hr (by rw [a3]) (by rw [a3]) (by rw [a3]) a1
      ⟨_, a4, by simpa using .fbReq _ _ _ _ _⟩)
  | contOff hr =>
    exact .inr (.ready hr (by simp) (by simp) (by simp) (by simp)
      (SendsOnly.trans (s := s) (t := s.upd _) rfl rfl (.upd _ _) (.send _ _ _)).ready)
  | fenceReq flags payload hr hp h2 =>
    obtain ⟨a1, a2, ⟨_, _, _, _, _, a3⟩, a4⟩ := fenceSeen_frame h2
    exact .inr (.ready hr (by rw [a3]) (by rw [a3]) (by rw [a3]) a1 (by
      rcases a4 with a4 | a4 | ⟨hc, b, a4⟩
      · exact ⟨_, a4, by simp⟩
      · exact ⟨_, a4, by simpa using .fenceReq _ _⟩
      · exact ⟨_, a4, by simpa using ⟨.fenceReq _ _, .send _ _ hc rfl⟩⟩))
  | contOn r hr =>
    exact .inr (.ready hr rfl rfl rfl rfl ⟨_, rfl, by simpa using .contOn⟩)
  | bigCut env c d hr hc h h2 =>
    obtain ⟨a1, a2, ⟨_, _, _, _, _, _, _, _, _, a3⟩, ⟨es, a4, a5⟩⟩ := bigCutText_frame h2
    exact .inr (.ready hr (by rw [a3]) (by rw [a3]) (by rw [a3]) a1
      ⟨es, a4, fun e he => (a5 e he).ready⟩)
  | consume st ch n hl h =>
    exact .inr ⟨rfl, rfl, rfl, ⟨_, _, _, rfl⟩,
      ⟨_, rfl, by simpa using .inr (.inr ⟨_, _, _, hl, rfl⟩)⟩⟩
  | remoteClosed =>
    have hq := remoteClosed_Q s
    exact .inr (.closing hq.st hq.chan hq.username ⟨_, hq.srv⟩ (remoteClosed_log s))
  | flushed =>
    have hq := streamClose_Q s
    exact .inr (.closing hq.st hq.chan hq.username ⟨_, hq.srv⟩ (streamClose_log s))
  | free => exact .inr (freeClient_keep s)
  | idle =>
    have h := freeClient_keep (lp := lp) (s.upd fun k => { k with nDefer := k.nDefer - 1 })
    obtain ⟨es, h1, h2⟩ := h.log
    refine .inr ⟨h.st, h.chan, h.username, h.srv, ⟨es, h1, fun e he => ?_⟩⟩
    rcases h2 e he with ⟨h3, h4⟩ | h3
    · refine .inl ⟨h3, ?_⟩
      cases h4 with
      | send k b h hk => exact .send k b h hk
      | key => exact .key _ _
      | keyCode => exact .keyCode _ _
      | pointer => exact .pointer _ _ _
      | cutText => exact .cutText _
      | layout => exact .layout _
      | fbReq => exact .fbReq _ _ _ _ _
      | contOn => exact .contOn
      | fenceReq => exact .fenceReq _ _
      | encodings => exact .encodings _
      | clipMsg => exact .clipMsg _ _
      | pixFmt => exact .pixFmt _
      | encode => exact .encode _ _ _ _
    · exact .inr h3
  | net n => exact .inr ⟨rfl, rfl, rfl, ⟨_, _, _, rfl⟩, ⟨[], by simp, by simp⟩⟩
  | encoded => exact .inr ⟨rfl, rfl, rfl, ⟨_, _, _, rfl⟩, ⟨_, rfl, by simpa using .inr (.inl (.encodeDone _))⟩⟩
  | damage => exact .inr ⟨rfl, rfl, rfl, ⟨_, _, _, rfl⟩, ⟨_, rfl, by simpa using .inr (.inl (.damaged _))⟩⟩
  | setLed => exact .inr ⟨rfl, rfl, rfl, ⟨_, _, _, rfl⟩, ⟨_, rfl, by simpa using .inr (.inl (.ledSet _))⟩⟩
  | display => exact .inr ⟨rfl, rfl, rfl, ⟨_, _, _, rfl⟩, ⟨[], by simp, by simp⟩⟩
  | setCursor => exact .inr ⟨rfl, rfl, rfl, ⟨_, _, _, rfl⟩, ⟨[], by simp, by simp⟩⟩
  | _ => exact .inr (.upd s rfl rfl rfl)

end Verif.Server
