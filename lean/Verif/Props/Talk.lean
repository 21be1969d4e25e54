import Verif.Spec.Talk
import Verif.Props.Wire
import Verif.Props.Access
import Verif.Props.Tcp

/-! # A connection from its first byte on: C115 -/

namespace Verif.Wire

open Verif.Server Verif.System

variable {z : Sizes} {table : List Nat}

/-! ## What is sent before ServerInit -/

theorem pre_none {l m : List Eff} (h : session l = none) : pre (l ++ m) = pre l ++ pre m := by
  induction l with
  | nil => rfl
  | cons e l ih =>
    cases e with
    | send ch k b =>
      cases k <;> first | (exact congrArg (_ :: ·) (ih h)) | (cases h)
    | _ => exact ih h

theorem pre_some {l m : List Eff} {b : Bytes} (h : session l = some b) : pre (l ++ m) = pre l := by
  induction l with
  | nil => cases h
  | cons e l ih =>
    cases e with
    | send ch k b =>
      cases k <;> first | rfl | (exact congrArg (_ :: ·) (ih h))
    | _ => exact ih h

theorem pre_silent {l : List Eff} (h : ∀ e ∈ l, ∀ ch k b, e ≠ .send ch k b) : pre l = [] := by
  induction l with
  | nil => rfl
  | cons e l ih =>
    cases e with
    | send ch k b => exact absurd rfl (h _ (by simp) ch k b)
    | _ => exact ih fun e he => h e (by simp [he])

theorem sent_pre (l : List Eff) : sent l = (pre l).flatMap (·.2) ++ (session l).getD [] := by
  induction l with
  | nil => rfl
  | cons e l ih =>
    cases e with
    | send ch k b =>
      cases k <;> first | rfl | (show b ++ sent l = b ++ _ ++ _; rw [ih, List.append_assoc]; rfl)
    | _ => exact ih

/-- the messages of the handshake so far, for a client in this phase that chose this type -/
inductive Path (ts : Bytes) : Bool → CState → UInt8 → List (Kind × Bytes) → Prop
  | start : Path ts long .version 0 [(.version, versionMsg)]
  | types : Path ts long .version 0 l → Path ts long .security 0 (l ++ [(.secTypes, UInt8.ofNat ts.length :: ts)])
  | none : Path ts long .security 0 l → 1 ∈ ts → Path ts long .init 1 (l ++ [(.secOk, be32 0)])
  | ve : Path ts long .security 0 l → 19 ∈ ts → Path ts long .veVersion 19 (l ++ [(.veVersion, [0, 2])])
  | apple (b) : Path ts long .security 0 l → 30 ∈ ts → Path ts long .appleDh 30 (l ++ [(.appleKey, b)])
  | rsa (b) : Path ts was .security 0 l → (if long then 129 else 5) ∈ ts →
      Path ts long .rsaPubKey (if long then 129 else 5) (l ++ [(.rsaKey, b)])
  | veSub : Path ts long .veVersion t l →
      Path ts long .veSubtype t (l ++ [(.veAck, [0])] ++ [(.veSubtypes, [1] ++ be32 262)])
  | vePlain : Path ts long .veSubtype t l → Path ts long .vePlain t (l ++ [(.veAck, [1])])
  | challenge (b) : Path ts long .rsaPubKey t l → Path ts long .rsaChallenge t (l ++ [(.rsaChallenge, b)])
  | hash (b) : Path ts long .rsaChallenge t l → b.length = (if long then 32 else 20) → Path ts long .rsaHash t (l ++ [(.rsaHash, b)])
  | subtype : Path ts long .rsaHash t l → Path ts long .rsaCreds t (l ++ [(.rsaSubtype, [1])])
  | login : Path ts long st t l → st = .vePlain ∨ st = .appleDh ∨ st = .rsaCreds →
      Path ts long .init t (l ++ [(.secOk, be32 0)])

/-- what the phase, the security types and the messages have to do with each other -/
def OnPath (s : St) (l : List (Kind × Bytes)) : Prop :=
  ∃ ts t, 0 < ts.length ∧ ts.length < 256 ∧ Path ts s.cl.rsa256 s.cl.st t l ∧
    (s.cl.st ≠ .version → ts = s.srv.secTypes.map UInt8.ofNat)

/-- a message of the handshake goes on along the path, or the connection is over -/
def Onward (s s' : St) : Prop :=
  s.srv.secTypes.length < 256 → s'.cl.st ≠ .error → s'.cl.closed = false → s.cl.closed = false ∧
    ∃ es, s'.log = s.log ++ es ∧ ∀ l, OnPath s l → OnPath s' (l ++ pre es)

theorem Onward.stay (s : St) : Onward s s :=
  fun _ _ hc => ⟨hc, [], by simp, fun l h => by simpa [pre] using h⟩

theorem Onward.error {s s' : St} (h : s'.cl.st = .error) : Onward s s' := fun _ h1 => absurd h h1

theorem sendAndClose_st (env k b s) : (sendAndClose env k b s).cl.st = s.cl.st := by
  obtain ⟨es⟩ := sendAndClose_Q env k b s
  assumption

theorem handshakeFailed_st (env r s) : (handshakeFailed env r s).cl.st = .error := by
  unfold handshakeFailed
  dsimp only
  rw [sendAndClose_st]
  rfl

/-- messages are sent, then comes the next phase -/
theorem Onward.send {s s' : St} {es : List Eff} (hcl : s'.cl.closed = s.cl.closed)
    (hl : s.cl.closed = false → s'.log = s.log ++ es)
    (hp : ∀ l, s.srv.secTypes.length < 256 → OnPath s l → OnPath s' (l ++ pre es)) : Onward s s' :=
  fun ht _ hc => by
    have hc : s.cl.closed = false := by rw [← hcl]; exact hc
    exact ⟨hc, es, hl hc, fun l h => hp l ht h⟩

theorem onVersion_on {env s a s' n} (hs : s.cl.st = .version) (e : onVersion env s a = .ok (s', n)) : Onward s s' := by
  unfold onVersion at e
  split at e
  · cases e; exact .stay _
  · rcases ite_cases e with ⟨-, e⟩ | ⟨-, e⟩
    · cases e
      refine .error ?_
      unfold badVersion
      dsimp only
      rw [sendAndClose_st]
      rfl
    · obtain ⟨srv, h1, e⟩ := Outcome.bind_eq_ok.1 e
      cases e
      have hlen : s.srv.secTypes.length < 256 → 0 < srv.secTypes.length ∧ srv.secTypes.length < 256 := by
        intro h
        rcases initSecTypes_cases h1 with ⟨h2, rfl⟩ | ⟨-, -, rfl⟩ | ⟨-, -, -, rfl⟩
        · exact ⟨List.length_pos_iff.2 h2, h⟩
        · simp
        · cases s.srv.hasTls <;> cases s.srv.requireEnc <;> simp
      refine .send (by simp) (es := [.send s.cl.chan .secTypes ([UInt8.ofNat srv.secTypes.length] ++ srv.secTypes.map UInt8.ofNat)])
        (fun hc => by simp [hc]) ?_
      rintro l hl ⟨ts, t, -, -, h4, -⟩
      rw [hs] at h4
      cases h4
      refine ⟨srv.secTypes.map UInt8.ofNat, 0, by simpa using (hlen hl).1, by simpa using (hlen hl).2, ?_, fun _ => by simp⟩
      have := Path.types (ts := srv.secTypes.map UInt8.ofNat) (long := s.cl.rsa256) .start
      simpa [pre] using this

/-- one message is sent and the client's choice stays -/
theorem Onward.one {s s' : St} {es : List Eff} {t' : UInt8 → UInt8} (hcl : s'.cl.closed = s.cl.closed)
    (hsrv : s'.srv = s.srv) (hv : s.cl.st ≠ .version) (hl : s.cl.closed = false → s'.log = s.log ++ es)
    (hp : ∀ ts t l, ts = s.srv.secTypes.map UInt8.ofNat → Path ts s.cl.rsa256 s.cl.st t l →
      Path ts s'.cl.rsa256 s'.cl.st (t' t) (l ++ pre es)) : Onward s s' := by
  refine .send hcl hl ?_
  rintro l - ⟨ts, t, h1, h2, h3, h4⟩
  exact ⟨ts, t' t, h1, h2, hp ts t l (h4 hv) h3, fun _ => by rw [hsrv]; exact h4 hv⟩

theorem Path.secure {ts : Bytes} {long : Bool} {t l} (h : Path ts long .security t l) : t = 0 := by
  cases h; rfl

theorem onSecurity_on {env s a s' n} (hs : s.cl.st = .security) (e : onSecurity env s a = .ok (s', n)) :
    Onward s s' := by
  unfold onSecurity at e
  split at e
  · cases e; exact .stay _
  · rename_i x _
    rcases ite_cases e with ⟨-, e⟩ | ⟨hx, e⟩
    · cases e; exact .error (handshakeFailed_st ..)
    have hx : x ∈ s.srv.secTypes.map UInt8.ofNat := by
      have hx := Classical.not_not.1 hx
      simp only [List.any_eq_true, beq_iff_eq] at hx
      obtain ⟨y, h1, h2⟩ := hx
      exact List.mem_map.2 ⟨y, h1, h2⟩
    have hx' : ∀ v : Nat, x.toNat = v → UInt8.ofNat v ∈ s.srv.secTypes.map UInt8.ofNat := by
      rintro v rfl; simpa using hx
    have hv : s.cl.st ≠ .version := by rw [hs]; exact nofun
    rcases ite_cases e with ⟨h, e⟩ | ⟨-, e⟩
    · cases e
      refine .one (t' := fun _ => 1) (es := [.send s.cl.chan .secOk (be32 0)]) ?_ ?_ hv ?_ ?_
      · simp [handshakeOk]
      · simp [handshakeOk]
      · intro hc; simp [handshakeOk, hc]
      · intro ts t l ht hp
        rw [hs] at hp
        cases hp.secure
        simpa [handshakeOk, pre] using hp.none (ht ▸ hx' _ h)
    rcases ite_cases e with ⟨h, e⟩ | ⟨-, e⟩
    · cases e
      refine .one (t' := fun _ => 19) (es := [.send s.cl.chan .veVersion [0, 2]]) ?_ ?_ hv ?_ ?_
      · simp
      · simp
      · intro hc; simp [hc]
      · intro ts t l ht hp
        rw [hs] at hp
        cases hp.secure
        simpa [pre] using hp.ve (ht ▸ hx' _ h)
    rcases ite_cases e with ⟨h, e⟩ | ⟨-, e⟩
    · cases e
      refine .one (t' := fun _ => 30) (es := [.send s.cl.chan .appleKey env.appleKey]) ?_ ?_ hv ?_ ?_
      · simp
      · simp
      · intro hc; simp [hc]
      · intro ts t l ht hp
        rw [hs] at hp
        cases hp.secure
        simpa [pre] using hp.apple env.appleKey (ht ▸ hx' _ h)
    rcases ite_cases e with ⟨h, e⟩ | ⟨-, e⟩
    · cases e
      refine .one (t' := fun _ => 5) (es := [.send s.cl.chan .rsaKey env.rsaKey]) ?_ ?_ hv ?_ ?_
      · simp
      · simp
      · intro hc; simp [hc]
      · intro ts t l ht hp
        rw [hs] at hp
        cases hp.secure
        simpa [pre] using hp.rsa (long := false) env.rsaKey (ht ▸ hx' _ h)
    rcases ite_cases e with ⟨h, e⟩ | ⟨-, e⟩
    · cases e
      refine .one (t' := fun _ => 129) (es := [.send s.cl.chan .rsaKey env.rsaKey]) ?_ ?_ hv ?_ ?_
      · simp
      · simp
      · intro hc; simp [hc]
      · intro ts t l ht hp
        rw [hs] at hp
        cases hp.secure
        simpa [pre] using hp.rsa (long := true) env.rsaKey (ht ▸ hx' _ h)
    · cases e; exact .error (handshakeFailed_st ..)

theorem authenticate_on {env u p s} (hs : s.cl.st = .vePlain ∨ s.cl.st = .appleDh ∨ s.cl.st = .rsaCreds) :
    Onward s (authenticate env u p s) := by
  unfold authenticate
  dsimp only
  split
  · rename_i hok
    refine .one (t' := fun t => t) (es := [.auth (cstr u) (cstr p) true, .send s.cl.chan .secOk (be32 0)]) ?_ ?_ ?_ ?_ ?_
    · simp [handshakeOk]
    · simp [handshakeOk]
    · rcases hs with h | h | h <;> rw [h] <;> exact nofun
    · intro hc; simp [handshakeOk, hc, hok]
    · intro ts t l _ hp
      simpa [handshakeOk, pre] using hp.login hs
  · refine .error (handshakeFailed_st ..)

theorem onVeVersion_on {env s a s' n} (hs : s.cl.st = .veVersion) (e : onVeVersion env s a = .ok (s', n)) :
    Onward s s' := by
  unfold onVeVersion at e
  split at e
  · rcases ite_cases e with ⟨-, e⟩ | ⟨-, e⟩
    · cases e; exact .error (handshakeFailed_st ..)
    · cases e
      refine .one (t' := fun t => t)
        (es := [.send s.cl.chan .veAck [0], .send s.cl.chan .veSubtypes ([1] ++ be32 262)]) ?_ ?_ ?_ ?_ ?_
      · simp
      · simp
      · rw [hs]; exact nofun
      · intro hc; simp [hc]
      · intro ts t l _ hp
        rw [hs] at hp
        simpa [pre] using hp.veSub
  · cases e; exact .stay _

theorem onVeSubtype_on {env s a s' n} (hs : s.cl.st = .veSubtype) (e : onVeSubtype env s a = .ok (s', n)) :
    Onward s s' := by
  unfold onVeSubtype at e
  split at e
  · rcases ite_cases e with ⟨-, e⟩ | ⟨-, e⟩
    · cases e
      refine .error ?_
      rw [sendAndClose_st]; rfl
    · dsimp only at e
      rcases ite_cases e with ⟨-, e⟩ | ⟨-, e⟩
      · cases e
      · cases e
        refine .one (t' := fun t => t) (es := [.send s.cl.chan .veAck [1], .upgrade .tls]) ?_ ?_ ?_ ?_ ?_
        · simp
        · simp
        · rw [hs]; exact nofun
        · intro hc; simp [hc]
        · intro ts t l _ hp
          rw [hs] at hp
          simpa [pre] using hp.vePlain
  · cases e; exact .stay _

theorem vePlainBody_on {env s a u p s' n} (hs : s.cl.st = .vePlain) (e : vePlainBody env a u p s = .ok (s', n)) :
    Onward s s' := by
  unfold vePlainBody at e
  split at e <;> cases e
  · exact authenticate_on (.inl hs)
  · exact .stay _

theorem onVePlain_on {env s a s' n} (hs : s.cl.st = .vePlain) (e : onVePlain env s a = .ok (s', n)) :
    Onward s s' := by
  unfold onVePlain at e
  split at e
  · exact vePlainBody_on hs e
  · cases e; exact .stay _

theorem onAppleDh_on {env s a s' n} (hs : s.cl.st = .appleDh) (e : onAppleDh env s a = .ok (s', n)) :
    Onward s s' := by
  unfold onAppleDh at e
  split at e
  · cases e; exact authenticate_on (.inr (.inl hs))
  · cases e; exact .stay _

theorem rsaPubKeyBody_on {env s a k s' n} (hs : s.cl.st = .rsaPubKey) (e : rsaPubKeyBody env a k s = .ok (s', n)) :
    Onward s s' := by
  have key : ∀ (sz : Nat) (b : Bytes), Onward s
      (send .rsaChallenge b (s.upd fun k => { k with st := .rsaChallenge, rsaKeyLen := sz })) := by
    intro sz b
    refine .one (t' := fun t => t) (es := [.send s.cl.chan .rsaChallenge b]) ?_ ?_ ?_ ?_ ?_
    · simp
    · simp
    · rw [hs]; exact nofun
    · intro hc; simp [hc]
    · intro ts t l _ hp
      rw [hs] at hp
      simpa [pre] using hp.challenge b
  unfold rsaPubKeyBody at e
  split at e
  · dsimp only at e
    rcases ite_cases e with ⟨-, e⟩ | ⟨-, e⟩
    · cases e
    · split at e
      · cases e; exact key _ _
      · cases e; exact key _ _
  · cases e; exact .stay _

theorem onRsaPubKey_on {env s a s' n} (hs : s.cl.st = .rsaPubKey) (e : onRsaPubKey env s a = .ok (s', n)) :
    Onward s s' := by
  unfold onRsaPubKey at e
  split at e
  · exact rsaPubKeyBody_on hs e
  · cases e; exact .stay _

theorem onRsaChallenge_on {env s a s' n} (hs : s.cl.st = .rsaChallenge) (e : onRsaChallenge env s a = .ok (s', n)) :
    Onward s s' := by
  unfold onRsaChallenge at e
  split at e
  · dsimp only at e
    split at e
    · split at e
      · cases e
      · cases e
        rename_i r _
        refine .one (t' := fun t => t)
          (es := [.upgrade .rsa, .send .rsa .rsaHash ((hashBuf (env.serverHash r)).take (rsaHashLen s.cl))]) ?_ ?_ ?_ ?_ ?_
        · simp
        · simp
        · rw [hs]; exact nofun
        · intro hc; simp [hc, rsaHashLen]
        · intro ts t l _ hp
          rw [hs] at hp
          simpa [pre] using hp.hash ((hashBuf (env.serverHash r)).take (rsaHashLen s.cl))
            (by unfold hashBuf rsaHashLen; cases s.cl.rsa256 <;> simp)
    · cases e; exact .stay _
  · cases e; exact .stay _

theorem onRsaHash_on {env s a s' n} (hs : s.cl.st = .rsaHash) (e : onRsaHash env s a = .ok (s', n)) :
    Onward s s' := by
  unfold onRsaHash at e
  split at e
  · rcases ite_cases e with ⟨-, e⟩ | ⟨-, e⟩
    · cases e
    · cases e
      refine .one (t' := fun t => t) (es := [.send s.cl.chan .rsaSubtype [1]]) ?_ ?_ ?_ ?_ ?_
      · simp
      · simp
      · rw [hs]; exact nofun
      · intro hc; simp [hc]
      · intro ts t l _ hp
        rw [hs] at hp
        simpa [pre] using hp.subtype
  · cases e; exact .stay _

theorem onRsaCreds_on {env s a s' n} (hs : s.cl.st = .rsaCreds) (e : onRsaCreds env s a = .ok (s', n)) :
    Onward s s' := by
  unfold onRsaCreds at e
  split at e
  · dsimp only at e
    split at e
    · split at e
      · cases e; exact authenticate_on (.inr (.inr hs))
      · cases e; exact .stay _
    · cases e; exact .stay _
  · cases e; exact .stay _

theorem hs_on {env r s a s' n} (h1 : s.cl.st ≠ .ready) (h2 : s.cl.st ≠ .init)
    (e : tryRead env table r s a = .ok (s', n)) : Onward s s' := by
  unfold tryRead at e
  split at e <;> rename_i h
  · cases e; exact .stay _
  · exact onVersion_on h e
  · exact onSecurity_on h e
  · exact absurd h h2
  · exact onVeVersion_on h e
  · exact onVeSubtype_on h e
  · exact onVePlain_on h e
  · exact onAppleDh_on h e
  · exact onRsaPubKey_on h e
  · exact onRsaChallenge_on h e
  · exact onRsaHash_on h e
  · exact onRsaCreds_on h e
  · exact absurd h h1

/-- what a client has been sent before its session -/
def Hand (srv : Srv) (c : Client) (l : List Eff) : Prop :=
  (c.st ≠ .ready → session l = none) ∧ ((∀ x ∈ pre l, x.1.handshake = true) →
    (c.st ≠ .ready → c.st ≠ .error → c.closed = false → OnPath ⟨srv, c, [], l⟩ (pre l)) ∧
    ∀ b, session l = some b → ∃ ts t long, 0 < ts.length ∧ ts.length < 256 ∧ Path ts long .init t (pre l))

theorem Hand.srv {srv srv' : Srv} {c l} (h : Hand srv c l) (hs : srv.secTypes ≠ [] → srv'.secTypes = srv.secTypes) :
    Hand srv' c l := by
  refine ⟨h.1, fun hp => ⟨fun h1 h2 h3 => ?_, (h.2 hp).2⟩⟩
  obtain ⟨ts, t, a1, a2, a3, a4⟩ := (h.2 hp).1 h1 h2 h3
  refine ⟨ts, t, a1, a2, a3, fun hv => ?_⟩
  have := a4 hv
  dsimp only at this ⊢
  rw [hs (by rintro h; rw [h] at this; rw [this] at a1; simp at a1)]
  exact this

/-- nothing of the handshake is sent -/
theorem Hand.quiet {srv : Srv} {c c' : Client} {l es} (h : Hand srv c l) (hst : c'.st = c.st)
    (hr : c.st ≠ .ready → c'.rsa256 = c.rsa256) (hc : c.st ≠ .ready → c'.closed = false → c.closed = false)
    (h1 : session es = none) (h2 : c.st = .ready ∨ ∀ x ∈ pre es, x.1.handshake = false) : Hand srv c' (l ++ es) := by
  by_cases hse : session l = none
  · have hs : session (l ++ es) = none := by rw [session_none hse, h1]
    refine ⟨fun _ => hs, fun hp => ⟨fun a1 a2 a3 => ?_, fun b hb => by rw [hs] at hb; cases hb⟩⟩
    rw [pre_none hse] at hp ⊢
    rw [hst] at a1 a2
    have h2 := h2.resolve_left a1
    have h3 : pre es = [] := by
      refine List.eq_nil_iff_forall_not_mem.2 fun x hx => ?_
      have := hp x (by simp [hx])
      rw [h2 x hx] at this; cases this
    rw [h3, List.append_nil] at hp ⊢
    obtain ⟨ts, t, b1, b2, b3, b4⟩ := (h.2 hp).1 a1 a2 (hc a1 a3)
    refine ⟨ts, t, b1, b2, ?_, ?_⟩
    · dsimp only at b3 ⊢
      rw [hr a1, hst]; exact b3
    · dsimp only at b4 ⊢
      rw [hst]; exact b4
  · obtain ⟨b, hb⟩ := Option.ne_none_iff_exists'.1 hse
    refine ⟨fun a1 => absurd (h.1 (by rw [← hst]; exact a1)) hse, fun hp => ⟨fun a1 => ?_, fun b' hb' => ?_⟩⟩
    · exact absurd (h.1 (by rw [← hst]; exact a1)) hse
    · rw [pre_some hb] at hp ⊢
      exact (h.2 hp).2 b hb

/-- outside of the session only the handshake changes what was chosen, and a closed connection stays closed -/
theorem micro_rest {lp s s'} (hm : Micro lp table s s') (hr : s.cl.st ≠ .ready) :
    (∃ env r a n, tryRead env table r s a = .ok (s', n)) ∨
      (s'.cl.rsa256 = s.cl.rsa256 ∧ (s'.cl.closed = false → s.cl.closed = false)) := by
  have hsc : ∀ t : St, (streamClose t).cl.rsa256 = t.cl.rsa256 ∧ (streamClose t).cl.closed = true := by
    intro t
    unfold streamClose
    split
    · exact ⟨rfl, by assumption⟩
    · dsimp only
      split <;> exact ⟨rfl, rfl⟩
  cases hm
  case hs env r a _ _ h => exact .inl ⟨_, _, _, _, h⟩
  case remoteClosed h => exact .inr ⟨(hsc s).1, fun _ => h⟩
  case free => exact .inr ⟨(hsc s).1, fun h => by have := (hsc s).2; exact absurd (this.symm.trans h) (by simp)⟩
  case idle =>
    refine .inr ⟨(hsc _).1, fun h => ?_⟩
    have := (hsc (s.upd fun k => { k with nDefer := k.nDefer - 1 })).2
    exact absurd (this.symm.trans h) (by simp)
  case flushed => exact .inr ⟨(hsc s).1, fun h => by rw [(hsc s).2] at h; cases h⟩
  all_goals first
    | exact absurd (by assumption) hr
    | exact .inr ⟨rfl, fun h => h⟩

/-- the session begins -/
theorem init_hand {env r s a s' n} (hi : s.cl.st = .init) (e : tryRead env table r s a = .ok (s', n))
    (h : Hand s.srv s.cl s.log) : Hand s'.srv s'.cl s'.log := by
  unfold tryRead at e
  rw [hi] at e
  dsimp only at e
  unfold onInit at e
  split at e
  · cases e; exact h
  · rename_i shared _
    dsimp only at e
    have hn : session s.log = none := h.1 (by rw [hi]; exact nofun)
    obtain ⟨es, h0, h1, h2, h3⟩ : ∃ es, (if shared = 0 then emit .disconnectOthers s else s).log = s.log ++ es ∧
        session es = none ∧ pre es = [] ∧ (if shared = 0 then emit .disconnectOthers s else s).cl = s.cl := by
      split
      · exact ⟨[.disconnectOthers], rfl, rfl, rfl, rfl⟩
      · exact ⟨[], by simp, rfl, rfl, rfl⟩
    generalize (if shared = 0 then emit .disconnectOthers s else s) = t at e h0 h3
    split at e
    · cases e
    · rename_i u hu
      cases e
      unfold sendServerInit at hu
      split at hu
      · cases hu
      · rename_i fb _
        split at hu
        · cases hu
        · rename_i f0 _
          dsimp only at hu
          generalize (if f0.bpp = 24 then { f0 with bpp := 32 } else f0) = f1 at hu
          cases hu
          refine ⟨fun hr => absurd rfl hr, fun hp => ⟨fun hr => absurd rfl hr, fun b hb => ?_⟩⟩
          generalize be16 fb.w ++ be16 fb.h ++ pixfmtBytes f1 ++ be32 t.srv.name.length ++ t.srv.name = msg at *
          revert hb hp
          show (∀ x ∈ pre ((Server.send .serverInit _ (t.upd _)).log ++ [.newClient]), _) →
            session ((Server.send .serverInit _ (t.upd _)).log ++ [.newClient]) = _ →
            ∃ ts t' long, 0 < ts.length ∧ ts.length < 256 ∧
              Path ts long .init t' (pre ((Server.send .serverInit _ (t.upd _)).log ++ [.newClient]))
          rw [send_log, St.upd_log]
          have ht : session t.log = none := by rw [h0, session_none hn, h1]
          have hpt : pre t.log = pre s.log := by rw [h0, pre_none hn, h2, List.append_nil]
          split
          · intro _ hb
            rw [List.append_nil, session_none ht] at hb
            cases hb
          · rename_i hc
            intro hp _
            have hc : s.cl.closed = false := by
              rw [← h3]
              simpa using hc
            rw [List.append_assoc, pre_none ht, hpt] at hp ⊢
            have hq : ∀ ch m x, pre (.send ch .serverInit m :: x) = [] := fun _ _ _ => rfl
            have hp' : ∀ x ∈ pre s.log, x.1.handshake = true := fun x hx => hp x (by simp [hx])
            obtain ⟨ts, t', a1, a2, a3, -⟩ := (h.2 hp').1 (by rw [hi]; exact nofun) (by rw [hi]; exact nofun) hc
            refine ⟨ts, t', s.cl.rsa256, a1, a2, ?_⟩
            rw [List.singleton_append, hq, List.append_nil]
            have a3 : Path ts s.cl.rsa256 s.cl.st t' (pre s.log) := a3
            rw [hi] at a3
            exact a3

theorem session_kind {l : List Eff} (h : ∀ ch k b, .send ch k b ∈ l → k ≠ .serverInit) : session l = none := by
  induction l with
  | nil => rfl
  | cons e l ih =>
    have ih := ih fun ch k b hb => h ch k b (by simp [hb])
    cases e with
    | send ch k b =>
      have := h ch k b (by simp)
      cases k <;> first | (exact ih) | (exact absurd rfl this)
    | _ => exact ih

theorem mem_pre {l : List Eff} {x : Kind × Bytes} (h : x ∈ pre l) : ∃ ch, .send ch x.1 x.2 ∈ l := by
  induction l with
  | nil => cases h
  | cons e l ih =>
    have ih' : ∀ e' : Eff, x ∈ pre l → ∃ ch, .send ch x.1 x.2 ∈ e' :: l := fun e' h => by
      obtain ⟨ch, h⟩ := ih h
      exact ⟨ch, by simp [h]⟩
    cases e with
    | send ch k b =>
      cases k <;> first
        | (rcases List.mem_cons.1 h with rfl | h
           · exact ⟨ch, by simp⟩
           · exact ih' _ h)
        | (cases h)
    | _ => exact ih' _ h

theorem hand_lifts : Lifts table (fun _ => True) (fun srv => srv.secTypes.length < 256) Hand := by
  have init : ∀ {srv srv'}, initSecTypes srv = .ok srv' → (srv.secTypes.length < 256 → srv'.secTypes.length < 256) ∧
      (srv.secTypes ≠ [] → srv'.secTypes = srv.secTypes) := by
    intro srv srv' e
    rcases initSecTypes_cases e with ⟨h, rfl⟩ | ⟨h, -, rfl⟩ | ⟨h, -, -, rfl⟩
    · exact ⟨fun h => h, fun _ => rfl⟩
    · exact ⟨fun _ => by simp, fun h' => absurd h h'⟩
    · exact ⟨fun _ => by cases srv.hasTls <;> cases srv.requireEnc <;> simp, fun h' => absurd h h'⟩
  have srvStep : ∀ {s s' : St}, Micro true table s s' → (s.srv.secTypes.length < 256 → s'.srv.secTypes.length < 256) ∧
      (s.srv.secTypes ≠ [] → s'.srv.secTypes = s.srv.secTypes) := by
    intro s s' hm
    rcases micro_keep hm with hH | hK
    · rcases hH.move.srv with h | ⟨-, h⟩
      · rw [h]; exact ⟨fun h => h, fun _ => rfl⟩
      · exact init h
    · obtain ⟨fb, cs, nd, h⟩ := hK.srv
      rw [h]; exact ⟨fun h => h, fun _ => rfl⟩
  constructor
  · intro srv _
    refine ⟨fun _ => rfl, fun _ => ⟨fun _ _ _ => ⟨[1], 0, by simp, by simp, .start, fun h => absurd rfl h⟩, fun b hb => nomatch hb⟩⟩
  · intro s s' hm _ hS hI
    refine ⟨(srvStep hm).1 hS, ?_⟩
    have hs : ∀ {tb env r a n}, s.cl.st ≠ .ready → tryRead env tb r s a = .ok (s', n) → Hand s'.srv s'.cl s'.log := by
      intro tb env r a n hne e
      by_cases hi : s.cl.st = .init
      · exact init_hand hi e hI
      have hn : session s.log = none := hI.1 hne
      obtain ⟨es, hl, hes⟩ := (hs_frame hne e).log
      have he : session es = none := by
        refine session_kind fun ch k b hb => ?_
        cases hes _ hb with
        | send _ _ _ hk =>
          rintro rfl
          revert hk hi
          cases s.cl.st <;> simp [hsKind]
      have hn' : session s'.log = none := by rw [hl, session_none hn, he]
      refine ⟨fun _ => hn', fun hp => ⟨fun a1 a2 a3 => ?_, fun b hb => by rw [hn'] at hb; cases hb⟩⟩
      obtain ⟨b1, es', b2, b3⟩ := hs_on hne hi e hS a2 a3
      rw [b2, pre_none hn] at hp ⊢
      by_cases her : s.cl.st = .error
      · unfold tryRead at e
        rw [her] at e
        cases e
        exact absurd her a2
      exact b3 _ ((hI.2 fun x hx => hp x (by simp [hx])).1 hne her b1)
    have keep : Keep true s s' → (s.cl.st ≠ .ready → s'.cl.rsa256 = s.cl.rsa256 ∧
        (s'.cl.closed = false → s.cl.closed = false)) → Hand s'.srv s'.cl s'.log := by
      intro hK hr
      obtain ⟨fb, cs, nd, hsrv⟩ := hK.srv
      obtain ⟨es, hl, hes⟩ := hK.log
      rw [hl]
      have hI' : Hand s'.srv s.cl s.log := hI.srv fun _ => by rw [hsrv]
      refine hI'.quiet hK.st (fun h => (hr h).1) (fun h => (hr h).2) ?_ ?_
      · refine session_kind fun ch k b hb => ?_
        rcases hes _ hb with ⟨-, h⟩ | h | ⟨_, _, _, -, h⟩
        · cases h with | send _ _ _ hk => rintro rfl; cases hk
        · cases h
        · cases h
      · by_cases hr : s.cl.st = .ready
        · exact .inl hr
        · refine .inr fun x hx => ?_
          obtain ⟨ch, hx⟩ := mem_pre hx
          rcases hes _ hx with ⟨h, -⟩ | h | ⟨_, _, _, -, h⟩
          · exact absurd h hr
          · cases h
          · cases h
    rcases micro_keep hm with hH | hK
    · obtain ⟨env, tb, r, a, n, e⟩ := hH.read
      exact hs hH.ne e
    · by_cases hr : s.cl.st = .ready
      · exact keep hK fun h => absurd hr h
      · rcases micro_rest hm hr with ⟨env, r, a, n, e⟩ | h
        · exact hs hr e
        · exact keep hK fun _ => h
  · intro s s' c l hm _ hS hI
    exact hI.srv (srvStep hm).2
  · intro o f srv ho ha hS
    cases ha <;> exact ⟨hS, fun _ _ h => h.srv fun _ => rfl⟩
  · intro s _ text _ hb _ hI
    obtain ⟨es, hl, hes⟩ := cutTextTo_log text s hb
    rw [hl]
    refine hI.quiet rfl (fun _ => rfl) (fun _ h => h) ?_ ?_
    · refine session_kind fun ch k b hx => ?_
      rcases hes _ hx with h | ⟨_, h⟩ | ⟨-, _, h⟩ <;> cases h <;> exact nofun
    · refine .inr fun x hx => ?_
      obtain ⟨k, b⟩ := x
      obtain ⟨ch, hx⟩ := mem_pre hx
      rcases hes _ hx with h | ⟨_, h⟩ | ⟨-, _, h⟩ <;> cases h <;> rfl

/-! ## Readers do not mind what comes after -/

theorem skip_more {n : Nat} {b r : Bytes} (h : skip n b = some r) (c : Bytes) : skip n (b ++ c) = some (r ++ c) := by
  unfold skip at h ⊢
  cases ht : takeN n b with
  | none => rw [ht] at h; cases h
  | some q =>
    obtain ⟨x, y⟩ := q
    rw [ht] at h
    cases h
    rw [takeN_more ht c]
    rfl

theorem readVersion_more {b r : Bytes} (h : readVersion b = some r) (c : Bytes) :
    readVersion (b ++ c) = some (r ++ c) := by
  unfold readVersion at h ⊢
  cases ht : takeN 12 b with
  | none => rw [ht] at h; cases h
  | some q =>
    obtain ⟨x, y⟩ := q
    rw [ht] at h
    rw [takeN_more ht c]
    dsimp only at h ⊢
    split at h
    · cases h; rw [if_pos (by assumption)]
    · cases h

theorem readTypes_more {b ts r : Bytes} (h : readTypes b = some (ts, r)) (c : Bytes) :
    readTypes (b ++ c) = some (ts, r ++ c) := by
  cases b with
  | nil => cases h
  | cons n b =>
    simp only [readTypes, List.cons_append] at h ⊢
    split at h
    · cases h
    · rw [if_neg (by assumption)]; exact takeN_more h c

theorem readResult_more {b r : Bytes} (h : readResult b = some r) (c : Bytes) :
    readResult (b ++ c) = some (r ++ c) := by
  unfold readResult at h
  split at h
  · cases h; rfl
  · cases h

theorem readVencrypt_more {b r : Bytes} (h : readVencrypt b = some r) (c : Bytes) :
    readVencrypt (b ++ c) = some (r ++ c) := by
  unfold readVencrypt at h
  split at h
  · rename_i n q
    split at h
    · rename_i q' hq
      cases h
      show (match skip (4 * n.toNat) (q ++ c) with
        | some (1 :: r) => some r
        | _ => none) = _
      rw [skip_more hq c]
      rfl
    · cases h
  · cases h

theorem readApple_more {b r : Bytes} (h : readApple b = some r) (c : Bytes) :
    readApple (b ++ c) = some (r ++ c) := by
  unfold readApple at h ⊢
  cases ht : takeN 4 b with
  | none => rw [ht] at h; cases h
  | some q =>
    obtain ⟨x, y⟩ := q
    rw [ht] at h
    rw [takeN_more ht c]
    exact skip_more h c

theorem readRsaKey_more {b r : Bytes} (h : readRsaKey b = some r) (c : Bytes) :
    readRsaKey (b ++ c) = some (r ++ c) := by
  unfold readRsaKey at h ⊢
  cases ht : takeN 4 b with
  | none => rw [ht] at h; cases h
  | some q =>
    obtain ⟨x, y⟩ := q
    rw [ht] at h
    rw [takeN_more ht c]
    exact skip_more h c

theorem readRandom_more {b r : Bytes} (h : readRandom b = some r) (c : Bytes) :
    readRandom (b ++ c) = some (r ++ c) := by
  unfold readRandom at h ⊢
  cases ht : takeN 2 b with
  | none => rw [ht] at h; cases h
  | some q =>
    obtain ⟨x, y⟩ := q
    rw [ht] at h
    rw [takeN_more ht c]
    exact skip_more h c

theorem readRsa_some {n : Nat} {b r : Bytes} (h : readRsa n b = some r) : ∃ b1 b2 b3, readRsaKey b = some b1 ∧
    readRandom b1 = some b2 ∧ skip n b2 = some b3 ∧ skip 1 b3 = some r := by
  unfold readRsa at h
  split at h
  · cases h
  · split at h
    · cases h
    · split at h
      · cases h
      · exact ⟨_, _, _, by assumption, by assumption, by assumption, h⟩

theorem readRsa_of {n : Nat} {b b1 b2 b3 r : Bytes} (h1 : readRsaKey b = some b1) (h2 : readRandom b1 = some b2)
    (h3 : skip n b2 = some b3) (h4 : skip 1 b3 = some r) : readRsa n b = some r := by
  simp only [readRsa, h1, h2, h3, h4]

theorem readRsa_more {n : Nat} {b r : Bytes} (h : readRsa n b = some r) (c : Bytes) :
    readRsa n (b ++ c) = some (r ++ c) := by
  obtain ⟨b1, b2, b3, h1, h2, h3, h4⟩ := readRsa_some h
  exact readRsa_of (readRsaKey_more h1 c) (readRandom_more h2 c) (skip_more h3 c) (skip_more h4 c)

theorem readSecurity_more {t : UInt8} {b r : Bytes} (h : readSecurity t b = some r) (c : Bytes) :
    readSecurity t (b ++ c) = some (r ++ c) := by
  unfold readSecurity at h ⊢
  split
  · rw [if_pos (by assumption)] at h; cases h; rfl
  · rw [if_neg (by assumption)] at h
    split
    · rw [if_pos (by assumption)] at h; exact readVencrypt_more h c
    · rw [if_neg (by assumption)] at h
      split
      · rw [if_pos (by assumption)] at h; exact readApple_more h c
      · rw [if_neg (by assumption)] at h
        split
        · rw [if_pos (by assumption)] at h; exact readRsa_more h c
        · rw [if_neg (by assumption)] at h
          split
          · rw [if_pos (by assumption)] at h; exact readRsa_more h c
          · rw [if_neg (by assumption)] at h; cases h

theorem readInit_more {b r : Bytes} {i : InitMsg} (h : readInit b = some (i, r)) (c : Bytes) :
    readInit (b ++ c) = some (i, r ++ c) := by
  unfold readInit at h ⊢
  cases ht : takeN 24 b with
  | none => rw [ht] at h; cases h
  | some q =>
    obtain ⟨x, y⟩ := q
    rw [ht] at h
    rw [takeN_more ht c]
    dsimp only at h ⊢
    cases hu : takeN (beNat (x.drop 20)) y with
    | none => rw [hu] at h; cases h
    | some q =>
      obtain ⟨u, v⟩ := q
      rw [hu] at h
      rw [takeN_more hu c]
      cases h
      rfl

theorem hearMsgs_more {n m : Nat} (hn : n ≤ m) (b c : Bytes) : hearMsgs z n b <+: hearMsgs z m (b ++ c) := by
  induction n generalizing m b with
  | zero => exact List.nil_prefix
  | succ n ih =>
    cases m with
    | zero => omega
    | succ m =>
      unfold hearMsgs
      cases h : readMsg z b with
      | none => exact List.nil_prefix
      | some q =>
        obtain ⟨x, r⟩ := q
        rw [readMsg_more h c]
        exact List.cons_prefix_cons.2 ⟨rfl, ih (by omega) r⟩

/-- more bytes do not change what has been heard -/
theorem hear_more (t : UInt8) (b c : Bytes) : hear z t b <+: hear z t (b ++ c) := by
  unfold hear
  cases h1 : readVersion b with
  | none => exact List.nil_prefix
  | some b =>
    rw [readVersion_more h1 c]
    refine List.cons_prefix_cons.2 ⟨rfl, ?_⟩
    cases h2 : readTypes b with
    | none => exact List.nil_prefix
    | some q =>
      obtain ⟨ts, b⟩ := q
      rw [readTypes_more h2 c]
      refine List.cons_prefix_cons.2 ⟨rfl, ?_⟩
      cases h3 : (readSecurity t b).bind readResult with
      | none => exact List.nil_prefix
      | some b' =>
        obtain ⟨b1, h4, h5⟩ := Option.bind_eq_some_iff.1 h3
        rw [readSecurity_more h4 c, Option.bind_some, readResult_more h5 c]
        refine List.cons_prefix_cons.2 ⟨rfl, ?_⟩
        cases h6 : readInit b' with
        | none => exact List.nil_prefix
        | some q =>
          obtain ⟨i, b⟩ := q
          rw [readInit_more h6 c]
          exact List.cons_prefix_cons.2 ⟨rfl, hearMsgs_more (by simp) b c⟩

theorem hear_prefix (t : UInt8) {b c : Bytes} (h : b <+: c) : hear z t b <+: hear z t c := by
  obtain ⟨d, rfl⟩ := h
  exact hear_more t b d

theorem Reads.hear {b : Bytes} {ms : List SMsg} (h : Reads z b ms) {n : Nat} (hn : b.length ≤ n) :
    hearMsgs z n b = ms.map .msg := by
  induction h generalizing n with
  | nil =>
    cases n with
    | zero => rfl
    | succ n => rfl
  | @cons b r m ms e hl _ ih =>
    cases n with
    | zero => have := List.eq_nil_of_length_eq_zero (Nat.le_zero.1 hn); subst this; simp at hl
    | succ n =>
      unfold hearMsgs
      rw [e]
      dsimp only
      rw [ih (by omega)]
      rfl

/-! ## The handshake can be read -/

/-- the path to a session -/
theorem Path.body {ts : Bytes} {long : Bool} {t l} (h : Path ts long .init t l)
    (apple : ∀ b, (.appleKey, b) ∈ l → readApple b = some [])
    (rsaKey : ∀ b, (.rsaKey, b) ∈ l → readRsaKey b = some [])
    (random : ∀ b, (.rsaChallenge, b) ∈ l → readRandom b = some []) :
    t ∈ ts ∧ ∃ body,
      l.flatMap (·.2) = versionMsg ++ (UInt8.ofNat ts.length :: ts) ++ body ++ be32 0 ∧ readSecurity t body = some [] := by
  cases h with
  | none h hm =>
    cases h with
    | types h =>
      cases h
      exact ⟨hm, [], by simp, rfl⟩
  | login h hst =>
    cases h with
    | vePlain h =>
      cases h with
      | veSub h =>
        cases h with
        | ve h hm =>
          cases h with
          | types h =>
            cases h
            exact ⟨hm, [0, 2] ++ [0] ++ ([1] ++ be32 262) ++ [1], by simp, by decide +kernel⟩
    | apple b h hm =>
      cases h with
      | types h =>
        cases h
        refine ⟨hm, b, by simp, ?_⟩
        exact apple b (by simp)
    | subtype h =>
      cases h with
      | hash b3 h hh =>
        cases h with
        | challenge b2 h =>
          cases h with
          | rsa b1 h hm =>
            cases h with
            | types h =>
              cases h
              refine ⟨hm, b1 ++ b2 ++ b3 ++ [1], by simp, ?_⟩
              have e1 := readRsaKey_more (rsaKey b1 (by simp)) (b2 ++ b3 ++ [1])
              have e2 := readRandom_more (random b2 (by simp)) (b3 ++ [1])
              have e3 : ∀ n, b3.length = n → skip n (b3 ++ [1]) = some [1] := by
                rintro n hn; unfold skip; rw [takeN_eq hn]; rfl
              have e4 : skip 1 [1] = some [] := rfl
              simp only [List.nil_append, List.append_assoc] at e1 e2 ⊢
              cases long with
              | true => exact readRsa_of e1 e2 (e3 32 hh) e4
              | false => exact readRsa_of e1 e2 (e3 20 hh) e4
    | _ => exact absurd hst (by simp)

theorem hear_of {ts body b r : Bytes} {t : UInt8} {i : InitMsg} {ms : List SMsg} (h1 : 0 < ts.length)
    (h2 : ts.length < 256) (hb : readSecurity t body = some []) (hi : readInit b = some (i, r)) (hr : Reads z r ms) :
    hear z t (versionMsg ++ (UInt8.ofNat ts.length :: ts) ++ body ++ be32 0 ++ b) =
      [.version, .types ts, .login, .init i] ++ ms.map .msg := by
  have e1 : readVersion versionMsg = some [] := by decide +kernel
  have e1 := readVersion_more e1 ((UInt8.ofNat ts.length :: ts) ++ body ++ be32 0 ++ b)
  have e2 : readTypes (UInt8.ofNat ts.length :: ts) = some (ts, []) := by
    have : (UInt8.ofNat ts.length).toNat = ts.length := by simp; omega
    show (if UInt8.ofNat ts.length = 0 then none else takeN (UInt8.ofNat ts.length).toNat ts) = _
    rw [if_neg (by intro h; rw [h] at this; simp at this; omega), this]
    simpa using takeN_append ts []
  have e2 := readTypes_more e2 (body ++ be32 0 ++ b)
  have e3 := readSecurity_more hb (be32 0 ++ b)
  have e4 : readResult (be32 0 ++ b) = some b := rfl
  simp only [List.nil_append, ← List.append_assoc] at e1 e2 e3
  unfold hear
  rw [e1]
  dsimp only
  rw [e2]
  dsimp only
  rw [e3, Option.bind_some, e4]
  dsimp only
  rw [hi]
  dsimp only
  rw [hr.hear (Nat.le_refl _)]
  rfl

/-- C115, the part that holds: over all runs of a server, a client whose session has begun, and which chose one
of the security types that it was offered, can read everything that it was sent from the first byte on: the
version, the list of security types, what belongs to the type that it chose, the verdict, ServerInit, and one
message after the other to the last byte.

Missing: what `Readable` and `Polite` ask for (see the violations of C62, C76 and C98). -/
theorem c115_connection_partial {s0 s : Sys} {ops : List SysOp} (h0 : s0.peers = []) (hs : s0.srv.secTypes = [])
    (e : sysRun table ops s0 = .ok s) : ∀ p ∈ s.peers, ∀ b, session p.log = some b → Readable z p.log →
      Polite p.log → ∃ t ts i ms, t ∈ ts ∧ readSession z b = some (i, ms) ∧
        hear z t (sent p.log) = [.version, .types ts, .login, .init i] ++ ms.map .msg := by
  intro p hp b hb hr hpo
  have h : Clear z p.cl p.log :=
    clear_stays.all (fun srv => ⟨lit_start srv, fun _ => rfl, fun b hb => nomatch hb⟩) h0 e hp
  obtain ⟨d, r, i, ms, h1, h2, h3⟩ := h.sync b hb hr
  obtain ⟨-, hI⟩ := (hand_lifts (table := table)).sysRun ops (fun _ _ => trivial)
    ⟨by dsimp only; rw [hs]; simp, by rw [h0]; simp⟩ e
  obtain ⟨-, hI⟩ := hI p hp
  obtain ⟨ts, t, long, a1, a2, a3⟩ := (hI.2 hpo.early).2 b hb
  obtain ⟨b1, b2⟩ := a3.body hpo.apple hpo.rsaKey hpo.random
  refine ⟨t, ts, i, ms, b1, ?_, ?_⟩
  · unfold readSession
    rw [h1, h2]
    dsimp only
    rw [h3.readMsgs (Nat.le_refl _)]
    rfl
  · obtain ⟨body, c1, c2⟩ := b2
    rw [sent_pre, hb, c1, Option.getD_some]
    exact hear_of a1 a2 c2 (by rw [h1]; exact h2 r) h3

/-- the byte strings that were sent -/
def sends : List Eff → List Bytes
  | [] => []
  | .send _ _ b :: l => b :: sends l
  | _ :: l => sends l

theorem sends_flatten (l : List Eff) : (sends l).flatten = sent l := by
  induction l with
  | nil => rfl
  | cons e l ih => cases e <;> first | exact ih | (exact congrArg (_ ++ ·) ih)

/-- C115: the same through the TCP queue.  Whenever the queue has accepted what the server sent so far, however the
operating system took it and whatever the callbacks did, what is on the wire is heard as the beginning of
that, and, on an open connection with an empty queue, as all of it. -/
theorem c115_tcp_partial {s0 s : Sys} {ops : List SysOp} (h0 : s0.peers = []) (hs : s0.srv.secTypes = [])
    (e : sysRun table ops s0 = .ok s) : ∀ p ∈ s.peers, ∀ b, session p.log = some b → Readable z p.log →
      Polite p.log → ∃ t ts i ms, t ∈ ts ∧ readSession z b = some (i, ms) ∧
          ∀ (t0 : Nat) (hist : List (Tcp.Op × Tcp.Kernel)) (q : Tcp.State), Tcp.run {} t0 hist = .ok q →
            q.accepted.map Prod.snd = (sends p.log).map .data →
            hear z t q.wire <+: [.version, .types ts, .login, .init i] ++ ms.map .msg ∧
            (q.closed = false → q.queue = [] →
              hear z t q.wire = [.version, .types ts, .login, .init i] ++ ms.map .msg) := by
  intro p hp b hb hr hpo
  obtain ⟨t, ts, i, ms, h1, h3, h4⟩ := c115_connection_partial h0 hs e p hp b hb hr hpo
  refine ⟨t, ts, i, ms, h1, h3, fun t0 hist q hq ha => ?_⟩
  have hall : ∀ all, Tcp.PossAll q.accepted all → all.flatten = sent p.log := by
    intro all hp
    have hd : ∀ a ∈ q.accepted, ∃ b, a.2 = .data b := by
      intro a hm
      have : a.2 ∈ q.accepted.map Prod.snd := List.mem_map_of_mem hm
      rw [ha] at this
      obtain ⟨x, -, hx⟩ := List.mem_map.1 this
      exact ⟨x, hx.symm⟩
    rw [hp.data hd, ← sends_flatten]
    have : (q.accepted.map Prod.snd).map Tcp.Src.bytes = sends p.log := by
      rw [ha, List.map_map]
      exact List.map_id' _
    rw [← this, List.map_map]
    rfl
  rw [← h4]
  refine ⟨?_, fun ho hqe => ?_⟩
  · obtain ⟨all, a1, a2⟩ := Tcp.c26_wire_prefix false t0 hist q hq
    rw [hall all a1] at a2
    exact hear_prefix t a2
  · obtain ⟨all, a1, a2⟩ := Tcp.c26_open_conservation false t0 hist q hq ho 0
    rw [hall all a1, hqe] at a2
    rw [← a2]
    simp

/-! ## Connections -/

/-- the checks of `Polite` -/
def politeB (l : List Eff) : Bool := (pre l).all fun x => x.1.handshake &&
  (match x with
  | (.appleKey, b) => decide (readApple b = some [])
  | (.rsaKey, b) => decide (readRsaKey b = some [])
  | (.rsaChallenge, b) => decide (readRandom b = some [])
  | _ => true)

theorem polite_of {l : List Eff} (h : politeB l = true) : Polite l := by
  have h := List.all_eq_true.1 h
  refine ⟨fun b hb => ?_, fun b hb => ?_, fun b hb => ?_, fun x hx => ?_⟩
  · simpa [Kind.handshake] using h _ hb
  · simpa [Kind.handshake] using h _ hb
  · simpa [Kind.handshake] using h _ hb
  · exact (Bool.and_eq_true_iff.1 (h x hx)).1

/-- the queue takes every message when it comes; the operating system takes 5 bytes each time, then
all the rest -/
def slowly (l : List Eff) : List (Tcp.Op × Tcp.Kernel) :=
  (sends l).map (fun b => (.send b .stop, .sent 5)) ++ [(.writable, .sent 1000000)]

/-- a session with all that there is, over a slow connection -/
example : politeB (firstLog talk) = true ∧
    (match Tcp.run {} 0 (slowly (firstLog talk)) with
    | .ok q => decide (q.wire = sent (firstLog talk) ∧ q.queue.length = 0 ∧ q.accepted.length = (sends (firstLog talk)).length)
    | _ => false) = true ∧
    (hear four 1 (sent (firstLog talk))).take 7 = [.version, .types [1], .login,
      .init ⟨4, 3, [32, 24, 0, 1, 0, 255, 0, 255, 0, 255, 16, 8, 0, 0, 0, 0], [110]⟩,
      .msg .endOfCont, .msg (.extClip 520093697 [0, 0, 0, 0]), .msg (.fence 2147483649 [0, 0, 0, 7, 0, 0, 0, 0])] := by
  refine ⟨by decide +kernel, by decide +kernel, by decide +kernel⟩

/-- an environment whose keys are keys -/
def keyEnv : Env := { demoEnv with
  appleKey := be16 2 ++ be16 3 ++ [1, 2, 3] ++ [4, 5, 6], rsaKey := be32 16 ++ [1, 2] ++ [3, 4],
  rsaChallenge := fun _ _ => some [5, 6, 7], clientHash := List.replicate 32 8,
  appleDecrypt := fun _ _ => 117 :: List.replicate 63 0 ++ 112 :: List.replicate 63 0 }

/-- a client that says these things to a server that wants a user and a password -/
def locked (bs : List Bytes) : List SysOp :=
  [.enableAuth true false true, .tlsCreds, .connect] ++ bs.map fun b => .client 0 (.readable (.data b)) keyEnv []

/-- what the client heard up to ServerInit, and whether all is as asked for -/
def tour (t : UInt8) (bs : List Bytes) : List Heard × Bool :=
  let l := firstLog (locked bs)
  ((hear four t (sent l)).filter fun x => match x with | .init _ => false | _ => true,
    politeB l && readableB four l && (session l).isSome && (hear four t (sent l)).length == 4)

/-- VeNCrypt, Apple's way, and both kinds of RSA-AES -/
example :
    tour 19 [versionMsg, [19], [0, 2], [0, 0, 1, 6], [0, 0, 0, 1, 0, 0, 0, 1, 117, 112], [1]] =
      ([.version, .types [19, 129, 5, 30], .login], true) ∧
    tour 30 [versionMsg, [30], List.replicate 384 0, [1]] = ([.version, .types [19, 129, 5, 30], .login], true) ∧
    tour 5 [versionMsg, [5], be32 16 ++ [1, 2, 3, 4], be16 1 ++ [5], List.replicate 20 8, [1, 117, 1, 112], [1]] =
      ([.version, .types [19, 129, 5, 30], .login], true) ∧
    tour 129 [versionMsg, [129], be32 16 ++ [1, 2, 3, 4], be16 1 ++ [5], List.replicate 32 8, [1, 117, 1, 112], [1]] =
      ([.version, .types [19, 129, 5, 30], .login], true) := by
  refine ⟨by decide +kernel, by decide +kernel, by decide +kernel, by decide +kernel⟩

/-- C115 is false as it stands: a clipboard text that the application sets while a client is introducing itself
is in the way of all that the client still has to read, whatever it chooses -/
theorem c115_clipboard_violated : ∃ s p b, sysRun [] [.connect, .sendCutText some [120],
      .client 0 (.readable (.data versionMsg)) demoEnv [], .client 0 (.readable (.data [1])) demoEnv [],
      .client 0 (.readable (.data [1])) demoEnv []] (fresh [110] (some demoFb)) = .ok s ∧
    p ∈ s.peers ∧ session p.log = some b ∧ ∀ z t, hear z t (sent p.log) = [.version, .types [0, 0, 0]] := by
  generalize hl : sysRun [] [.connect, .sendCutText some [120],
      .client 0 (.readable (.data versionMsg)) demoEnv [], .client 0 (.readable (.data [1])) demoEnv [],
      .client 0 (.readable (.data [1])) demoEnv []] (fresh [110] (some demoFb)) = o
  have h : (match o with
    | .ok s => s.peers.head?.bind fun p => (session p.log).map fun b => (b, sent p.log)
    | _ => none) = some ([0, 4, 0, 3, 32, 24, 0, 1, 0, 255, 0, 255, 0, 255, 16, 8, 0, 0, 0, 0, 0, 0, 0, 1, 110],
      versionMsg ++ [3, 0, 0, 0, 0, 0, 0, 1, 120, 1, 1, 0, 0, 0, 0,
        0, 4, 0, 3, 32, 24, 0, 1, 0, 255, 0, 255, 0, 255, 16, 8, 0, 0, 0, 0, 0, 0, 0, 1, 110]) := by
    rw [← hl]; decide +kernel
  cases o with
  | ok s =>
    obtain ⟨p, h1, h2⟩ := Option.bind_eq_some_iff.1 h
    obtain ⟨b, h3, h4⟩ := Option.map_eq_some_iff.1 h2
    refine ⟨s, p, b, rfl, List.mem_of_head? h1, h3, fun z t => ?_⟩
    have h5 : sent p.log = _ := congrArg Prod.snd h4
    rw [h5]
    have r1 : readVersion (versionMsg ++ [3, 0, 0, 0, 0, 0, 0, 1, 120, 1, 1, 0, 0, 0, 0,
        0, 4, 0, 3, 32, 24, 0, 1, 0, 255, 0, 255, 0, 255, 16, 8, 0, 0, 0, 0, 0, 0, 0, 1, 110]) = some
        [3, 0, 0, 0, 0, 0, 0, 1, 120, 1, 1, 0, 0, 0, 0,
        0, 4, 0, 3, 32, 24, 0, 1, 0, 255, 0, 255, 0, 255, 16, 8, 0, 0, 0, 0, 0, 0, 0, 1, 110] := by decide +kernel
    have r2 : readTypes [3, 0, 0, 0, 0, 0, 0, 1, 120, 1, 1, 0, 0, 0, 0,
        0, 4, 0, 3, 32, 24, 0, 1, 0, 255, 0, 255, 0, 255, 16, 8, 0, 0, 0, 0, 0, 0, 0, 1, 110] = some ([0, 0, 0],
        [0, 0, 0, 1, 120, 1, 1, 0, 0, 0, 0,
        0, 4, 0, 3, 32, 24, 0, 1, 0, 255, 0, 255, 0, 255, 16, 8, 0, 0, 0, 0, 0, 0, 0, 1, 110]) := by decide +kernel
    have r3 : (readSecurity t [0, 0, 0, 1, 120, 1, 1, 0, 0, 0, 0,
        0, 4, 0, 3, 32, 24, 0, 1, 0, 255, 0, 255, 0, 255, 16, 8, 0, 0, 0, 0, 0, 0, 0, 1, 110]).bind readResult =
        none := by
      unfold readSecurity
      repeat' split
      all_goals decide +kernel
    unfold hear
    rw [r1]
    dsimp only
    rw [r2]
    dsimp only
    rw [r3]
  | _ => cases h

end Verif.Wire
