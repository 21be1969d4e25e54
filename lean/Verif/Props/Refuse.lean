import Verif.Spec.Refuse
import Verif.Props.Talk

/-! # Being refused: C116 -/

namespace Verif.Wire

open Verif.Server Verif.System

variable {table : List Nat}

/-- a message that refuses, with the reason -/
def denial (r : Bytes) : Bytes := be32 1 ++ be32 r.length ++ r

/-- how a client in this phase is refused -/
inductive Denied : CState → Kind × Bytes → Prop
  | version : Denied .version (.badVersion, [0] ++ be32 20 ++ "Unsupported version\n".toUTF8.toList)
  | security : Denied .security (.secFail, denial "Illegal security type".toUTF8.toList)
  | veVersion : Denied .veVersion (.secFail, denial "Unsupported VeNCrypt version".toUTF8.toList)
  | veSubtype : Denied .veSubtype (.veAck, [0])
  | creds : st = .vePlain ∨ st = .appleDh ∨ st = .rsaCreds →
      Denied st (.secFail, denial "Invalid username or password".toUTF8.toList)

/-- the security types that this server has -/
def Known (srv : Srv) : Prop := ∀ x ∈ srv.secTypes, x ∈ [1, 19, 129, 5, 30]

/-- what a message of the handshake can come to -/
structure Dealt (s s' : St) : Prop where
  shut : s.cl.closed = true → s'.cl.closed = true ∧ ∃ es, s'.log = s.log ++ es ∧ pre es = []
  openn : s.cl.closed = false → (s'.cl.closed = false ∧ s'.cl.st ≠ .error) ∨ s' = s ∨
    (s'.cl.st = .error ∧ ∃ d es, Denied s.cl.st d ∧ s'.log = s.log ++ es ∧ (pre es = [] ∨ pre es = [d]))

theorem Dealt.stay (s : St) : Dealt s s := ⟨fun h => ⟨h, [], by simp, rfl⟩, fun _ => .inr (.inl rfl)⟩

/-- a refusal -/
theorem sendAndClose_deal {env k b} (s : St) (hk : k ≠ .serverInit) :
    (s.cl.closed = true → (sendAndClose env k b s).cl.closed = true ∧
      ∃ es, (sendAndClose env k b s).log = s.log ++ es ∧ pre es = []) ∧
    (s.cl.closed = false → ∃ es, (sendAndClose env k b s).log = s.log ++ es ∧
      (pre es = [] ∨ pre es = [(k, b)])) := by
  refine ⟨fun h => ?_, fun h => ?_⟩
  · unfold sendAndClose
    rw [if_pos h]
    exact ⟨h, [], by simp, rfl⟩
  · have hp : pre [.send s.cl.chan k b] = [(k, b)] := by
      cases k <;> first | rfl | exact absurd rfl hk
    unfold sendAndClose
    rw [if_neg (by simp [h])]
    split
    · refine ⟨[.send s.cl.chan k b] ++ [.deferClose], by simp [deferClose, h], .inr ?_⟩
      have : session [Eff.send s.cl.chan k b] = none := by
        cases k <;> first | rfl | exact absurd rfl hk
      rw [pre_none this, hp]; rfl
    · exact ⟨[.send s.cl.chan k b], by simp [h], .inr hp⟩
    · refine ⟨[.deferClose, .deferClose], ?_, .inl rfl⟩
      simp [remoteClosed, deferClose, streamClose, h]

/-- a refusal in this phase -/
theorem Dealt.refuse {env k b} {s : St} (f : Client → Client) (hc : ∀ c, (f c).closed = c.closed)
    (he : ∀ c, (f c).st = .error) (hk : k ≠ .serverInit) (hd : Denied s.cl.st (k, b)) :
    Dealt s (sendAndClose env k b (s.upd f)) := by
  obtain ⟨h1, h2⟩ := sendAndClose_deal (env := env) (b := b) (s.upd f) hk
  have hcl : (s.upd f).cl.closed = s.cl.closed := hc _
  rw [hcl] at h1 h2
  refine ⟨h1, fun h => .inr (.inr ⟨?_, ?_⟩)⟩
  · rw [sendAndClose_st]; exact he _
  · obtain ⟨es, h3, h4⟩ := h2 h
    exact ⟨_, es, hd, h3, h4⟩

/-- the handshake goes on -/
theorem Dealt.go {s s' : St} {es : List Eff} (hcl : s'.cl.closed = s.cl.closed) (hst : s'.cl.st ≠ .error)
    (hl : s.cl.closed = true → s'.log = s.log ++ es) (hp : pre es = []) : Dealt s s' :=
  ⟨fun h => ⟨hcl.trans h, es, hl h, hp⟩, fun h => .inl ⟨hcl.trans h, hst⟩⟩

theorem onVersion_deal {env s a s' n} (hs : s.cl.st = .version) (e : onVersion env s a = .ok (s', n)) : Dealt s s' := by
  unfold onVersion at e
  split at e
  · cases e; exact .stay _
  · rcases ite_cases e with ⟨-, e⟩ | ⟨-, e⟩
    · cases e
      refine .refuse _ (fun _ => rfl) (fun _ => rfl) nofun ?_
      rw [hs]
      have : ("Unsupported version\n".toUTF8.toList : Bytes).length = 20 := by decide +kernel
      rw [this]
      exact .version
    · obtain ⟨srv, h1, e⟩ := Outcome.bind_eq_ok.1 e
      cases e
      exact .go (by simp) (by simp) (es := []) (fun hc => by simp [hc]) rfl

theorem onSecurity_deal {env s a s' n} (hk : Known s.srv) (hs : s.cl.st = .security) (e : onSecurity env s a = .ok (s', n)) :
    Dealt s s' := by
  unfold onSecurity at e
  split at e
  · cases e; exact .stay _
  · rename_i x _
    rcases ite_cases e with ⟨-, e⟩ | ⟨hx, e⟩
    · cases e
      exact .refuse _ (fun _ => rfl) (fun _ => rfl) nofun (by rw [hs]; exact .security)
    rcases ite_cases e with ⟨-, e⟩ | ⟨n1, e⟩
    · cases e
      exact .go (by simp [handshakeOk]) (by simp) (es := []) (fun hc => by simp [hc, handshakeOk]) rfl
    rcases ite_cases e with ⟨-, e⟩ | ⟨n2, e⟩
    · cases e
      exact .go (by simp) (by simp) (es := []) (fun hc => by simp [hc]) rfl
    rcases ite_cases e with ⟨-, e⟩ | ⟨n3, e⟩
    · cases e
      exact .go (by simp) (by simp) (es := []) (fun hc => by simp [hc]) rfl
    rcases ite_cases e with ⟨-, e⟩ | ⟨n4, e⟩
    · cases e
      exact .go (by simp) (by simp) (es := []) (fun hc => by simp [hc]) rfl
    rcases ite_cases e with ⟨-, e⟩ | ⟨n5, e⟩
    · cases e
      exact .go (by simp) (by simp) (es := []) (fun hc => by simp [hc]) rfl
    · have hx := Classical.not_not.1 hx
      simp only [List.any_eq_true, beq_iff_eq] at hx
      obtain ⟨y, h1, rfl⟩ := hx
      have := hk y h1
      simp only [List.mem_cons, List.not_mem_nil, or_false] at this
      rcases this with rfl | rfl | rfl | rfl | rfl
      · exact absurd rfl n1
      · exact absurd rfl n2
      · exact absurd rfl n5
      · exact absurd rfl n4
      · exact absurd rfl n3

theorem authenticate_deal {env u p s} (hs : s.cl.st = .vePlain ∨ s.cl.st = .appleDh ∨ s.cl.st = .rsaCreds) :
    Dealt s (authenticate env u p s) := by
  unfold authenticate
  dsimp only
  split
  · rename_i hok
    exact .go (by simp [handshakeOk]) (by simp) (es := [.auth (cstr u) (cstr p) true])
      (fun hc => by simp [hc, hok, handshakeOk]) rfl
  · have := Dealt.refuse (env := env) (s := emit (.auth (cstr u) (cstr p) (env.authFn (cstr u) (cstr p))) s)
      (k := .secFail) (b := denial "Invalid username or password".toUTF8.toList) (fun k => { k with st := .error })
      (fun _ => rfl) (fun _ => rfl) nofun (.creds hs)
    obtain ⟨h1, h2⟩ := this
    refine ⟨fun h => ?_, fun h => ?_⟩
    · obtain ⟨a, es, b, c⟩ := h1 h
      exact ⟨a, .auth (cstr u) (cstr p) (env.authFn (cstr u) (cstr p)) :: es, by rw [List.append_cons]; exact b, c⟩
    · rcases h2 h with ⟨-, h3⟩ | h3 | ⟨h3, d, es, h4, h5, h6⟩
      · exact absurd (handshakeFailed_st ..) h3
      · refine .inr (.inr ⟨handshakeFailed_st .., _, _, .creds hs, congrArg St.log h3, .inl rfl⟩)
      · exact .inr (.inr ⟨h3, d, .auth (cstr u) (cstr p) (env.authFn (cstr u) (cstr p)) :: es, h4, by rw [List.append_cons]; exact h5, h6⟩)

theorem onVeVersion_deal {env s a s' n} (hs : s.cl.st = .veVersion) (e : onVeVersion env s a = .ok (s', n)) :
    Dealt s s' := by
  unfold onVeVersion at e
  split at e
  · rcases ite_cases e with ⟨-, e⟩ | ⟨-, e⟩
    · cases e
      exact .refuse _ (fun _ => rfl) (fun _ => rfl) nofun (by rw [hs]; exact .veVersion)
    · cases e
      exact .go (by simp) (by simp) (es := []) (fun hc => by simp [hc]) rfl
  · cases e; exact .stay _

theorem onVeSubtype_deal {env s a s' n} (hs : s.cl.st = .veSubtype) (e : onVeSubtype env s a = .ok (s', n)) :
    Dealt s s' := by
  unfold onVeSubtype at e
  split at e
  · rcases ite_cases e with ⟨-, e⟩ | ⟨-, e⟩
    · cases e
      exact .refuse _ (fun _ => rfl) (fun _ => rfl) nofun (by rw [hs]; exact .veSubtype)
    · dsimp only at e
      rcases ite_cases e with ⟨-, e⟩ | ⟨-, e⟩
      · cases e
      · cases e
        exact .go (by simp) (by simp) (es := [.upgrade .tls]) (fun hc => by simp [hc]) rfl
  · cases e; exact .stay _

theorem vePlainBody_deal {env s a u p s' n} (hs : s.cl.st = .vePlain) (e : vePlainBody env a u p s = .ok (s', n)) :
    Dealt s s' := by
  unfold vePlainBody at e
  split at e <;> cases e
  · exact authenticate_deal (.inl hs)
  · exact .stay _

theorem onVePlain_deal {env s a s' n} (hs : s.cl.st = .vePlain) (e : onVePlain env s a = .ok (s', n)) :
    Dealt s s' := by
  unfold onVePlain at e
  split at e
  · exact vePlainBody_deal hs e
  · cases e; exact .stay _

theorem onAppleDh_deal {env s a s' n} (hs : s.cl.st = .appleDh) (e : onAppleDh env s a = .ok (s', n)) :
    Dealt s s' := by
  unfold onAppleDh at e
  split at e
  · cases e; exact authenticate_deal (.inr (.inl hs))
  · cases e; exact .stay _

theorem rsaPubKeyBody_deal {env s a k s' n} (e : rsaPubKeyBody env a k s = .ok (s', n)) : Dealt s s' := by
  unfold rsaPubKeyBody at e
  split at e
  · dsimp only at e
    rcases ite_cases e with ⟨-, e⟩ | ⟨-, e⟩
    · cases e
    · split at e
      · cases e; exact .go (by simp) (by simp) (es := []) (fun hc => by simp [hc]) rfl
      · cases e; exact .go (by simp) (by simp) (es := []) (fun hc => by simp [hc]) rfl
  · cases e; exact .stay _

theorem onRsaPubKey_deal {env s a s' n} (e : onRsaPubKey env s a = .ok (s', n)) : Dealt s s' := by
  unfold onRsaPubKey at e
  split at e
  · exact rsaPubKeyBody_deal e
  · cases e; exact .stay _

theorem onRsaChallenge_deal {env s a s' n} (e : onRsaChallenge env s a = .ok (s', n)) : Dealt s s' := by
  unfold onRsaChallenge at e
  split at e
  · dsimp only at e
    split at e
    · split at e
      · cases e
      · cases e
        exact .go (by simp) (by simp) (es := [.upgrade .rsa]) (fun hc => by simp [hc]) rfl
    · cases e; exact .stay _
  · cases e; exact .stay _

theorem onRsaHash_deal {env s a s' n} (e : onRsaHash env s a = .ok (s', n)) : Dealt s s' := by
  unfold onRsaHash at e
  split at e
  · rcases ite_cases e with ⟨-, e⟩ | ⟨-, e⟩
    · cases e
    · cases e
      exact .go (by simp) (by simp) (es := []) (fun hc => by simp [hc]) rfl
  · cases e; exact .stay _

theorem onRsaCreds_deal {env s a s' n} (hs : s.cl.st = .rsaCreds) (e : onRsaCreds env s a = .ok (s', n)) :
    Dealt s s' := by
  unfold onRsaCreds at e
  split at e
  · dsimp only at e
    split at e
    · split at e
      · cases e; exact authenticate_deal (.inr (.inr hs))
      · cases e; exact .stay _
    · cases e; exact .stay _
  · cases e; exact .stay _

theorem hs_deal {env r s a s' n} (hk : Known s.srv) (h1 : s.cl.st ≠ .ready) (h2 : s.cl.st ≠ .init)
    (e : tryRead env table r s a = .ok (s', n)) : Dealt s s' := by
  unfold tryRead at e
  split at e <;> rename_i h
  · cases e; exact .stay _
  · exact onVersion_deal h e
  · exact onSecurity_deal hk h e
  · exact absurd h h2
  · exact onVeVersion_deal h e
  · exact onVeSubtype_deal h e
  · exact onVePlain_deal h e
  · exact onAppleDh_deal h e
  · exact onRsaPubKey_deal e
  · exact onRsaChallenge_deal e
  · exact onRsaHash_deal e
  · exact onRsaCreds_deal h e
  · exact absurd h h1

/-- how far a client has come, and whether it was refused there -/
def Fate (srv : Srv) (c : Client) (l : List Eff) : Prop :=
  (c.st ≠ .ready → session l = none) ∧ ((∀ x ∈ pre l, x.1.handshake = true) → c.st ≠ .ready →
    ∃ ts t long st p, 0 < ts.length ∧ ts.length < 256 ∧ 0 ∉ ts ∧ Path ts long st t p ∧
      ((pre l = p ∧ (c.st ≠ .error → c.closed = false →
        st = c.st ∧ long = c.rsa256 ∧ (st ≠ .version → ts = srv.secTypes.map UInt8.ofNat))) ∨
      (c.st = .error ∧ ∃ d, pre l = p ++ [d] ∧ Denied st d)))

theorem Fate.srv {srv srv' : Srv} {c l} (h : Fate srv c l) (hs : srv.secTypes ≠ [] → srv'.secTypes = srv.secTypes) :
    Fate srv' c l := by
  refine ⟨h.1, fun hp h1 => ?_⟩
  obtain ⟨ts, t, long, st, p, a1, a2, a0, a3, a4⟩ := h.2 hp h1
  refine ⟨ts, t, long, st, p, a1, a2, a0, a3, a4.imp_left fun ⟨b1, b2⟩ => ⟨b1, fun c1 c2 => ?_⟩⟩
  obtain ⟨d1, d2, d3⟩ := b2 c1 c2
  refine ⟨d1, d2, fun hv => ?_⟩
  have := d3 hv
  rw [hs (by rintro h; rw [h] at this; rw [this] at a1; simp at a1)]
  exact this

/-- nothing of the handshake is sent -/
theorem Fate.quiet {srv : Srv} {c c' : Client} {l es} (h : Fate srv c l) (hst : c'.st = c.st)
    (hr : c.st ≠ .ready → c'.rsa256 = c.rsa256) (hc : c.st ≠ .ready → c'.closed = false → c.closed = false)
    (h1 : session es = none) (h2 : c.st = .ready ∨ ∀ x ∈ pre es, x.1.handshake = false) : Fate srv c' (l ++ es) := by
  refine ⟨fun a1 => ?_, fun hp a1 => ?_⟩
  · rw [hst] at a1
    rw [session_none (h.1 a1), h1]
  · rw [hst] at a1
    rw [pre_none (h.1 a1)] at hp ⊢
    have h2 := h2.resolve_left a1
    have h3 : pre es = [] := by
      refine List.eq_nil_iff_forall_not_mem.2 fun x hx => ?_
      have := hp x (by simp [hx])
      rw [h2 x hx] at this; cases this
    rw [h3, List.append_nil] at hp ⊢
    obtain ⟨ts, t, long, st, p, b1, b2, b0, b3, b4⟩ := h.2 hp a1
    refine ⟨ts, t, long, st, p, b1, b2, b0, b3, ?_⟩
    rw [hst]
    rcases b4 with ⟨c1, c2⟩ | ⟨c1, c2⟩
    · refine .inl ⟨c1, fun d1 d2 => ?_⟩
      obtain ⟨e1, e2, e3⟩ := c2 d1 (hc a1 d2)
      exact ⟨e1, by rw [hr a1]; exact e2, e3⟩
    · exact .inr ⟨c1, c2⟩

theorem known_zero {srv : Srv} (h : Known srv) : (0 : UInt8) ∉ srv.secTypes.map UInt8.ofNat := by
  intro h0
  obtain ⟨y, h1, h2⟩ := List.mem_map.1 h0
  have := h y h1
  simp only [List.mem_cons, List.not_mem_nil, or_false] at this
  rcases this with rfl | rfl | rfl | rfl | rfl <;> cases h2

theorem initSecTypes_known {srv srv'} (e : initSecTypes srv = .ok srv') : Known srv → Known srv' := by
  rcases initSecTypes_cases e with ⟨h, rfl⟩ | ⟨h, -, rfl⟩ | ⟨h, -, -, rfl⟩
  · exact fun h => h
  · intro _; simp [Known]
  · intro _
    unfold Known
    dsimp only
    cases srv.hasTls <;> cases srv.requireEnc <;> decide

theorem Path.start_ts {ts ts' : Bytes} {long t l} (h : Path ts long .version t l) : Path ts' long .version t l := by
  cases h; exact .start

theorem fate_lifts : Lifts table (fun _ => True) (fun srv => srv.secTypes.length < 256 ∧ Known srv) Fate := by
  have srvStep : ∀ {s s' : St}, Micro true table s s' →
      (s.srv.secTypes.length < 256 ∧ Known s.srv → s'.srv.secTypes.length < 256 ∧ Known s'.srv) ∧
      (s.srv.secTypes ≠ [] → s'.srv.secTypes = s.srv.secTypes) := by
    intro s s' hm
    rcases micro_keep hm with hH | hK
    · rcases hH.move.srv with h | ⟨-, h⟩
      · rw [h]; exact ⟨fun h => h, fun _ => rfl⟩
      · have := initSecTypes_known h
        rcases initSecTypes_cases h with ⟨h1, h2⟩ | ⟨h1, -, h2⟩ | ⟨h1, -, -, h2⟩ <;> rw [h2] at this ⊢
        · exact ⟨fun h => h, fun _ => rfl⟩
        · exact ⟨fun h => ⟨by simp, this h.2⟩, fun h' => absurd h1 h'⟩
        · exact ⟨fun h => ⟨by cases s.srv.hasTls <;> cases s.srv.requireEnc <;> simp, this h.2⟩, fun h' => absurd h1 h'⟩
    · obtain ⟨fb, cs, nd, h⟩ := hK.srv
      rw [h]; exact ⟨fun h => h, fun _ => rfl⟩
  constructor
  · intro srv _
    exact ⟨fun _ => rfl, fun _ _ => ⟨[1], 0, (start srv).cl.rsa256, .version, _, by simp, by simp, by decide, .start,
      .inl ⟨rfl, fun _ _ => ⟨rfl, rfl, fun h => absurd rfl h⟩⟩⟩⟩
  · intro s s' hm _ hS hI
    have hS' := (srvStep hm).1 hS
    refine ⟨hS', ?_⟩
    have hs : ∀ {tb env r a n}, s.cl.st ≠ .ready → tryRead env tb r s a = .ok (s', n) → Fate s'.srv s'.cl s'.log := by
      intro tb env r a n hne e
      by_cases hi : s.cl.st = .init
      · unfold tryRead at e
        rw [hi] at e
        dsimp only at e
        unfold onInit at e
        split at e
        · cases e; exact hI
        · dsimp only at e
          split at e
          · cases e
          · cases e; exact ⟨fun h => absurd rfl h, fun _ h => absurd rfl h⟩
      have hn : session s.log = none := hI.1 hne
      obtain ⟨es, hl, hes⟩ := (hs_frame hne e).log
      have he : session es = none := by
        refine session_kind fun ch k b hb => ?_
        cases hes _ hb with
        | send _ _ _ hk =>
          rintro rfl
          revert hk hi
          cases s.cl.st <;> simp [hsKind]
      have hn' : session s'.log = none := by rw [hl, session_none hn, he]
      have hf : ∀ {es : List Eff}, s.log ++ es = s'.log → ∀ {x : List (Kind × Bytes)}, pre es = x → pre s'.log = pre s.log ++ x := by
        rintro es h x rfl; rw [← h, pre_none hn]
      refine ⟨fun _ => hn', fun hp a1 => ?_⟩
      have hp0 : ∀ x ∈ pre s.log, x.1.handshake = true := by
        rw [hl, pre_none hn] at hp
        exact fun x hx => hp x (by simp [hx])
      obtain ⟨ts, t, long, st, p, b1, b2, b0, b3, b4⟩ := hI.2 hp0 hne
      by_cases her : s.cl.st = .error
      · unfold tryRead at e
        rw [her] at e
        cases e
        exact ⟨ts, t, long, st, p, b1, b2, b0, b3, b4⟩
      obtain ⟨c1, c2⟩ : pre s.log = p ∧ _ := b4.resolve_right fun h => her h.1
      have hd := hs_deal hS.2 hne hi e
      cases hc : s.cl.closed with
      | true =>
        obtain ⟨d1, es, d2, d3⟩ := hd.shut hc
        refine ⟨ts, t, long, st, p, b1, b2, b0, b3, .inl ⟨by rw [hf d2.symm d3, c1, List.append_nil], fun _ h => ?_⟩⟩
        rw [d1] at h; cases h
      | false =>
        obtain ⟨g1, g2, g3⟩ := c2 her hc
        rcases hd.openn hc with ⟨d1, d2⟩ | d | ⟨d1, d, es, d2, d3, d4⟩
        · obtain ⟨-, es, f1, f2⟩ := hs_on hne hi e hS.1 d2 d1
          obtain ⟨ts', t', k1, k2, k3, k4⟩ := f2 p ⟨ts, t, b1, b2, by rw [← g1, ← g2]; exact b3, fun h => g3 (by rw [g1]; exact h)⟩
          by_cases hv : s'.cl.st = .version
          · refine ⟨[1], t', s'.cl.rsa256, s'.cl.st, _, by simp, by simp, by decide, ?_,
              .inl ⟨(hf f1.symm rfl).trans (by rw [c1]), fun _ _ => ⟨rfl, rfl, fun h => absurd hv h⟩⟩⟩
            rw [hv] at k3 ⊢
            exact k3.start_ts
          · refine ⟨ts', t', s'.cl.rsa256, s'.cl.st, _, k1, k2, ?_, k3,
              .inl ⟨(hf f1.symm rfl).trans (by rw [c1]), fun _ _ => ⟨rfl, rfl, k4⟩⟩⟩
            rw [k4 hv]
            exact known_zero hS'.2
        · subst d
          exact ⟨ts, t, long, st, p, b1, b2, b0, b3, b4⟩
        · rcases d4 with d4 | d4
          · exact ⟨ts, t, long, st, p, b1, b2, b0, b3, .inl ⟨by rw [hf d3.symm d4, c1, List.append_nil], fun h => absurd d1 h⟩⟩
          · exact ⟨ts, t, long, st, p, b1, b2, b0, b3, .inr ⟨d1, d, by rw [hf d3.symm d4, c1], by rw [g1]; exact d2⟩⟩
    have keep : Keep true s s' → (s.cl.st ≠ .ready → s'.cl.rsa256 = s.cl.rsa256 ∧
        (s'.cl.closed = false → s.cl.closed = false)) → Fate s'.srv s'.cl s'.log := by
      intro hK hr
      obtain ⟨fb, cs, nd, hsrv⟩ := hK.srv
      obtain ⟨es, hl, hes⟩ := hK.log
      rw [hl]
      have hI' : Fate s'.srv s.cl s.log := hI.srv fun _ => by rw [hsrv]
      refine hI'.quiet hK.st (fun h => (hr h).1) (fun h => (hr h).2) ?_ ?_
      · refine session_kind fun ch k b hb => ?_
        rcases hes _ hb with ⟨-, h⟩ | h | ⟨_, _, _, -, h⟩
        · cases h with | send _ _ _ hk => rintro rfl; cases hk
        · cases h
        · cases h
      · by_cases hr : s.cl.st = .ready
        · exact .inl hr
        · refine .inr fun x hx => ?_
          obtain ⟨ch, hx⟩ := mem_pre hx
          rcases hes _ hx with ⟨h, -⟩ | h | ⟨_, _, _, -, h⟩
          · exact absurd h hr
          · cases h
          · cases h
    rcases micro_keep hm with hH | hK
    · obtain ⟨env, tb, r, a, n, e⟩ := hH.read
      exact hs hH.ne e
    · by_cases hr : s.cl.st = .ready
      · exact keep hK fun h => absurd hr h
      · rcases micro_rest hm hr with ⟨env, r, a, n, e⟩ | h
        · exact hs hr e
        · exact keep hK fun _ => h
  · intro s s' c l hm _ hS hI
    exact hI.srv (srvStep hm).2
  · intro o f srv ho ha hS
    cases ha <;> exact ⟨hS, fun _ _ h => h.srv fun _ => rfl⟩
  · intro s _ text _ hb _ hI
    obtain ⟨es, hl, hes⟩ := cutTextTo_log text s hb
    rw [hl]
    refine hI.quiet rfl (fun _ => rfl) (fun _ h => h) ?_ ?_
    · refine session_kind fun ch k b hx => ?_
      rcases hes _ hx with h | ⟨_, h⟩ | ⟨-, _, h⟩ <;> cases h <;> exact nofun
    · refine .inr fun x hx => ?_
      obtain ⟨k, b⟩ := x
      obtain ⟨ch, hx⟩ := mem_pre hx
      rcases hes _ hx with h | ⟨_, h⟩ | ⟨-, _, h⟩ <;> cases h <;> rfl

/-! ## The reader -/

theorem refused_types {ts b : Bytes} (t : UInt8) (h1 : 0 < ts.length) (h2 : ts.length < 256) :
    refused t (versionMsg ++ (UInt8.ofNat ts.length :: ts) ++ b) =
      if t ∉ ts then readDenied b else if t = 19 then readVeDenied b else (readSecurity t b).bind readDenied := by
  have e1 : readVersion versionMsg = some [] := by decide +kernel
  have e1 := readVersion_more e1 ((UInt8.ofNat ts.length :: ts) ++ b)
  have hn : (UInt8.ofNat ts.length).toNat = ts.length := by simp; omega
  have h0 : UInt8.ofNat ts.length ≠ 0 := by intro h; rw [h] at hn; simp at hn; omega
  have e2 : readTypes (UInt8.ofNat ts.length :: ts) = some (ts, []) := by
    show (if UInt8.ofNat ts.length = 0 then none else takeN (UInt8.ofNat ts.length).toNat ts) = _
    rw [if_neg h0, hn]
    simpa using takeN_append ts []
  have e2 := readTypes_more e2 b
  simp only [List.nil_append] at e1 e2
  unfold refused
  rw [List.append_assoc, e1]
  dsimp only
  split
  · rename_i h
    exact absurd (List.cons.inj h).1 h0
  · rw [e2]

/-- nothing on the way is a refusal -/
theorem Path.clean {ts : Bytes} {long st t l} (h : Path ts long st t l) :
    (∀ x ∈ l, x.1 ≠ .secFail ∧ x.1 ≠ .badVersion) ∧ l.getLast? ≠ some (.veAck, [0]) := by
  have app : ∀ {l : List (Kind × Bytes)} {k b}, (∀ x ∈ l, x.1 ≠ .secFail ∧ x.1 ≠ .badVersion) → k ≠ .secFail →
      k ≠ .badVersion → (k, b) ≠ (Kind.veAck, [0]) →
      (∀ x ∈ l ++ [(k, b)], x.1 ≠ .secFail ∧ x.1 ≠ .badVersion) ∧ (l ++ [(k, b)]).getLast? ≠ some (.veAck, [0]) := by
    intro l k b h1 h2 h3 h4
    refine ⟨fun x hx => ?_, by rw [List.getLast?_concat]; exact fun h => h4 (Option.some.inj h)⟩
    rcases List.mem_append.1 hx with hx | hx
    · exact h1 x hx
    · rw [List.mem_singleton.1 hx]; exact ⟨h2, h3⟩
  induction h with
  | start => exact ⟨fun x hx => by rw [List.mem_singleton.1 hx]; exact ⟨nofun, nofun⟩, by decide +kernel⟩
  | veSub _ ih =>
    refine app ?_ nofun nofun nofun
    intro x hx
    rcases List.mem_append.1 hx with hx | hx
    · exact ih.1 x hx
    · rw [List.mem_singleton.1 hx]; exact ⟨nofun, nofun⟩
  | _ =>
    rename_i ih
    first | exact app ih.1 nofun nofun (by decide +kernel) | exact app ih.1 nofun nofun nofun

/-- the client was told that it is refused -/
def Refusal (l : List (Kind × Bytes)) : Prop :=
  (∃ x ∈ l, x.1 = .secFail ∨ x.1 = .badVersion) ∨ l.getLast? = some (.veAck, [0])

/-- the reasons that there are; the refusal of a VeNCrypt subtype has none -/
def reasons : List Bytes := ["Unsupported version\n".toUTF8.toList, "Illegal security type".toUTF8.toList, [],
  "Invalid username or password".toUTF8.toList]

/-- C116, the part that holds: over all runs of a server, a client that is refused is told so in a way that
it understands, and why.  This is the last that it hears.

Missing: what `Polite` asks for, and the version of VeNCrypt, where it is false. -/
theorem c116_refused_partial {s0 s : Sys} {ops : List SysOp} (h0 : s0.peers = []) (hs : s0.srv.secTypes = [])
    (e : sysRun table ops s0 = .ok s) : ∀ p ∈ s.peers, p.cl.st ≠ .ready → Polite p.log → Refusal (pre p.log) →
      (∀ x y, ¬ [(.veVersion, x), (.secFail, y)] <:+ pre p.log) →
      ∃ t, ∃ r ∈ reasons, refused t (sent p.log) = some r := by
  intro p hp hr hpo href hve
  obtain ⟨-, hI⟩ := (fate_lifts (table := table)).sysRun ops (fun _ _ => trivial)
    ⟨by dsimp only; rw [hs]; exact ⟨by simp, fun x hx => by simp [hs] at hx⟩, by rw [h0]; simp⟩ e
  obtain ⟨-, hI⟩ := hI p hp
  have hn := hI.1 hr
  obtain ⟨ts, t, long, st, q, a1, a2, a0, a3, a4⟩ := hI.2 hpo.early hr
  have hsent : sent p.log = (pre p.log).flatMap (·.2) := by rw [sent_pre, hn]; simp
  rcases a4 with ⟨b1, -⟩ | ⟨-, d, b1, b2⟩
  · rw [b1] at href
    obtain ⟨c1, c2⟩ := a3.clean
    rcases href with ⟨x, x1, x2⟩ | h
    · rcases x2 with x2 | x2
      · exact absurd x2 (c1 x x1).1
      · exact absurd x2 (c1 x x1).2
    · exact absurd h c2
  · refine ⟨t, ?_⟩
    rw [hsent]
    obtain ⟨apple, rsaKey, random, -⟩ := hpo
    rw [b1] at hve apple rsaKey random ⊢
    have login : ∀ {body : Bytes}, t ∈ ts → t ≠ 19 → readSecurity t body = some [] →
        refused t (versionMsg ++ (UInt8.ofNat ts.length :: ts) ++
          (body ++ denial "Invalid username or password".toUTF8.toList)) = some "Invalid username or password".toUTF8.toList := by
      intro body h1 h2 h3
      rw [refused_types t a1 a2, if_neg (by simp [h1]), if_neg h2, readSecurity_more h3, Option.bind_some]
      decide +kernel
    clear b1
    cases b2 with
    | version =>
      cases a3
      exact ⟨"Unsupported version\n".toUTF8.toList, by simp [reasons], by decide +kernel⟩
    | security =>
      cases a3 with
      | types h =>
        cases h
        refine ⟨"Illegal security type".toUTF8.toList, by simp [reasons], ?_⟩
        have := refused_types 0 a1 a2 (b := denial "Illegal security type".toUTF8.toList)
        rw [if_pos a0] at this
        refine Eq.trans (congrArg (refused 0) ?_) (this.trans (by decide +kernel))
        simp
    | veVersion =>
      cases a3 with
      | ve h hm =>
        exact absurd ⟨_, (List.append_assoc _ [_] [_]).symm⟩ (hve [0, 2] (denial "Unsupported VeNCrypt version".toUTF8.toList))
    | veSubtype =>
      cases a3 with
      | veSub h =>
        cases h with
        | ve h hm =>
          cases h with
          | types h =>
            cases h
            refine ⟨[], by simp [reasons], ?_⟩
            have := refused_types 19 a1 a2 (b := [0, 2] ++ [0] ++ ([1] ++ be32 262) ++ [0])
            rw [if_neg (by simp [hm]), if_pos rfl] at this
            refine Eq.trans (congrArg (refused 19) ?_) (this.trans (by decide +kernel))
            simp
    | creds hst =>
      refine ⟨"Invalid username or password".toUTF8.toList, by simp [reasons], ?_⟩
      cases a3 with
      | vePlain h =>
        cases h with
        | veSub h =>
          cases h with
          | ve h hm =>
            cases h with
            | types h =>
              cases h
              have := refused_types 19 a1 a2 (b := [0, 2] ++ [0] ++ ([1] ++ be32 262) ++ [1] ++
                denial "Invalid username or password".toUTF8.toList)
              rw [if_neg (by simp [hm]), if_pos rfl] at this
              refine Eq.trans (congrArg (refused 19) ?_) (this.trans (by decide +kernel))
              simp
      | apple b h hm =>
        cases h with
        | types h =>
          cases h
          refine Eq.trans (congrArg (refused 30) ?_) (login (body := b) hm (by decide) (apple b (by simp)))
          simp
      | subtype h =>
        cases h with
        | hash b3 h hh =>
          cases h with
          | challenge b2 h =>
            cases h with
            | rsa b1 h hm =>
              cases h with
              | types h =>
                cases h
                have e1 := readRsaKey_more (rsaKey b1 (by simp)) (b2 ++ b3 ++ [1])
                have e2 := readRandom_more (random b2 (by simp)) (b3 ++ [1])
                have e3 : ∀ n, b3.length = n → skip n (b3 ++ [1]) = some [1] := by
                  rintro n hn; unfold skip; rw [takeN_eq hn]; rfl
                have e4 : skip 1 [1] = some [] := rfl
                simp only [List.nil_append, List.append_assoc] at e1 e2
                refine Eq.trans (congrArg (refused _) ?_) (login (body := b1 ++ (b2 ++ (b3 ++ [1]))) hm ?_ ?_)
                · simp
                · cases long <;> decide
                · cases long with
                  | true => exact readRsa_of e1 e2 (e3 32 hh) e4
                  | false => exact readRsa_of e1 e2 (e3 20 hh) e4
      | _ => exact absurd hst (by simp)

/-- what was sent to a client that says these things, whether that is a refusal, and what a client makes of it -/
def turnedDown (ops : List SysOp) (t : UInt8) : Bool × Option Bytes :=
  let l := firstLog ops
  (politeB l && (session l).isNone && ((pre l).any fun x => x.1 == .secFail || x.1 == .badVersion), refused t (sent l))

example :
    turnedDown (locked [List.replicate 12 65]) 0 = (true, some "Unsupported version\n".toUTF8.toList) ∧
    turnedDown (locked [versionMsg, [2]]) 2 = (true, some "Illegal security type".toUTF8.toList) ∧
    turnedDown (locked [versionMsg, [19], [0, 2], [0, 0, 1, 6], [0, 0, 0, 1, 0, 0, 0, 1, 117, 113]]) 19 =
      (true, some "Invalid username or password".toUTF8.toList) ∧
    (turnedDown (locked [versionMsg, [19], [0, 2], [0, 0, 1, 7]]) 19).2 = some [] ∧
    turnedDown (locked [versionMsg, [5], be32 16 ++ [1, 2, 3, 4], be16 1 ++ [5], List.replicate 20 8, [1, 117, 1, 113]]) 5 =
      (true, some "Invalid username or password".toUTF8.toList) := by
  refine ⟨by decide +kernel, by decide +kernel, by decide +kernel, by decide +kernel, by decide +kernel⟩

/-- C116 is false as it stands: a client with another version of VeNCrypt is not told that it is refused.  Where the
byte is due that accepts (0) or refuses the version, comes a SecurityResult (vencrypt.c 53-57), whose first byte says
that the version is accepted, and whose second says that there are no subtypes. -/
theorem c116_vencrypt_violated : ∃ s p, sysRun [] (locked [versionMsg, [19], [0, 1]]) (fresh [110] (some demoFb)) = .ok s ∧
    p ∈ s.peers ∧ Polite p.log ∧ Refusal (pre p.log) ∧ refused 19 (sent p.log) = none ∧
    ∃ ts b, sent p.log = versionMsg ++ (UInt8.ofNat ts.length :: ts) ++ [0, 2] ++ 0 :: 0 :: b := by
  generalize hl : sysRun [] (locked [versionMsg, [19], [0, 1]]) (fresh [110] (some demoFb)) = o
  have h : (match o with
    | .ok s => s.peers.head?.map fun p => (politeB p.log, (pre p.log).any fun x => x.1 == .secFail, sent p.log)
    | _ => none) = some (true, true, versionMsg ++ (UInt8.ofNat 4 :: [19, 129, 5, 30]) ++ [0, 2] ++
      denial "Unsupported VeNCrypt version".toUTF8.toList) := by
    rw [← hl]; decide +kernel
  cases o with
  | ok s =>
    obtain ⟨p, h1, h2⟩ := Option.map_eq_some_iff.1 h
    have h3 := congrArg (·.1) h2
    have h4 := congrArg (·.2.1) h2
    have h5 := congrArg (·.2.2) h2
    dsimp only at h3 h4 h5
    refine ⟨s, p, rfl, List.mem_of_head? h1, polite_of h3, .inl ?_, ?_, [19, 129, 5, 30],
      0 :: 1 :: be32 28 ++ "Unsupported VeNCrypt version".toUTF8.toList, ?_⟩
    · obtain ⟨x, x1, x2⟩ := List.any_eq_true.1 h4
      exact ⟨x, x1, .inl (by simpa using x2)⟩
    · rw [h5]; decide +kernel
    · rw [h5]; decide +kernel
  | _ => cases h

end Verif.Wire
