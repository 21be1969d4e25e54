import Verif.Lemmas.Honest
import Verif.Lemmas.Messages

/-!
# How each message of the handshake is answered
-/

namespace Verif.System

open Verif.Server

variable {table : List Nat}

theorem send_open {k b} {s : St} (h : s.cl.closed = false) :
    send k b s = emit (.send s.cl.chan k b) s := by
  unfold send; rw [if_neg (by rw [h]; simp)]

theorem Looks.turn {v v' : View} {x : Bytes} {s t : St} {es : List Eff} (h : Looks v x s)
    (hst : t.cl.st = v'.st) (hch : t.cl.chan = v'.chan) (hun : t.cl.username = v'.username)
    (hr : t.cl.rsa256 = v'.rsa256) (hsrv : t.srv = s.srv) (hlog : t.log = s.log ++ es)
    (htr : v'.trace = v.trace ++ handshakeOf es)
    (hcl : t.cl.closed = s.cl.closed ∧ t.cl.closePending = s.cl.closePending ∧ t.cl.nDefer = s.cl.nDefer ∧
      t.cl.freed = s.cl.freed ∧ t.cl.buf = s.cl.buf ∧ t.cl.idx = s.cl.idx := by exact ⟨rfl, rfl, rfl, rfl, rfl, rfl⟩)
    (hv : v'.types = v.types ∧ v'.closed = v.closed ∧ v'.pending = v.pending ∧ v'.defer = v.defer := by
      exact ⟨rfl, rfl, rfl, rfl⟩) : Looks v' x t := by
  obtain ⟨c1, c2, c3, c4, c5, c6⟩ := hcl
  obtain ⟨v1, v2, v3, v4⟩ := hv
  exact ⟨hst, hch, hun, hr, by rw [hsrv, v1]; exact h.types, by rw [hlog, handshakeOf_append, h.trace, htr],
    by rw [c1, v2]; exact h.closed, by rw [c2, v3]; exact h.pending, by rw [c3, v4]; exact h.defer,
    by rw [c4]; exact h.alive, by rw [c5]; exact h.buf, by rw [c6]; exact h.idx⟩

theorem proper {m x y : Bytes} (h : m = x ++ y) (hy : y ≠ []) : x.length < m.length := by
  have := List.length_pos_iff.2 hy
  rw [h, List.length_append]
  omega

theorem slice_none {a : Bytes} {i n : Nat} (h : a.length < i + n) : slice a i n = none := by
  unfold slice; rw [if_neg (by omega)]

theorem versionMsg_cstr : cstr versionMsg = versionMsg := by decide +kernel
theorem versionMsg_length : versionMsg.length = 12 := by decide +kernel

theorem able_types {srv : Srv} (h : Able srv) : ∃ srv', initSecTypes srv = .ok srv' ∧ srv'.secTypes ≠ [] := by
  unfold initSecTypes
  by_cases h1 : srv.secTypes ≠ []
  · rw [if_pos h1]; exact ⟨_, rfl, h1⟩
  · rw [if_neg h1]
    by_cases h2 : srv.requireAuth = true
    · rw [if_pos h2, if_neg (by rw [h.auth h2]; simp)]
      exact ⟨_, rfl, by simp⟩
    · rw [if_neg h2]
      exact ⟨_, rfl, by simp⟩

theorem version_answers {P} {v : View} (hst : v.st = .version) (hon : v.On) :
    Answers table P v versionMsg fun _ _ v' => ∃ l, l ≠ [] ∧ v' = { v with
      st := .security, types := l, trace := v.trace ++ [.send v.chan .secTypes (typesMsg l)] } where
  on := hon
  some_ := by decide +kernel
  fits := by decide +kernel
  early := by rw [hst]; decide
  part := by
    intro env r s x y _ hy hm hL
    have := proper hm hy
    rw [versionMsg_length] at this
    unfold tryRead
    rw [hL.st, hst]
    show onVersion env s x = _
    unfold onVersion
    rw [slice_none (by omega)]
  whole := by
    intro env r s _ ha _ hL
    obtain ⟨srv', h1, h2⟩ := able_types ha
    refine ⟨(send .secTypes (typesMsg srv'.secTypes) { s with srv := srv' }).upd fun k =>
      { k with st := .security }, _, ?_, ⟨srv'.secTypes, h2, rfl⟩, ?_⟩
    · unfold tryRead
      rw [hL.st, hst]
      show onVersion env s versionMsg = _
      unfold onVersion
      have hsl : slice versionMsg 0 12 = some versionMsg := by decide +kernel
      rw [hsl]
      dsimp only
      rw [versionMsg_cstr, if_neg (by simp), h1, versionMsg_length]
      rfl
    · rw [send_open (by exact hL.closed.trans hon.1)]
      refine ⟨rfl, hL.chan, hL.username, hL.rsa256, fun _ => rfl, ?_, hL.closed, hL.pending, hL.defer,
        hL.alive, hL.buf, hL.idx⟩
      show handshakeOf (s.log ++ [.send s.cl.chan .secTypes _]) = _
      rw [handshakeOf_append, hL.trace, hL.chan]
      rfl

/-! ### The choice of a security type -/

theorem one_part {m x y : Bytes} (hm : m = x ++ y) (hy : y ≠ []) (h1 : m.length = 1) : x = [] := by
  have := proper hm hy
  exact List.length_eq_zero_iff.1 (by omega)

/-- all choices are received the same way -/
theorem choice_answers {P R} {v : View} {t : UInt8} (hst : v.st = .security) (hon : v.On)
    (h : ∀ env s, P env → s.cl.st = .security → Looks v [t] s →
      ∃ u v', onSecurity env s [t] = .ok (u, 1) ∧ R s.srv.fb s.srv.name v' ∧ Looks v' [t] u) :
    Answers table P v [t] R where
  on := hon
  some_ := by simp
  fits := by show 1 ≤ 4096; decide
  early := by rw [hst]; decide
  part := by
    intro env r s x y _ hy hm hL
    rw [one_part hm hy rfl]
    exact tryRead_nil s
  whole := by
    intro env r s hP _ _ hL
    obtain ⟨u, v', h1, h2, h3⟩ := h env s hP (hL.st.trans hst) hL
    refine ⟨u, v', ?_, h2, h3⟩
    unfold tryRead
    rw [hL.st, hst]
    exact h1

theorem offered {v : View} {x : Bytes} {s : St} {t : UInt8} (hL : Looks v x s)
    (ht : t ∈ v.types.map UInt8.ofNat) : s.srv.secTypes.any (fun x => UInt8.ofNat x == t) = true := by
  obtain ⟨n, h1, h2⟩ := List.mem_map.1 ht
  rw [hL.types (by rintro h; rw [h] at h1; cases h1), List.any_eq_true]
  exact ⟨n, h1, by simp [h2]⟩

theorem none_answers {P} {v : View} (hst : v.st = .security) (hon : v.On) (ht : 1 ∈ v.types.map UInt8.ofNat) :
    Answers table P v [1] fun _ _ v' => v' = { v with
      st := .init, trace := v.trace ++ [.send v.chan .secOk [0, 0, 0, 0]] } := by
  refine choice_answers hst hon fun env s _ hs hL => ?_
  refine ⟨(handshakeOk none s).upd fun k => { k with st := .init }, _, ?_, rfl, ?_⟩
  · unfold onSecurity
    dsimp only
    rw [if_neg (by simpa using offered hL ht), if_pos (by decide)]
  · unfold handshakeOk
    rw [send_open (hL.closed.trans hon.1)]
    exact hL.turn rfl hL.chan hL.username hL.rsa256 rfl rfl (by rw [hL.chan]; rfl)

theorem vencrypt_answers {P} {v : View} (hst : v.st = .security) (hon : v.On) (ht : 19 ∈ v.types.map UInt8.ofNat) :
    Answers table P v [19] fun _ _ v' => v' = { v with
      st := .veVersion, trace := v.trace ++ [.send v.chan .veVersion [0, 2]] } := by
  refine choice_answers hst hon fun env s _ hs hL => ?_
  refine ⟨(send .veVersion [0, 2] s).upd fun k => { k with st := .veVersion }, _, ?_, rfl, ?_⟩
  · unfold onSecurity
    dsimp only
    rw [if_neg (by simpa using offered hL ht), if_neg (by decide), if_pos (by decide)]
  · rw [send_open (hL.closed.trans hon.1)]
    exact hL.turn rfl hL.chan hL.username hL.rsa256 rfl rfl (by rw [hL.chan]; rfl)

theorem apple_answers {P : Env → Prop} {v : View} {key : Bytes} (hP : ∀ env, P env → env.appleKey = key)
    (hst : v.st = .security) (hon : v.On) (ht : 30 ∈ v.types.map UInt8.ofNat) :
    Answers table P v [30] fun _ _ v' => v' = { v with
      st := .appleDh, trace := v.trace ++ [.send v.chan .appleKey key] } := by
  refine choice_answers hst hon fun env s h hs hL => ?_
  refine ⟨(send .appleKey key s).upd fun k => { k with st := .appleDh }, _, ?_, rfl, ?_⟩
  · unfold onSecurity
    dsimp only
    rw [if_neg (by simpa using offered hL ht), if_neg (by decide), if_neg (by decide), if_pos (by decide),
      hP env h]
  · rw [send_open (hL.closed.trans hon.1)]
    exact hL.turn rfl hL.chan hL.username hL.rsa256 rfl rfl (by rw [hL.chan]; rfl)

theorem rsa_answers {P : Env → Prop} {v : View} {key : Bytes} {long : Bool}
    (hP : ∀ env, P env → env.rsaKey = key) (hst : v.st = .security) (hon : v.On)
    (ht : UInt8.ofNat (rsaType long) ∈ v.types.map UInt8.ofNat) :
    Answers table P v [UInt8.ofNat (rsaType long)] fun _ _ v' => v' = { v with
      st := .rsaPubKey, rsa256 := long, trace := v.trace ++ [.send v.chan .rsaKey key] } := by
  refine choice_answers hst hon fun env s h hs hL => ?_
  refine ⟨(send .rsaKey key (s.upd fun k => { k with rsa256 := long })).upd fun k =>
    { k with st := .rsaPubKey }, _, ?_, rfl, ?_⟩
  · unfold onSecurity
    dsimp only
    rw [if_neg (by simpa using offered hL ht)]
    cases long
    · rw [if_neg (by decide), if_neg (by decide), if_neg (by decide), if_pos (by decide), hP env h]
    · rw [if_neg (by decide), if_neg (by decide), if_neg (by decide), if_neg (by decide),
        if_pos (by decide), hP env h]
  · rw [send_open (by exact hL.closed.trans hon.1)]
    exact hL.turn rfl hL.chan hL.username rfl rfl rfl (by rw [← hL.chan]; rfl)

/-! ### VeNCrypt -/

theorem veVersion_answers {P} {v : View} (hst : v.st = .veVersion) (hon : v.On) :
    Answers table P v [0, 2] fun _ _ v' => v' = { v with
      st := .veSubtype,
      trace := v.trace ++ [.send v.chan .veAck [0], .send v.chan .veSubtypes [1, 0, 0, 1, 6]] } where
  on := hon
  some_ := by simp
  fits := by show 2 ≤ 4096; decide
  early := by rw [hst]; decide
  part := by
    intro env r s x y _ hy hm hL
    have := proper hm hy
    unfold tryRead
    rw [hL.st, hst]
    show onVeVersion env s x = _
    match x, this with
    | [], _ => rfl
    | [_], _ => rfl
  whole := by
    intro env r s hP _ _ hL
    refine ⟨(send .veSubtypes ([1] ++ be32 262) (send .veAck [0] s)).upd fun k => { k with st := .veSubtype },
      _, ?_, rfl, ?_⟩
    · unfold tryRead
      rw [hL.st, hst]
      rfl
    · have hc := hL.closed.trans hon.1
      rw [send_open (s := s) hc, send_open (by exact hc)]
      exact hL.turn (es := [.send s.cl.chan .veAck [0], .send s.cl.chan .veSubtypes ([1] ++ be32 262)])
        rfl hL.chan hL.username hL.rsa256 rfl (by show s.log ++ [_] ++ [_] = _; simp) (by rw [hL.chan]; rfl)

theorem veSubtype_answers {P : Env → Prop} {v : View} (hP : ∀ env, P env → env.tlsOk = true)
    (hst : v.st = .veSubtype) (hon : v.On) :
    Answers table P v [0, 0, 1, 6] fun _ _ v' => v' = { v with
      st := .vePlain, chan := .tls,
      trace := v.trace ++ [.send v.chan .veAck [1], .upgrade .tls] } where
  on := hon
  some_ := by simp
  fits := by show 4 ≤ 4096; decide
  early := by rw [hst]; decide
  part := by
    intro env r s x y _ hy hm hL
    have := proper hm hy
    unfold tryRead
    rw [hL.st, hst]
    show onVeSubtype env s x = _
    match x, this with
    | [], _ => rfl
    | [_], _ => rfl
    | [_, _], _ => rfl
    | [_, _, _], _ => rfl
  whole := by
    intro env r s h _ _ hL
    refine ⟨(emit (.upgrade .tls) ((send .veAck [1] s).upd fun k => { k with chan := .tls })).upd fun k =>
      { k with st := .vePlain }, _, ?_, rfl, ?_⟩
    · unfold tryRead
      rw [hL.st, hst]
      show onVeSubtype env s [0, 0, 1, 6] = _
      unfold onVeSubtype
      dsimp only
      rw [if_neg (by decide), if_neg (by rw [hP env h]; simp)]
      rfl
    · have hc := hL.closed.trans hon.1
      rw [send_open (s := s) hc]
      exact hL.turn (es := [.send s.cl.chan .veAck [1], .upgrade .tls])
        rfl rfl hL.username hL.rsa256 rfl (by show s.log ++ [_] ++ [_] = _; simp) (by rw [hL.chan]; rfl)

/-! ### Credentials -/

/-- what follows the credentials when the application approves -/
def welcome (v : View) (u p : Bytes) : View :=
  { v with st := .init, username := u, trace := v.trace ++ [.auth u p true, .send v.chan .secOk [0, 0, 0, 0]] }

theorem authenticate_ok {env : Env} {v : View} {x a b u p : Bytes} {s : St} (hL : Looks v x s) (hon : v.On)
    (ha : cstr a = u) (hb : cstr b = p) (hu : u.length ≤ 255) (h : env.authFn u p = true) :
    Looks (welcome v u p) x (authenticate env a b s) := by
  unfold authenticate
  dsimp only
  rw [ha, hb, h, if_pos rfl]
  unfold handshakeOk
  dsimp only
  have hcu : (cstr u).take 255 = u := by
    rw [← ha, cstr_cstr, ha, List.take_of_length_le hu]
  rw [hcu, send_open (by exact hL.closed.trans hon.1)]
  exact hL.turn (es := [.auth u p true, .send s.cl.chan .secOk (be32 0)])
    rfl hL.chan rfl hL.rsa256 rfl (by show s.log ++ [_] ++ [_] = _; simp) (by rw [hL.chan]; rfl)

/-- what follows the credentials when the application does not approve: the reason is sent, and the
connection is closed as soon as that has happened -/
def Refused (v : View) (u p : Bytes) (v' : View) : Prop :=
  v'.st = .error ∧ v'.username = v.username ∧
    v'.trace = v.trace ++ [.auth u p false, .send v.chan .secFail refusal] ∧
    (v'.closed = true ∧ v'.defer = 1 ∨ v'.pending = true)

theorem reason_length : ("Invalid username or password".toUTF8.toList : Bytes).length = 28 := by decide +kernel

theorem authenticate_no {env : Env} {v : View} {x a b u p : Bytes} {s : St} (hL : Looks v x s) (hon : v.On)
    (ha : cstr a = u) (hb : cstr b = p) (h : env.authFn u p = false) (hw : env.lastWrite ≠ .broken) :
    ∃ v', Refused v u p v' ∧ Looks v' x (authenticate env a b s) := by
  have hc := hL.closed.trans hon.1
  unfold authenticate
  dsimp only
  rw [ha, hb, h, if_neg (by simp)]
  unfold handshakeFailed
  dsimp only
  rw [reason_length]
  unfold sendAndClose
  rw [if_neg (by show ¬ s.cl.closed = true; rw [hc]; simp)]
  split
  · rw [send_open (by exact hc)]
    refine ⟨{ v with st := .error, trace := v.trace ++ [.auth u p false, .send v.chan .secFail refusal],
                     closed := true, defer := 1 }, ⟨rfl, rfl, rfl, .inl ⟨rfl, rfl⟩⟩, ?_⟩
    refine ⟨rfl, hL.chan, hL.username, hL.rsa256, hL.types, ?_, rfl, hL.pending, ?_, hL.alive, hL.buf, hL.idx⟩
    · show handshakeOf (s.log ++ [_] ++ [.send s.cl.chan .secFail _] ++ [_]) = _
      rw [handshakeOf_append, handshakeOf_append, handshakeOf_append, hL.trace, hL.chan]
      show v.trace ++ [_] ++ [_] ++ [] = _
      rw [List.append_nil, List.append_assoc]
      rfl
    · show s.cl.nDefer + 1 = 1
      rw [hL.defer, hon.2.2]
  · rw [send_open (by exact hc)]
    refine ⟨{ v with st := .error, trace := v.trace ++ [.auth u p false, .send v.chan .secFail refusal],
                     pending := true }, ⟨rfl, rfl, rfl, .inr rfl⟩, ?_⟩
    refine ⟨rfl, hL.chan, hL.username, hL.rsa256, hL.types, ?_, hL.closed, rfl, hL.defer, hL.alive,
      hL.buf, hL.idx⟩
    show handshakeOf (s.log ++ [_] ++ [.send s.cl.chan .secFail _]) = _
    rw [handshakeOf_append, handshakeOf_append, hL.trace, hL.chan]
    show v.trace ++ [_] ++ [_] = _
    rw [List.append_assoc]
    rfl
  · exact absurd ‹_› hw

theorem be32_length (n : Nat) : (be32 n).length = 4 := rfl

theorem onVePlain_head {env : Env} {s : St} {a b : Nat} (rest : Bytes) (ha : a < 4294967296)
    (hb : b < 4294967296) :
    onVePlain env s (be32 a ++ be32 b ++ rest) = vePlainBody env (be32 a ++ be32 b ++ rest) a b s := by
  have h1 := rd32_be32 a ha
  have h2 := rd32_be32 b hb
  generalize UInt8.ofNat (a / 16777216) = a0 at h1
  have : onVePlain env s (be32 a ++ be32 b ++ rest) = vePlainBody env (be32 a ++ be32 b ++ rest)
    (rd32 (UInt8.ofNat (a / 16777216)) (UInt8.ofNat (a / 65536)) (UInt8.ofNat (a / 256)) (UInt8.ofNat a))
    (rd32 (UInt8.ofNat (b / 16777216)) (UInt8.ofNat (b / 65536)) (UInt8.ofNat (b / 256)) (UInt8.ofNat b)) s := rfl
  rw [this, rd32_be32 a ha, rd32_be32 b hb]

theorem onVePlain_short {env : Env} {s : St} {x : Bytes} (h : x.length < 8) :
    onVePlain env s x = .ok (s, 0) := by
  match x, h with
  | [], _ => rfl
  | [_], _ => rfl
  | [_, _], _ => rfl
  | [_, _, _], _ => rfl
  | [_, _, _, _], _ => rfl
  | [_, _, _, _, _], _ => rfl
  | [_, _, _, _, _, _], _ => rfl
  | [_, _, _, _, _, _, _], _ => rfl
  | _ :: _ :: _ :: _ :: _ :: _ :: _ :: _ :: _, h => exact absurd h (by simp)

theorem slice_at {a b c : Bytes} {i n : Nat} (hi : i = a.length) (hn : n = b.length) :
    slice (a ++ b ++ c) i n = some b := by
  subst hi hn
  exact slice_body rfl

theorem plain_answers {P R} {v : View} {u p : Bytes} (hst : v.st = .vePlain) (hon : v.On)
    (hu : u.length ≤ 255) (hp : p.length ≤ 255)
    (h : ∀ env s x, P env → Looks v x s → ∃ v', R s.srv.fb s.srv.name v' ∧ Looks v' x (authenticate env u p s)) :
    Answers table P v (plainMsg u p) R where
  on := hon
  some_ := by simp [plainMsg, be32]
  fits := by
    show (plainMsg u p).length ≤ 4096
    simp only [plainMsg, List.length_append, be32_length]
    omega
  early := by rw [hst]; decide
  part := by
    intro env r s x y _ hy hm hL
    have hlt := proper hm hy
    simp only [plainMsg, List.length_append, be32_length] at hlt
    unfold tryRead
    rw [hL.st, hst]
    show onVePlain env s x = _
    by_cases h8 : x.length < 8
    · exact onVePlain_short h8
    · have hx : x = be32 u.length ++ be32 p.length ++ x.drop 8 := by
        have h1 : (x ++ y).take 8 = be32 u.length ++ be32 p.length := by
          rw [← hm]; rfl
        rw [List.take_append_of_le_length (by omega)] at h1
        rw [← h1, List.take_append_drop]
      rw [hx, onVePlain_head _ (by omega) (by omega), ← hx]
      unfold vePlainBody
      rw [slice_none (i := 8 + u.length) (by omega)]
      cases slice x 8 u.length <;> rfl
  whole := by
    intro env r s hP _ _ hL
    obtain ⟨v', h1, h2⟩ := h env s _ hP hL
    refine ⟨_, v', ?_, h1, h2⟩
    unfold tryRead
    rw [hL.st, hst]
    show onVePlain env s (plainMsg u p) = _
    unfold plainMsg
    rw [List.append_assoc, onVePlain_head _ (by omega) (by omega)]
    unfold vePlainBody
    have h4 : slice (be32 u.length ++ be32 p.length ++ u ++ p) 8 u.length = some u :=
      slice_at (a := be32 u.length ++ be32 p.length) rfl rfl
    rw [← List.append_assoc, h4]
    have h3 : slice (be32 u.length ++ be32 p.length ++ u ++ p) (8 + u.length) p.length = some p := by
      have := slice_at (a := be32 u.length ++ be32 p.length ++ u) (b := p) (c := []) (i := 8 + u.length)
        (n := p.length) (by simp only [List.length_append, be32_length]) rfl
      rwa [List.append_nil] at this
    rw [h3]
    show Outcome.ok (authenticate env (u.take 255) (p.take 255) s, 8 + u.length + p.length) = _
    rw [List.take_of_length_le hu, List.take_of_length_le hp]
    simp only [List.length_append, be32_length]

/-! ### Apple's authentication -/

theorem appleMsg_answers {P R} {v : View} {enc pub : Bytes} (hst : v.st = .appleDh) (hon : v.On)
    (he : enc.length = 128) (hp : pub.length = 256)
    (h : ∀ env s x, P env → Looks v x s → ∃ v', R s.srv.fb s.srv.name v' ∧
      Looks v' x (authenticate env ((env.appleDecrypt pub enc).take 63)
        (((env.appleDecrypt pub enc).drop 64).take 63) s)) :
    Answers table P v (enc ++ pub) R where
  on := hon
  some_ := by rintro hn; rw [(List.append_eq_nil_iff.1 hn).1] at he; cases he
  fits := by show (enc ++ pub).length ≤ 4096; simp [he, hp]
  early := by rw [hst]; decide
  part := by
    intro env r s x y _ hy hm hL
    have hlt := proper hm hy
    simp only [List.length_append, he, hp] at hlt
    unfold tryRead
    rw [hL.st, hst]
    show onAppleDh env s x = _
    unfold onAppleDh
    rw [slice_none (i := 128) (by omega)]
    cases slice x 0 128 <;> rfl
  whole := by
    intro env r s h0 _ _ hL
    obtain ⟨v', h1, h2⟩ := h env s _ h0 hL
    refine ⟨_, v', ?_, h1, h2⟩
    unfold tryRead
    rw [hL.st, hst]
    show onAppleDh env s (enc ++ pub) = _
    unfold onAppleDh
    have h3 : slice (enc ++ pub) 0 128 = some enc := by
      have := slice_at (a := []) (b := enc) (c := pub) (i := 0) (n := 128) rfl he.symm
      exact this
    have h4 : slice (enc ++ pub) 128 256 = some pub := by
      have := slice_at (a := enc) (b := pub) (c := []) (i := 128) (n := 256) he.symm hp.symm
      rwa [List.append_nil] at this
    rw [h3, h4]
    dsimp only
    rw [List.length_append, he, hp]

/-- a text in a field of 64 bytes, with a terminator -/
theorem field_cstr {u fill : Bytes} (hu : 0 ∉ u) (hl : u.length ≤ 63) : cstr ((u ++ 0 :: fill).take 63) = u := by
  unfold Server.cstr
  have h1 : (u ++ 0 :: fill).take 63 = u ++ (0 :: fill).take (63 - u.length) := by
    rw [List.take_append, List.take_of_length_le hl]
  have h2 : ∀ a ∈ u, (a != 0) = true := by
    intro a ha
    simp only [bne_iff_ne, ne_eq]
    rintro rfl
    exact hu ha
  rw [h1, List.takeWhile_append_of_pos h2]
  cases h3 : 63 - u.length with
  | zero => simp
  | succ n => simp

/-! ### RSA-AES -/

theorem onRsaPubKey_head {env : Env} {s : St} {a : Nat} (rest : Bytes) (ha : a < 4294967289) :
    onRsaPubKey env s (be32 a ++ rest) = rsaPubKeyBody env (be32 a ++ rest) ((a + 7) / 8) s := by
  have : onRsaPubKey env s (be32 a ++ rest) = rsaPubKeyBody env (be32 a ++ rest)
    (((rd32 (UInt8.ofNat (a / 16777216)) (UInt8.ofNat (a / 65536)) (UInt8.ofNat (a / 256))
      (UInt8.ofNat a) + 7) % 4294967296) / 8) s := rfl
  rw [this, rd32_be32 a (by omega), Nat.mod_eq_of_lt (by omega)]

theorem onRsaPubKey_short {env : Env} {s : St} {x : Bytes} (h : x.length < 4) :
    onRsaPubKey env s x = .ok (s, 0) := by
  match x, h with
  | [], _ => rfl
  | [_], _ => rfl
  | [_, _], _ => rfl
  | [_, _, _], _ => rfl
  | _ :: _ :: _ :: _ :: _, h => exact absurd h (by simp)

theorem rsaPubKey_answers {P : Env → Prop} {v : View} {bits : Nat} {n e c : Bytes} (hst : v.st = .rsaPubKey)
    (hon : v.On) (hn : n.length = (bits + 7) / 8) (he : e.length = (bits + 7) / 8)
    (hfit : n.length ≤ 1022)
    (hP : ∀ env, P env → env.rsaKeySize n e ≤ 1022 ∧ env.rsaChallenge n e = some c) :
    Answers table P v (rsaKeyMsg bits n e) fun _ _ v' => v' = { v with
      st := .rsaChallenge, trace := v.trace ++ [.send v.chan .rsaChallenge (be16 c.length ++ c)] } where
  on := hon
  some_ := by simp [rsaKeyMsg, be32]
  fits := by
    show (rsaKeyMsg bits n e).length ≤ 4096
    simp only [rsaKeyMsg, List.length_append, be32_length]
    omega
  early := by rw [hst]; decide
  part := by
    intro env r s x y _ hy hm hL
    have hlt := proper hm hy
    simp only [rsaKeyMsg, List.length_append, be32_length] at hlt
    unfold tryRead
    rw [hL.st, hst]
    show onRsaPubKey env s x = _
    by_cases h4 : x.length < 4
    · exact onRsaPubKey_short h4
    · have hx : x = be32 bits ++ x.drop 4 := by
        have h1 : (x ++ y).take 4 = be32 bits := by rw [← hm]; rfl
        rw [List.take_append_of_le_length (by omega)] at h1
        rw [← h1, List.take_append_drop]
      rw [hx, onRsaPubKey_head _ (by omega), ← hx]
      unfold rsaPubKeyBody
      rw [slice_none (i := 4 + (bits + 7) / 8) (by omega)]
      cases slice x 4 ((bits + 7) / 8) <;> rfl
  whole := by
    intro env r s h0 _ _ hL
    refine ⟨send .rsaChallenge (be16 c.length ++ c) (s.upd fun k =>
      { k with st := .rsaChallenge, rsaKeyLen := env.rsaKeySize n e }), _, ?_, rfl, ?_⟩
    · unfold tryRead
      rw [hL.st, hst]
      show onRsaPubKey env s (rsaKeyMsg bits n e) = _
      unfold rsaKeyMsg
      rw [List.append_assoc, onRsaPubKey_head _ (by omega)]
      unfold rsaPubKeyBody
      have h3 : slice (be32 bits ++ (n ++ e)) (4 + (bits + 7) / 8) ((bits + 7) / 8) = some e := by
        have := slice_at (a := be32 bits ++ n) (b := e) (c := []) (i := 4 + (bits + 7) / 8)
          (n := (bits + 7) / 8) (by simp [be32_length, hn]) he.symm
        rwa [List.append_nil, List.append_assoc] at this
      have h4 : slice (be32 bits ++ (n ++ e)) 4 ((bits + 7) / 8) = some n := by
        rw [← List.append_assoc]
        exact slice_at (a := be32 bits) rfl hn.symm
      rw [h3, h4]
      dsimp only
      rw [if_neg (by have := (hP env h0).1; omega), (hP env h0).2]
      dsimp only
      congr 2
      simp only [List.length_append, be32_length]
      omega
    · rw [send_open (by exact hL.closed.trans hon.1)]
      exact hL.turn rfl hL.chan hL.username hL.rsa256 rfl rfl (by rw [← hL.chan]; rfl)

theorem onRsaChallenge_short {env : Env} {s : St} {x : Bytes} (h : x.length < 2) :
    onRsaChallenge env s x = .ok (s, 0) := by
  match x, h with
  | [], _ => rfl
  | [_], _ => rfl
  | _ :: _ :: _, h => exact absurd h (by simp)

theorem rsaChallenge_answers {P : Env → Prop} {v : View} {c hash : Bytes} (hst : v.st = .rsaChallenge)
    (hon : v.On) (hfit : c.length ≤ 4094)
    (hP : ∀ env, P env → ∃ rnd, env.rsaDecrypt c = some rnd ∧
      (env.serverHash rnd).take (hashLen v.rsa256) = hash) (hh : hash.length = hashLen v.rsa256) :
    Answers table P v (rsaChallengeMsg c) fun _ _ v' => v' = { v with
      st := .rsaHash, chan := .rsa, trace := v.trace ++ [.upgrade .rsa, .send .rsa .rsaHash hash] } where
  on := hon
  some_ := by simp [rsaChallengeMsg, be16]
  fits := by
    show (rsaChallengeMsg c).length ≤ 4096
    simp only [rsaChallengeMsg, List.length_append, be16, List.length_cons, List.length_nil]
    omega
  early := by rw [hst]; decide
  part := by
    intro env r s x y _ hy hm hL
    have hlt := proper hm hy
    simp only [rsaChallengeMsg, List.length_append, be16, List.length_cons, List.length_nil] at hlt
    unfold tryRead
    rw [hL.st, hst]
    show onRsaChallenge env s x = _
    by_cases h2 : x.length < 2
    · exact onRsaChallenge_short h2
    · have h1 : (x ++ y).take 2 = be16 c.length := by rw [← hm]; rfl
      rw [List.take_append_of_le_length (by omega)] at h1
      match x, h2, h1, hlt with
      | [], h2, _, _ => exact absurd (by decide) h2
      | [_], h2, _, _ => exact absurd (by simp) h2
      | b0 :: b1 :: x, _, h1, hlt =>
        have h1 : [b0, b1] = be16 c.length := h1
        have h3 : rd16 b0 b1 = c.length := by
          unfold be16 at h1
          injection h1 with k1 k2
          injection k2 with k2 _
          rw [k1, k2]
          exact rd16_be16 _ (by omega)
        unfold onRsaChallenge
        dsimp only
        rw [h3, slice_none (by simp at hlt ⊢; omega)]
  whole := by
    intro env r s h0 _ _ hL
    obtain ⟨rnd, g1, g2⟩ := hP env h0
    have hl : rsaHashLen s.cl = hashLen v.rsa256 := by
      unfold rsaHashLen hashLen; rw [hL.rsa256]
    refine ⟨(send .rsaHash hash (emit (.upgrade .rsa) (s.upd fun k => { k with chan := .rsa }))).upd fun k =>
      { k with st := .rsaHash }, _, ?_, rfl, ?_⟩
    · unfold tryRead
      rw [hL.st, hst]
      show onRsaChallenge env s (rsaChallengeMsg c) = _
      have h3 : rd16 (UInt8.ofNat (c.length / 256)) (UInt8.ofNat c.length) = c.length :=
        rd16_be16 _ (by omega)
      have h4 : slice (rsaChallengeMsg c) 2 c.length = some c := by
        have := slice_at (a := be16 c.length) (b := c) (c := []) (i := 2) (n := c.length) rfl rfl
        rwa [List.append_nil] at this
      unfold onRsaChallenge
      show (match slice (rsaChallengeMsg c) 2 (rd16 _ _) with | some c => _ | none => _) = _
      rw [h3, h4]
      dsimp only
      rw [g1]
      dsimp only
      have hl2 : rsaHashLen (emit (.upgrade .rsa) (s.upd fun k => { k with chan := .rsa })).cl =
          hashLen v.rsa256 := hl
      have g3 : (hashBuf (env.serverHash rnd)).take (hashLen v.rsa256) = hash := by
        have h32 : hashLen v.rsa256 ≤ 32 := by unfold hashLen; cases v.rsa256 <;> decide
        have hle : hashLen v.rsa256 ≤ (env.serverHash rnd).length := by
          rw [← g2, List.length_take] at hh; omega
        unfold hashBuf
        rw [List.take_take, Nat.min_eq_left h32, List.take_append_of_le_length hle, g2]
      rw [hl2, g3]
      congr 2
      simp only [rsaChallengeMsg, List.length_append, be16, List.length_cons, List.length_nil]
    · rw [send_open (by exact hL.closed.trans hon.1)]
      exact hL.turn (es := [.upgrade .rsa, .send .rsa .rsaHash hash]) rfl rfl hL.username hL.rsa256 rfl
        (by show s.log ++ [_] ++ [_] = _; simp) rfl

theorem rsaHash_answers {P : Env → Prop} {v : View} {hash : Bytes} (hst : v.st = .rsaHash)
    (hon : v.On) (hlen : hash.length = hashLen v.rsa256)
    (hP : ∀ env, P env → env.clientHash.take (hashLen v.rsa256) = hash) :
    Answers table P v hash fun _ _ v' => v' = { v with
      st := .rsaCreds, trace := v.trace ++ [.send v.chan .rsaSubtype [1]] } where
  on := hon
  some_ := by
    rintro rfl
    revert hlen
    unfold hashLen
    split <;> simp
  fits := by
    show hash.length ≤ 4096
    rw [hlen]
    unfold hashLen
    split <;> omega
  early := by rw [hst]; decide
  part := by
    intro env r s x y _ hy hm hL
    have hlt := proper hm hy
    have hl : rsaHashLen s.cl = hashLen v.rsa256 := by
      unfold rsaHashLen hashLen; rw [hL.rsa256]
    unfold tryRead
    rw [hL.st, hst]
    show onRsaHash env s x = _
    unfold onRsaHash
    rw [hl, slice_none (by omega)]
  whole := by
    intro env r s h0 _ _ hL
    have hl : rsaHashLen s.cl = hashLen v.rsa256 := by
      unfold rsaHashLen hashLen; rw [hL.rsa256]
    refine ⟨(send .rsaSubtype [1] s).upd fun k => { k with st := .rsaCreds }, _, ?_, rfl, ?_⟩
    · unfold tryRead
      rw [hL.st, hst]
      show onRsaHash env s hash = _
      unfold onRsaHash
      have h4 : slice hash 0 hash.length = some hash := by
        have := slice_at (a := []) (b := hash) (c := []) (i := 0) (n := hash.length) rfl rfl
        rwa [List.append_nil] at this
      rw [hl, ← hlen, h4]
      dsimp only
      rw [hlen, hP env h0, if_neg (by simp), send_open (hL.closed.trans hon.1)]
      show Outcome.ok (_, rsaHashLen s.cl) = _
      rw [hl]
    · rw [send_open (by exact hL.closed.trans hon.1)]
      exact hL.turn rfl hL.chan hL.username hL.rsa256 rfl rfl (by rw [hL.chan]; rfl)

theorem rsaCreds_answers {P R} {v : View} {u p : Bytes} (hst : v.st = .rsaCreds) (hon : v.On)
    (hu : u.length ≤ 255) (hp : p.length ≤ 255)
    (h : ∀ env s x, P env → Looks v x s → ∃ v', R s.srv.fb s.srv.name v' ∧ Looks v' x (authenticate env u p s)) :
    Answers table P v (rsaCredsMsg u p) R where
  on := hon
  some_ := by simp [rsaCredsMsg]
  fits := by
    show (rsaCredsMsg u p).length ≤ 4096
    simp only [rsaCredsMsg, List.length_append, List.length_cons]
    omega
  early := by rw [hst]; decide
  part := by
    intro env r s x y _ hy hm hL
    have hlt := proper hm hy
    have ul : (UInt8.ofNat u.length).toNat = u.length := by simp; omega
    have pl : (UInt8.ofNat p.length).toNat = p.length := by simp; omega
    simp only [rsaCredsMsg, List.length_append, List.length_cons] at hlt
    unfold tryRead
    rw [hL.st, hst]
    show onRsaCreds env s x = _
    match x, hm, hlt with
    | [], _, _ => rfl
    | [_], _, _ => rfl
    | u0 :: x1 :: xs, hm, hlt =>
      have h0 : u0 = UInt8.ofNat u.length := by
        unfold rsaCredsMsg at hm
        injection hm with k _
        exact k.symm
      unfold onRsaCreds
      dsimp only
      rw [h0, ul]
      by_cases hl : (x1 :: xs).length ≤ u.length
      · rw [slice_none (i := 1 + u.length) (by simp at hl ⊢; omega)]
        cases slice (UInt8.ofNat u.length :: x1 :: xs) 1 u.length <;> rfl
      · -- the second length is there
        have hx : ∃ z, x1 :: xs = u ++ UInt8.ofNat p.length :: z := by
          unfold rsaCredsMsg at hm
          injection hm with _ k
          have k : u ++ UInt8.ofNat p.length :: p = (x1 :: xs) ++ y := k
          have k1 : (u ++ UInt8.ofNat p.length :: p).take (u.length + 1) =
              ((x1 :: xs) ++ y).take (u.length + 1) := by rw [k]
          rw [List.take_append_of_le_length (l₁ := x1 :: xs) (by omega)] at k1
          refine ⟨(x1 :: xs).drop (u.length + 1), ?_⟩
          conv => lhs; rw [← List.take_append_drop (u.length + 1) (x1 :: xs)]
          rw [← k1, List.take_append, List.take_of_length_le (Nat.le_succ _), Nat.add_sub_cancel_left]
          simp
        obtain ⟨z, hz⟩ := hx
        have e1 : slice (UInt8.ofNat u.length :: x1 :: xs) 1 u.length = some u := by
          rw [hz]
          exact slice_at (a := [UInt8.ofNat u.length]) (b := u) rfl rfl
        have e2 : slice (UInt8.ofNat u.length :: x1 :: xs) (1 + u.length) 1 = some [UInt8.ofNat p.length] := by
          rw [hz]
          have := slice_at (a := UInt8.ofNat u.length :: u) (b := [UInt8.ofNat p.length]) (c := z)
            (i := 1 + u.length) (n := 1) (by simp; omega) rfl
          simpa using this
        rw [e1, e2]
        dsimp only
        rw [pl, slice_none (i := 2 + u.length) (by simp at hlt ⊢; omega)]
  whole := by
    intro env r s hP _ _ hL
    have ul : (UInt8.ofNat u.length).toNat = u.length := by simp; omega
    have pl : (UInt8.ofNat p.length).toNat = p.length := by simp; omega
    obtain ⟨v', h1, h2⟩ := h env s _ hP hL
    refine ⟨_, v', ?_, h1, h2⟩
    unfold tryRead
    rw [hL.st, hst]
    show onRsaCreds env s (rsaCredsMsg u p) = _
    have hz : ∃ x1 xs, u ++ UInt8.ofNat p.length :: p = x1 :: xs := by
      cases u with
      | nil => exact ⟨_, _, rfl⟩
      | cons a as => exact ⟨_, _, rfl⟩
    obtain ⟨x1, xs, hz⟩ := hz
    have e1 : slice (rsaCredsMsg u p) 1 u.length = some u :=
      slice_at (a := [UInt8.ofNat u.length]) (b := u) rfl rfl
    have e2 : slice (rsaCredsMsg u p) (1 + u.length) 1 = some [UInt8.ofNat p.length] := by
      have := slice_at (a := UInt8.ofNat u.length :: u) (b := [UInt8.ofNat p.length]) (c := p)
        (i := 1 + u.length) (n := 1) (by simp; omega) rfl
      simpa [rsaCredsMsg] using this
    have e3 : slice (rsaCredsMsg u p) (2 + u.length) p.length = some p := by
      have := slice_at (a := UInt8.ofNat u.length :: (u ++ [UInt8.ofNat p.length])) (b := p) (c := [])
        (i := 2 + u.length) (n := p.length) (by simp; omega) rfl
      simpa [rsaCredsMsg] using this
    have hl : (rsaCredsMsg u p).length = 2 + u.length + p.length := by
      simp only [rsaCredsMsg, List.length_append, List.length_cons]; omega
    rw [hl]
    have hc : rsaCredsMsg u p = UInt8.ofNat u.length :: x1 :: xs := by
      unfold rsaCredsMsg; rw [hz]
    rw [hc] at e1 e2 e3 ⊢
    unfold onRsaCreds
    dsimp only
    rw [ul, e1, e2]
    dsimp only
    rw [pl, e3]

/-! ### ClientInit -/

/-- what follows ClientInit: the client gets to know the size, the format and the name of the desktop,
and the session begins -/
def Begun (v : View) (shared : UInt8) (fb : Option Fb) (name : Bytes) (v' : View) : Prop :=
  ∃ b f, fb = some b ∧ b.fmt = some f ∧ v' = { v with
    st := .ready, trace := v.trace ++ (if shared = 0 then [.disconnectOthers] else []) ++
      [.send v.chan .serverInit (be16 b.w ++ be16 b.h ++ pixfmtBytes (toldFmt f) ++ be32 name.length ++ name),
        .newClient] }

theorem init_answers {P} {v : View} {shared : UInt8} (hst : v.st = .init) (hon : v.On) :
    Answers table P v [shared] (Begun v shared) where
  on := hon
  some_ := by simp
  fits := by show 1 ≤ 4096; decide
  early := by rw [hst]; decide
  part := by
    intro env r s x y _ hy hm hL
    rw [one_part hm hy rfl]
    exact tryRead_nil s
  whole := by
    intro env r s _ ha _ hL
    obtain ⟨b, f, hb, hf⟩ := ha.shows_
    have hc := hL.closed.trans hon.1
    let s1 : St := if shared = 0 then emit .disconnectOthers s else s
    have hs1 : s1.cl = s.cl ∧ s1.srv = s.srv ∧
        s1.log = s.log ++ (if shared = 0 then [.disconnectOthers] else []) := by
      show (if shared = 0 then emit .disconnectOthers s else s).cl = _ ∧
        (if shared = 0 then emit .disconnectOthers s else s).srv = _ ∧
        (if shared = 0 then emit .disconnectOthers s else s).log = _
      split <;> simp
    obtain ⟨g1, g2, g3⟩ := hs1
    refine ⟨(emit .newClient ((send .serverInit (be16 b.w ++ be16 b.h ++ pixfmtBytes (toldFmt f) ++
      be32 s1.srv.name.length ++ s1.srv.name) (s1.upd fun k => { k with pix := toldFmt f })).upd fun k =>
        { k with knownW := b.w % 65536, knownH := b.h % 65536 })).upd fun k => { k with st := .ready }, _, ?_,
      ⟨b, f, hb, hf, rfl⟩, ?_⟩
    · unfold tryRead
      rw [hL.st, hst]
      show onInit s [shared] = _
      unfold onInit
      show (match sendServerInit s1 with | none => _ | some s => _) = _
      have : sendServerInit s1 = some ((send .serverInit (be16 b.w ++ be16 b.h ++ pixfmtBytes (toldFmt f) ++
          be32 s1.srv.name.length ++ s1.srv.name) (s1.upd fun k => { k with pix := toldFmt f })).upd fun k =>
            { k with knownW := b.w % 65536, knownH := b.h % 65536 }) := by
        unfold sendServerInit
        have hb2 : s1.srv.fb = some b := by rw [g2]; exact hb
        rw [hb2]
        dsimp only
        rw [hf]
        rfl
      rw [this]
      rfl
    · rw [send_open (by show s1.cl.closed = false; rw [g1]; exact hc)]
      refine hL.turn (es := (if shared = 0 then [.disconnectOthers] else []) ++
        [.send s.cl.chan .serverInit (be16 b.w ++ be16 b.h ++ pixfmtBytes (toldFmt f) ++
          be32 s.srv.name.length ++ s.srv.name), .newClient]) rfl ?_ ?_ ?_ ?_ ?_ ?_ ?_
      · show s1.cl.chan = _; rw [g1]; exact hL.chan
      · show s1.cl.username = _; rw [g1]; exact hL.username
      · show s1.cl.rsa256 = _; rw [g1]; exact hL.rsa256
      · exact g2
      · show s1.log ++ [.send s1.cl.chan _ _] ++ [_] = _
        rw [g3, g1, g2]
        simp
      · rw [hL.chan]
        show v.trace ++ _ ++ _ = _
        rw [handshakeOf_append, List.append_assoc]
        congr 1
        split <;> rfl
      · refine ⟨?_, ?_, ?_, ?_, ?_, ?_⟩
        · show s1.cl.closed = _; rw [g1]
        · show s1.cl.closePending = _; rw [g1]
        · show s1.cl.nDefer = _; rw [g1]
        · show s1.cl.freed = _; rw [g1]
        · show s1.cl.buf = _; rw [g1]
        · show s1.cl.idx = _; rw [g1]

end Verif.System
