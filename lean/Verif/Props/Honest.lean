import Verif.Lemmas.Answers
import Verif.Props.Segmentation

/-!
# Clients that follow the protocol get in (C103)
-/

namespace Verif.System

open Verif.Server

variable {table : List Nat}

theorem cstr_plain {t : Bytes} (h : 0 ∉ t) : cstr t = t := by
  unfold Server.cstr
  have h2 : ∀ a ∈ t, (a != 0) = true := by
    intro a ha
    simp only [bne_iff_ne, ne_eq]
    rintro rfl
    exact h ha
  have := List.takeWhile_append_of_pos (l₂ := []) h2
  simpa using this

theorem creds_fit {m : Method} {u p : Bytes} (hf : m.Fit) (hc : m.creds = some (u, p)) : u.length ≤ 255 := by
  cases m with
  | none => cases hc
  | vencrypt => cases hc; exact hf.2.2.1
  | apple => cases hc; have := hf.2.2.1; omega
  | rsa => cases hc; exact hf.2.2.1

/-- a client that has the list of security types in front of it -/
structure Choosing (v : View) (m : Method) : Prop where
  st : v.st = .security
  on : v.On
  chan : v.chan = .plain
  type : UInt8.ofNat m.type ∈ v.types.map UInt8.ofNat

theorem Answers.weaken {P R R' v m} (h : Answers table P v m R) (hR : ∀ fb name v', R fb name v' → R' fb name v') :
    Answers table P v m R' := by
  refine ⟨h.on, h.some_, h.fits, h.early, h.part, ?_⟩
  intro env r s a b c d
  obtain ⟨t, v', h1, h2, h3⟩ := h.whole env r s a b c d
  exact ⟨t, v', h1, hR _ _ _ h2, h3⟩

theorem path_append {P} : ∀ (ms : List Bytes) {ms' : List Bytes} {v R Q}, Path table P ms v R → ms' ≠ [] →
    (∀ fb name v', R fb name v' → Path table P ms' v' Q) → Path table P (ms ++ ms') v Q := by
  intro ms
  induction ms with
  | nil => intro ms' v R Q h; exact h.elim
  | cons m ms ih =>
    intro ms' v R Q h hn hR
    cases ms with
    | nil =>
      cases ms' with
      | nil => exact absurd rfl hn
      | cons m' ms' => exact ⟨R, h, hR⟩
    | cons m2 ms =>
      obtain ⟨R1, h1, h2⟩ := h
      exact ⟨R1, h1, fun fb name v' h' => ih (h2 fb name v' h') hn hR⟩

/-- the credentials reach the application -/
theorem path_creds {m : Method} {P : Env → Prop} {R} {v : View} {u p : Bytes} (hf : m.Fit)
    (hP : ∀ env, P env → m.Works env) (hc : m.creds = some (u, p)) (h : Choosing v m)
    (hR : ∀ v1 : View, v1.On → v1.chan = m.chan → v1.username = v.username →
      v1.trace = v.trace ++ m.answers → ∀ env s x a b, P env → cstr a = u → cstr b = p → Looks v1 x s →
      ∃ v', R s.srv.fb s.srv.name v' ∧ Looks v' x (authenticate env a b s)) :
    Path table P m.msgs v R := by
  cases m with
  | none => cases hc
  | vencrypt u' p' =>
    cases hc
    refine ⟨_, vencrypt_answers h.st h.on h.type, ?_⟩
    rintro - - - rfl
    refine ⟨_, veVersion_answers rfl h.on, ?_⟩
    rintro - - - rfl
    refine ⟨_, veSubtype_answers hP rfl h.on, ?_⟩
    rintro - - - rfl
    refine plain_answers rfl h.on hf.2.2.1 hf.2.2.2 ?_
    intro env s x hp hL
    refine hR _ (?_ : View.On _) ?_ ?_ ?_ env s x u p hp (cstr_plain hf.1) (cstr_plain hf.2.1) hL
    · exact h.on
    · rfl
    · rfl
    simp [Method.answers, h.chan]
  | apple u' p' key enc pub =>
    cases hc
    refine ⟨_, apple_answers (fun env he => (hP env he).1) h.st h.on h.type, ?_⟩
    rintro - - - rfl
    refine appleMsg_answers rfl h.on hf.2.2.2.2.1 hf.2.2.2.2.2 ?_
    intro env s x hp hL
    obtain ⟨h0, fill, fill', h1, h2⟩ := hP env hp
    refine hR _ (?_ : View.On _) ?_ ?_ ?_ env s x _ _ hp ?_ ?_ hL
    · exact h.on
    · exact h.chan
    · rfl
    · simp [Method.answers, h.chan]
    · rw [h2, List.append_assoc, List.cons_append]
      exact field_cstr hf.1 hf.2.2.1
    · rw [h2, List.drop_append, List.drop_of_length_le (by omega), h1]
      exact field_cstr hf.2.1 hf.2.2.2.1
  | rsa long u' p' key bits n e c c' hh hh' =>
    cases hc
    refine ⟨_, rsa_answers (fun env he => (hP env he).1) h.st h.on h.type, ?_⟩
    rintro - - - rfl
    refine ⟨_, rsaPubKey_answers rfl h.on hf.2.2.2.2.1 hf.2.2.2.2.2.1 hf.2.2.2.2.2.2.1
      (fun env he => ⟨(hP env he).2.1, (hP env he).2.2.1⟩), ?_⟩
    rintro - - - rfl
    refine ⟨_, rsaChallenge_answers rfl h.on hf.2.2.2.2.2.2.2.1 (fun env he => (hP env he).2.2.2.1) hf.2.2.2.2.2.2.2.2.1, ?_⟩
    rintro - - - rfl
    refine ⟨_, rsaHash_answers rfl h.on hf.2.2.2.2.2.2.2.2.2 (fun env he => (hP env he).2.2.2.2), ?_⟩
    rintro - - - rfl
    refine rsaCreds_answers rfl h.on hf.2.2.1 hf.2.2.2.1 ?_
    intro env s x hp hL
    refine hR _ (?_ : View.On _) ?_ ?_ ?_ env s x u p hp (cstr_plain hf.1) (cstr_plain hf.2.1) hL
    · exact h.on
    · rfl
    · rfl
    simp [Method.answers, h.chan]

/-- a client that may send ClientInit -/
structure Admitted (m : Method) (v v' : View) : Prop where
  st : v'.st = .init
  on : v'.On
  chan : v'.chan = m.chan
  username : v'.username = (m.creds.map Prod.fst).getD v.username
  trace : v'.trace = v.trace ++ m.answers ++ m.asked true ++ [.send m.chan .secOk [0, 0, 0, 0]]

theorem path_ok {m : Method} {P : Env → Prop} {v : View} (hf : m.Fit)
    (hP : ∀ env, P env → m.Works env ∧ m.judged true env) (h : Choosing v m) :
    Path table P m.msgs v fun _ _ v' => Admitted m v v' := by
  cases hc : m.creds with
  | none =>
    cases m with
    | none =>
      refine (none_answers h.st h.on h.type).weaken ?_
      rintro - - - rfl
      exact ⟨rfl, h.on, h.chan, rfl, by simp [Method.answers, Method.asked, Method.creds, Method.chan, h.chan]⟩
    | vencrypt => cases hc
    | apple => cases hc
    | rsa => cases hc
  | some up =>
    obtain ⟨u, p⟩ := up
    refine path_creds hf (fun env he => (hP env he).1) hc h ?_
    intro v1 k1 k2 k3 k4 env s x a b he ha hb hL
    refine ⟨welcome v1 u p, ?_, authenticate_ok hL k1 ha hb (creds_fit hf hc) ((hP env he).2 u p hc)⟩
    refine ⟨rfl, k1, k2, by rw [hc]; rfl, ?_⟩
    show v1.trace ++ _ = _
    rw [k4, k2]
    simp [Method.asked, hc]

theorem path_no {m : Method} {P : Env → Prop} {v : View} {u p : Bytes} (hf : m.Fit) (hc : m.creds = some (u, p))
    (hP : ∀ env, P env → m.Works env ∧ m.judged false env ∧ env.lastWrite ≠ .broken) (h : Choosing v m) :
    Path table P m.msgs v fun _ _ v' => v'.st = .error ∧ v'.username = v.username ∧
      v'.trace = v.trace ++ m.answers ++ m.asked false ++ [.send m.chan .secFail refusal] ∧
      (v'.closed = true ∧ v'.defer = 1 ∨ v'.pending = true) := by
  refine path_creds hf (fun env he => (hP env he).1) hc h ?_
  intro v1 k1 k2 k3 k4 env s x a b he ha hb hL
  obtain ⟨v', ⟨g1, g2, g3, g4⟩, g5⟩ := authenticate_no hL k1 ha hb ((hP env he).2.1 u p hc) (hP env he).2.2
  refine ⟨v', ⟨g1, g2.trans k3, ?_, g4⟩, g5⟩
  rw [g3, k4, k2]
  simp [Method.asked, hc]

/-- what there is to know of a client that has just connected -/
def newView : View :=
  { st := .version, chan := .plain, username := [], rsa256 := false, types := [],
    trace := [.send .plain .version versionMsg], closed := false, pending := false, defer := 0 }

theorem connect_is {s0 s : Sys} {ops : List SysOp} (h0 : s0.peers = []) (e0 : sysRun table ops s0 = .ok s)
    (hs : Shows s.srv.fb) (ha : s.srv.requireAuth = true → s.srv.hasAuthFn = true) :
    ∃ t, sysStep table .connect s = .ok t ∧ Is s.peers.length newView [] t := by
  have e : sysStep table .connect s = .ok { s with peers := s.peers ++ [Peer.of (start s.srv)] } := by
    unfold sysStep
    obtain ⟨b, f, h1, -⟩ := hs
    dsimp only
    rw [h1]
    rfl
  refine ⟨_, e, based_step (based_run (based_nil h0) e0) e, ⟨hs, ha⟩, Peer.of (start s.srv), ?_, ?_, ?_⟩
  · show (s.peers ++ [_])[s.peers.length]? = _
    simp
  · exact ⟨rfl, rfl, rfl, rfl, fun h => absurd rfl h, rfl, rfl, rfl, rfl, rfl, rfl, rfl⟩
  · exact ⟨rfl, rfl, rfl, rfl, rfl, rfl, rfl, rfl, rfl, rfl, rfl, rfl, rfl, rfl⟩

/-- a client and what it saw of the handshake -/
def Met (s : Sys) (i : Nat) (p : Peer) (l : List Eff) : Prop := s.peers[i]? = some p ∧ handshakeOf p.log = l

/-- the version is exchanged -/
theorem hello_run {s0 s : Sys} {ops0 ops1 : List SysOp} {m : Method} (h0 : s0.peers = [])
    (e0 : sysRun table ops0 s0 = .ok s) (hs : Shows s.srv.fb)
    (ha : s.srv.requireAuth = true → s.srv.hasAuthFn = true)
    (h1 : Says s.peers.length (fun _ => True) hello ops1)
    (ht : ∀ t p b, sysRun table (.connect :: ops1) s = .ok t → t.peers[s.peers.length]? = some p →
      .send .plain .secTypes b ∈ p.log → UInt8.ofNat m.type ∈ b.tail) :
    (∃ t l v, sysRun table (.connect :: ops1) s = .ok t ∧ Is s.peers.length v [] t ∧ Choosing v m ∧
        v.username = [] ∧
        v.trace = [.send .plain .version versionMsg, .send .plain .secTypes (typesMsg l)]) ∨
      Spoiled table s.peers.length (.connect :: ops1) s := by
  obtain ⟨t, ht0, hi⟩ := connect_is h0 e0 hs ha
  rcases says_run (version_answers (table := table) (P := fun _ => True) (v := newView) rfl ⟨rfl, rfl, rfl⟩) h1
    rfl hi with ⟨s1, v1, e1, ⟨l, hl, rfl⟩, hi1⟩ | h
  · have er : sysRun table (.connect :: ops1) s = .ok s1 := Outcome.bind_eq_ok.2 ⟨t, ht0, e1⟩
    refine .inl ⟨s1, l, _, er, hi1, ⟨rfl, ⟨rfl, rfl, rfl⟩, rfl, ?_⟩, rfl, rfl⟩
    obtain ⟨p, hp, hL, -⟩ := hi1.peer
    have hm : .send .plain .secTypes (typesMsg l) ∈ handshakeOf p.log := by
      have := hL.trace
      rw [show handshakeOf p.log = _ from this]
      simp [newView]
    exact ht s1 p _ er hp (List.mem_filter.1 hm).1
  · exact .inr (spoiled_cons ht0 h)

/-- C103: Whoever follows the protocol gets in.  A client connects, sends its version, chooses one of the
security types it is offered, shows credentials the application approves of, and sends ClientInit, waiting
for the answer each time; it does not matter into which pieces the network cuts its messages, nor what
other clients and the application do in the meantime.  Then the client sees exactly the messages of the
protocol in their order, on the right channels, and at the end its session begins: it learns the size, the
format and the name of the desktop that are current then, the application is told about the new client and
by which name it authenticated, and others were disconnected only if it asked for that.  The only
alternative is that something done by others went wrong. -/
theorem c103_enters {s0 s : Sys} {ops0 ops1 ops2 : List SysOp} {m : Method} {shared : UInt8}
    (h0 : s0.peers = []) (e0 : sysRun table ops0 s0 = .ok s) (hs : Shows s.srv.fb)
    (ha : s.srv.requireAuth = true → s.srv.hasAuthFn = true) (hf : m.Fit)
    (h1 : Says s.peers.length (fun _ => True) hello ops1)
    (ht : ∀ t p b, sysRun table (.connect :: ops1) s = .ok t → t.peers[s.peers.length]? = some p →
      .send .plain .secTypes b ∈ p.log → UInt8.ofNat m.type ∈ b.tail)
    (h2 : Talks s.peers.length (fun env => m.Works env ∧ m.judged true env) (m.msgs ++ [[shared]]) ops2) :
    (∃ t p l b f, sysRun table (.connect :: ops1 ++ ops2) s = .ok t ∧ t.srv.fb = some b ∧ b.fmt = some f ∧
        Met t s.peers.length p ([.send .plain .version versionMsg, .send .plain .secTypes (typesMsg l)] ++
          m.answers ++ m.asked true ++ [.send m.chan .secOk [0, 0, 0, 0]] ++
          (if shared = 0 then [.disconnectOthers] else []) ++
          [.send m.chan .serverInit (be16 b.w ++ be16 b.h ++ pixfmtBytes (toldFmt f) ++
            be32 t.srv.name.length ++ t.srv.name), .newClient]) ∧
        p.cl.username = (m.creds.map Prod.fst).getD [] ∧ Calm (p.at t.srv)) ∨
      Spoiled table s.peers.length (.connect :: ops1 ++ ops2) s := by
  rcases hello_run h0 e0 hs ha h1 ht with ⟨s1, l, v, er, hi, hch, hun, htr⟩ | h
  · have hpath : Path table (fun env => m.Works env ∧ m.judged true env) (m.msgs ++ [[shared]]) v
        (fun fb name v' => ∃ w, Admitted m v w ∧ Begun w shared fb name v') := by
      refine path_append _ (path_ok hf (fun _ he => he) hch) (by simp) ?_
      intro fb name w hw
      exact (init_answers hw.st hw.on).weaken fun _ _ _ h => ⟨w, hw, h⟩
    rcases talks_run h2 hpath hi with ⟨t, v', e2, ⟨w, hw, b, f, hb, hfm, rfl⟩, hi2⟩ | h
    · left
      obtain ⟨p, hp, hL, hfr⟩ := hi2.peer
      refine ⟨t, p, l, b, f, sysRun_append er e2, hb, hfm, ⟨hp, ?_⟩, ?_, ?_⟩
      · have := hL.trace
        rw [show handshakeOf p.log = _ from this]
        dsimp only
        rw [hw.trace, htr, hw.chan]
      · have := hL.username
        rw [show p.cl.username = _ from this]
        dsimp only
        rw [hw.username, hun]
      · exact ⟨hL.st, hL.closed.trans hw.on.1, hL.pending.trans hw.on.2.1, hL.defer.trans hw.on.2.2, hL.alive,
          hfr.blocked, hfr.mustBlock, hfr.cut, hL.buf, hL.idx⟩
    · exact .inr (spoiled_right er h)
  · exact .inr (spoiled_left h)

/-- C103: And who shows credentials the application does not approve of is told so and does not get in: the
reason is sent on the right channel, the session does not begin, the client has no name, and the connection
is closed, at once or as soon as the reason has been sent. -/
theorem c103_refused {s0 s : Sys} {ops0 ops1 ops2 : List SysOp} {m : Method} {u pw : Bytes}
    (h0 : s0.peers = []) (e0 : sysRun table ops0 s0 = .ok s) (hs : Shows s.srv.fb)
    (ha : s.srv.requireAuth = true → s.srv.hasAuthFn = true) (hf : m.Fit) (hc : m.creds = some (u, pw))
    (h1 : Says s.peers.length (fun _ => True) hello ops1)
    (ht : ∀ t p b, sysRun table (.connect :: ops1) s = .ok t → t.peers[s.peers.length]? = some p →
      .send .plain .secTypes b ∈ p.log → UInt8.ofNat m.type ∈ b.tail)
    (h2 : Talks s.peers.length (fun env => m.Works env ∧ m.judged false env ∧ env.lastWrite ≠ .broken)
      m.msgs ops2) :
    (∃ t p l, sysRun table (.connect :: ops1 ++ ops2) s = .ok t ∧
        Met t s.peers.length p ([.send .plain .version versionMsg, .send .plain .secTypes (typesMsg l)] ++
          m.answers ++ [.auth u pw false, .send m.chan .secFail refusal]) ∧
        authUsername p.cl = none ∧
        (p.cl.closed = true ∧ p.cl.nDefer = 1 ∨ p.cl.closePending = true)) ∨
      Spoiled table s.peers.length (.connect :: ops1 ++ ops2) s := by
  rcases hello_run h0 e0 hs ha h1 ht with ⟨s1, l, v, er, hi, hch, hun, htr⟩ | h
  · rcases talks_run h2 (path_no hf hc (fun _ he => he) hch) hi with ⟨t, v', e2, ⟨-, g1, g2, g3⟩, hi2⟩ | h
    · left
      obtain ⟨p, hp, hL, -⟩ := hi2.peer
      refine ⟨t, p, l, sysRun_append er e2, ⟨hp, ?_⟩, ?_, ?_⟩
      · have := hL.trace
        rw [show handshakeOf p.log = _ from this, g2, htr]
        simp [Method.asked, hc]
      · unfold authUsername
        have := hL.username
        rw [show p.cl.username = _ from this, g1, hun]
        rfl
      · have k1 : p.cl.closed = v'.closed := hL.closed
        have k2 : p.cl.nDefer = v'.defer := hL.defer
        have k3 : p.cl.closePending = v'.pending := hL.pending
        rw [k1, k2, k3]
        exact g3
    · exact .inr (spoiled_right er h)
  · exact .inr (spoiled_left h)

/-! ### Examples: all four ways, in pieces, while others connect, damage and set the clipboard -/

def settings : List SysOp := [.enableAuth true false true, .tlsCreds]

/-- the pieces in which client 0 is heard -/
def piece (b : Bytes) : SysOp := .client 0 (.readable (.data b)) demoEnv []

def helloOps : List SysOp :=
  [piece (hello.take 5), .connect, .damage [⟨0, 0, 1, 1⟩] (fun _ => (demoEnv, [])), piece (hello.drop 5)]

theorem helloOps_says : Says 0 (fun _ => True) hello helloOps := by
  have h : hello = hello.take 5 ++ hello.drop 5 := (List.take_append_drop 5 hello).symm
  rw [h]
  exact .more [] (by decide +kernel) trivial (.other (o := .connect) trivial (.other
    (o := .damage [⟨0, 0, 1, 1⟩] fun _ => (demoEnv, [])) trivial (.last [] (by decide +kernel) trivial)))

/-- credentials in VeNCrypt, in two pieces, and ClientInit -/
def veOps : List SysOp :=
  [piece [19], says 1 hello, piece [0], piece [2], .sendCutText some [104, 105], piece [0, 0, 1, 6],
    piece [0, 0, 0, 1, 0, 0], piece [0, 1, 117, 112], .setName [65], piece [0]]

theorem says_piece {P b} (hn : b ≠ []) (hP : P demoEnv) : Says 0 P b [piece b] := .last [] hn hP
theorem says_pieces {P b c ops} (hn : b ≠ []) (hP : P demoEnv) (h : Says 0 P c ops) :
    Says 0 P (b ++ c) (piece b :: ops) := .more [] hn hP h
theorem says_other {P b o ops} (ho : Bystander 0 o) (h : Says 0 P b ops) : Says 0 P b (o :: ops) := .other ho h

def demoVe : Method := .vencrypt [117] [112]

theorem demoVe_works : demoVe.Works demoEnv ∧ demoVe.judged true demoEnv :=
  ⟨rfl, fun _ _ h => by cases h; decide⟩

theorem veOps_talks : Talks 0 (fun env => demoVe.Works env ∧ demoVe.judged true env)
    (demoVe.msgs ++ [[0]]) veOps :=
  have w := demoVe_works
  .cons (ops := [piece [19]]) (says_piece (by decide) w)
    (.cons (ops := [says 1 hello, piece [0], piece [2]])
      (says_other (.inl (by decide)) (says_pieces (b := [0]) (c := [2]) (by decide) w (says_piece (by decide) w)))
      (.cons (ops := [.sendCutText some [104, 105], piece [0, 0, 1, 6]])
        (says_other trivial (says_piece (by decide) w))
        (.cons (ops := [piece [0, 0, 0, 1, 0, 0], piece [0, 1, 117, 112]])
          (says_pieces (b := [0, 0, 0, 1, 0, 0]) (c := [0, 1, 117, 112]) (by decide) w (says_piece (by decide) w))
          (.cons (ops := [.setName [65], piece [0]]) (says_other trivial (says_piece (by decide) w)) .nil))))

/-- the security types client 0 is offered, as a test -/
def offers (ops : List SysOp) (t : UInt8) : Bool :=
  match sysRun [0, 1, 2] (settings ++ .connect :: ops) demo with
  | .ok s => match s.peers[0]? with
    | some p => p.log.all fun e => match e with
      | .send .plain .secTypes b => b.tail.contains t
      | _ => true
    | none => false
  | _ => false

/-- the hypotheses of `c103_enters` hold here, and the run takes place: the first client is in, and the
other, which it did not want to share with, is out -/
example : (∃ s, sysRun [0, 1, 2] settings demo = .ok s ∧ s.peers = [] ∧ Shows s.srv.fb ∧
      (s.srv.requireAuth = true → s.srv.hasAuthFn = true) ∧
      ∀ t p b, sysRun [0, 1, 2] (.connect :: helloOps) s = .ok t → t.peers[0]? = some p →
        .send .plain .secTypes b ∈ p.log → UInt8.ofNat demoVe.type ∈ b.tail) ∧ demoVe.Fit ∧
    Says 0 (fun _ => True) hello helloOps ∧
    Talks 0 (fun env => demoVe.Works env ∧ demoVe.judged true env) (demoVe.msgs ++ [[0]]) veOps ∧
    (∃ s p, sysRun [0, 1, 2] (settings ++ .connect :: helloOps ++ veOps) demo = .ok s ∧ s.peers[0]? = some p ∧
      decide (.newClient ∈ p.log ∧ p.cl.username = [117] ∧ p.cl.closed = false ∧
        s.srv.name = [65]) = true) ∧
    (∃ s p, sysRun [0, 1, 2] (settings ++ .connect :: helloOps ++ veOps) demo = .ok s ∧ s.peers[1]? = some p ∧
      decide (p.cl.freed = true) = true) := by
  refine ⟨⟨_, rfl, rfl, ⟨_, _, rfl, rfl⟩, fun _ => rfl, ?_⟩, ⟨by decide, by decide, by decide, by decide⟩,
    helloOps_says, veOps_talks,
    demo_witness _ _ (fun sv p => decide (.newClient ∈ p.log ∧ p.cl.username = [117] ∧ p.cl.closed = false ∧
        sv.name = [65])) (by decide +kernel),
    demo_witness _ _ (fun _ p => decide (p.cl.freed = true)) (by decide +kernel)⟩
  intro t p b e hp hb
  have h : offers helloOps 19 = true := by decide +kernel
  unfold offers at h
  rw [show sysRun [0, 1, 2] (settings ++ .connect :: helloOps) demo = .ok t from e] at h
  dsimp only at h
  rw [hp] at h
  have := List.all_eq_true.1 h _ hb
  exact List.contains_iff_mem.1 this

/-- the three other ways -/
example :
    Method.Fit (.apple [117] [112] [1] (List.replicate 128 7) (List.replicate 256 8)) ∧
    (Method.apple [117] [112] [1] (List.replicate 128 7) (List.replicate 256 8)).Works
      { demoEnv with appleDecrypt := fun _ _ => 117 :: 0 :: List.replicate 62 0 ++ 112 :: 0 :: List.replicate 62 0 } ∧
    Method.Fit (.rsa false [117] [112] [2] 16 [1, 2] [3, 4] [] [5] (List.replicate 20 9) (List.replicate 20 8)) ∧
    (Method.rsa false [117] [112] [2] 16 [1, 2] [3, 4] [] [5] (List.replicate 20 9) (List.replicate 20 8)).Works
      demoEnv ∧
    Method.Fit .none ∧ Method.Works .none demoEnv := by
  refine ⟨⟨by decide, by decide, by decide, by decide, List.length_replicate .., List.length_replicate ..⟩,
    ⟨rfl, List.replicate 62 0, List.replicate 62 0, by decide, rfl⟩,
    ⟨by decide, by decide, by decide, by decide, by decide, by decide, by decide, by decide, by decide, by decide⟩,
    ⟨rfl, by decide, rfl, ⟨[5], rfl, by decide⟩, by decide⟩, trivial, trivial⟩

/-- an RSA-AES handshake, and one with a wrong password -/
example :
    (∃ s p, sysRun [0, 1, 2] (settings ++ [.connect, piece hello, piece [5], piece (rsaKeyMsg 16 [1, 2] [3, 4]),
        piece (rsaChallengeMsg [5]), piece (List.replicate 20 8), piece (rsaCredsMsg [117] [112]), piece [1]]) demo =
        .ok s ∧ s.peers[0]? = some p ∧ decide (.newClient ∈ p.log ∧ p.cl.chan = .rsa) = true) ∧
    (∃ s p, sysRun [0, 1, 2] (settings ++ [.connect, piece hello, piece [5], piece (rsaKeyMsg 16 [1, 2] [3, 4]),
        piece (rsaChallengeMsg [5]), piece (List.replicate 20 8), piece (rsaCredsMsg [117] [113])]) demo =
        .ok s ∧ s.peers[0]? = some p ∧ decide (.newClient ∉ p.log ∧ .send .rsa .secFail refusal ∈ p.log ∧
          p.cl.closed = true ∧ p.cl.nDefer = 1) = true) :=
  ⟨demo_witness _ _ (fun _ p => decide (.newClient ∈ p.log ∧ p.cl.chan = .rsa)) (by decide +kernel),
    demo_witness _ _ (fun _ p => decide (.newClient ∉ p.log ∧ .send .rsa .secFail refusal ∈ p.log ∧
      p.cl.closed = true ∧ p.cl.nDefer = 1)) (by decide +kernel)⟩

end Verif.System
