import Verif.Lemmas.Isolation
import Verif.Lemmas.Exclusive
import Verif.Lemmas.Peer
import Verif.Lemmas.Access
import Verif.Spec.Honest

/-!
# One client introduces itself while others go on
-/

namespace Verif.System

open Verif.Server

variable {table : List Nat}

/-! ## The server's state -/

/-- the settings a client in the handshake depends on -/
structure Kept (a b : Srv) : Prop where
  fb : b.fb = a.fb
  name : b.name = a.name
  requireAuth : b.requireAuth = a.requireAuth
  hasAuthFn : b.hasAuthFn = a.hasAuthFn
  types : a.secTypes ≠ [] → b.secTypes = a.secTypes

theorem Kept.refl (a : Srv) : Kept a a := ⟨rfl, rfl, rfl, rfl, fun _ => rfl⟩

theorem Kept.trans {a b c : Srv} (h : Kept a b) (h' : Kept b c) : Kept a c :=
  ⟨h'.fb.trans h.fb, h'.name.trans h.name, h'.requireAuth.trans h.requireAuth,
    h'.hasAuthFn.trans h.hasAuthFn, fun hn => by
      rw [h'.types (by rw [h.types hn]; exact hn), h.types hn]⟩

theorem Kept.of_near {a b : Srv} (h : Near a b) : Kept a b := by
  obtain ⟨d, rfl⟩ := h
  exact ⟨rfl, rfl, rfl, rfl, fun _ => rfl⟩

theorem Kept.of_eq {a b : Srv} (h : b = a) : Kept a b := h ▸ .refl _

theorem initSecTypes_kept {a b : Srv} (e : initSecTypes a = .ok b) : Kept a b := by
  obtain ⟨l, rfl⟩ := initSecTypes_frame e
  refine ⟨rfl, rfl, rfl, rfl, fun hn => ?_⟩
  unfold initSecTypes at e
  rw [if_pos hn] at e
  have := Outcome.ok.inj e
  exact (congrArg Srv.secTypes this).symm

theorem micro_kept {lp : Bool} {s s' : St} (h : MicroW false lp table s s') : Kept s.srv s'.srv := by
  cases h with
  | hs env r a h h2 =>
    rcases (hs_T h h2).srv with h3 | ⟨-, h3⟩
    · exact .of_eq h3
    · exact initSecTypes_kept h3
  | fenceOut _ _ hr => exact .of_eq (by simp)
  | pfFire hr => exact .of_eq (by simp)
  | ext hr =>
    obtain ⟨a1, -⟩ := sendExtSupport_frame (s.upd fun k => { k with extNotified := true })
    exact .of_eq a1
  | cursor env hr => exact .of_eq (sendCursor_frame env s).1
  | led hr => exact .of_eq (sendLed_frame s).1
  | frame env fb hr h => exact .of_near (stageFrame_frame h).1
  | sendFrame f hr => exact .of_eq (sendFrame_frame f s).1
  | simple env a hr h2 => exact .of_eq h2.frame.1
  | fbReq inc r hr => exact .of_eq (fbReqPre_frame inc r s).1
  | contOff hr => exact .of_eq (by simp)
  | fenceReq flags payload hr hp h2 => exact .of_eq (fenceSeen_frame h2).1
  | bigCut env c d hr hc h h2 => exact .of_eq (bigCutText_frame h2).1
  | remoteClosed => exact .of_eq (remoteClosed_Q s).srv
  | flushed => exact .of_eq (streamClose_Q s).srv
  | free => exact .of_near (freeClient_near s)
  | idle => exact .of_near (freeClient_near (s.upd fun k => { k with nDefer := k.nDefer - 1 }))
  | display _ hw => cases hw
  | setCursor hw => cases hw
  | _ => exact .refl _

theorem step_kept {o : Server.Op} {env : Env} {net : List Read} {s t : St} (hb : Base s)
    (ho : Server.Op.calm o = true) (e : step table o env net s = .ok t) : Kept s.srv t.srv :=
  (step_invW (wd := false) (I := fun u => Kept s.srv u.srv) (fun _ _ hm _ h => h.trans (micro_kept hm))
    (.inr ho) hb (.refl _) e).2

theorem each_kept {f : Nat → St → Outcome St}
    (hf : ∀ j s t, Base s → f j s = .ok t → Kept s.srv t.srv) :
    ∀ (ps : List Peer) (k : Nat) (srv srv' : Srv) (ps' : List Peer),
    (∀ p ∈ ps, ∀ srv, Base (p.at srv)) → each f k ps srv = .ok (srv', ps') → Kept srv srv' := by
  intro ps
  induction ps with
  | nil => intro k srv srv' ps' _ e; cases e; exact .refl _
  | cons p ps ih =>
    intro k srv srv' ps' hb e
    obtain ⟨t, ht, e⟩ := Outcome.bind_eq_ok.1 e
    obtain ⟨⟨srv2, ps2⟩, he, e⟩ := Outcome.bind_eq_ok.1 e
    cases e
    exact (hf _ _ _ (hb p (.head _) srv) ht).trans
      (ih _ _ _ _ (fun q hq => hb q (.tail _ hq)) he)

/-- a loop whose body never fails does not fail -/
theorem each_total {f : Nat → St → Outcome St} (hf : ∀ j s, ∃ t, f j s = .ok t) :
    ∀ (ps : List Peer) (k : Nat) (srv : Srv), ∃ srv' ps', each f k ps srv = .ok (srv', ps') := by
  intro ps
  induction ps with
  | nil => intro k srv; exact ⟨_, _, rfl⟩
  | cons p ps ih =>
    intro k srv
    obtain ⟨t, ht⟩ := hf k (p.at srv)
    obtain ⟨srv', ps', h⟩ := ih (k + 1) t.srv
    exact ⟨srv', Peer.of t :: ps', Outcome.bind_eq_ok.2 ⟨t, ht, Outcome.bind_eq_ok.2 ⟨_, h, rfl⟩⟩⟩

/-! ## What happens around a client -/

/-- what the client notices of others -/
structure Aside (p p' : Peer) : Prop where
  cl : ∃ d v, p'.cl = { p.cl with damage := d, pendingLed := v }
  log : ∃ es, p'.log = p.log ++ es ∧ handshakeOf es = [] ∧ .disconnectOthers ∉ es

theorem Aside.refl (p : Peer) : Aside p p := ⟨⟨_, _, rfl⟩, ⟨[], by simp, rfl, by simp⟩⟩

/-- a connection that nothing closes -/
structure Open (c : Client) : Prop where
  closed : c.closed = false
  pending : c.closePending = false
  defer : c.nDefer = 0
  alive : c.freed = false

theorem processFb_idle {env r} {s : St} (h : Fresh s.cl) : processFb env r s = .ok s := by
  unfold processFb
  split
  · rfl
  · split
    · rfl
    · rw [h.isUpdating, h.cont, h.nPending]; rfl

theorem quiet_step {o : Server.Op} {env net} {p : Peer} {srv : Srv} {t : St} (hb : Base (p.at srv))
    (hst : p.cl.st ≠ .ready) (ho : Open p.cl) (h1 : ∀ rd, o ≠ .readable rd) (h2 : o ≠ .appClose)
    (e : step table o env net (p.at srv) = .ok t) : Aside p (Peer.of t) := by
  have hf : Fresh p.cl := hb hst
  have stay : ∀ {s : St}, s.cl = p.cl → s.log = p.log → Aside p (Peer.of s) := by
    intro s k1 k2
    refine ⟨⟨p.cl.damage, p.cl.pendingLed, ?_⟩, [], ?_, rfl, by simp⟩
    · show s.cl = _; rw [k1]
    · show s.log = _; rw [k2]; simp
  unfold step event at e
  rw [if_neg (by show ¬ p.cl.freed = true; rw [ho.alive]; simp)] at e
  split at e
  · exact absurd rfl (h1 _)
  · rw [if_neg (by show ¬ p.cl.writing = true; rw [hf.writing]; simp)] at e
    cases e; exact stay rfl rfl
  · rw [if_neg (by show ¬ p.cl.encoding = true; rw [hf.encoding]; simp)] at e
    cases e; exact stay rfl rfl
  · rw [if_neg (by show ¬ p.cl.closePending = true; rw [ho.pending]; simp)] at e
    cases e; exact stay rfl rfl
  · rw [if_pos (by show p.cl.nDefer = 0; rw [ho.defer])] at e
    cases e; exact stay rfl rfl
  · exact absurd rfl h2
  · rename_i r
    rw [if_neg (by show ¬ p.cl.closed = true; rw [ho.closed]; simp), processFb_idle] at e
    · cases e
      refine ⟨⟨p.cl.damage ++ r, p.cl.pendingLed, rfl⟩, [.damaged r], rfl, rfl, by simp⟩
    · obtain ⟨a1, a2, a3, a4, a5, a6, a7, a8, a9, b1, b2, b3, b4, b5⟩ := hf
      exact ⟨a1, a2, a3, a4, a5, a6, a7, a8, a9, b1, b2, b3, b4, b5⟩
  · cases e; exact stay rfl rfl
  · rw [processFb_idle] at e
    · cases e; exact stay rfl rfl
    · exact hf
  · rename_i v
    rw [processFb_idle] at e
    · cases e
      refine ⟨⟨p.cl.damage, v, rfl⟩, [.ledSet v], rfl, rfl, by simp⟩
    · obtain ⟨a1, a2, a3, a4, a5, a6, a7, a8, a9, b1, b2, b3, b4, b5⟩ := hf
      exact ⟨a1, a2, a3, a4, a5, a6, a7, a8, a9, b1, b2, b3, b4, b5⟩

theorem isExcl_iff {e : Eff} : isExcl e = true ↔ ∃ ch pl, e = .msg .init ch [0] pl := by
  constructor
  · intro h
    unfold isExcl at h
    split at h
    · exact ⟨_, _, rfl⟩
    · cases h
  · rintro ⟨ch, pl, rfl⟩; rfl

theorem own_calm {o : Server.Op} (h : Op.own o = true) : Server.Op.calm o = true := by
  cases o <;> first | rfl | cases h

/-- the settings under which a handshake can succeed -/
structure Able (srv : Srv) : Prop where
  shows_ : Shows srv.fb
  auth : srv.requireAuth = true → srv.hasAuthFn = true

theorem Able.kept {a b : Srv} (h : Able a) (hk : Kept a b) : Able b :=
  ⟨by rw [hk.fb]; exact h.shows_, by rw [hk.requireAuth, hk.hasAuthFn]; exact h.auth⟩

/-- what others do does not disturb a client in the handshake -/
theorem bystander_step {s s' : Sys} {o : SysOp} {i : Nat} {p : Peer} (hb : Based s)
    (hp : s.peers[i]? = some p) (hst : p.cl.st ≠ .ready) (ho : Open p.cl) (hB : Bystander i o)
    (ha : Able s.srv) (e : sysStep table o s = .ok s')
    (hx : ∀ j, j ≠ i → exclAsked s' j ≤ exclAsked s j) :
    (∃ p', s'.peers[i]? = some p' ∧ Aside p p') ∧ Able s'.srv ∧
      (s.srv.secTypes ≠ [] → s'.srv.secTypes = s.srv.secTypes) := by
  have hbp := hb p (List.mem_of_getElem? hp)
  have kick : ∀ {r w srv srv' ps'}, each (kick table r w) 0 s.peers srv = .ok (srv', ps') →
      (∃ p', ps'[i]? = some p' ∧ Aside p p') ∧ Kept srv srv' := by
    intro r w srv srv' ps' he
    refine ⟨?_, each_kept (fun j u t hbu h => step_kept hbu rfl h) _ _ _ _ _ hb he⟩
    obtain ⟨h1, h2⟩ := each_get _ _ _ _ _ he
    have hi : i < ps'.length := by rw [h1]; exact (List.getElem?_eq_some_iff.1 hp).1
    obtain ⟨sv, t, h3, h4⟩ := h2 i p _ hp (List.getElem?_eq_getElem hi)
    refine ⟨_, List.getElem?_eq_getElem hi, ?_⟩
    rw [h4]
    exact quiet_step (hbp sv) hst ho (fun _ h => by cases h) (fun h => by cases h) h3
  unfold sysStep at e
  split at e
  · rcases ite_cases e with ⟨-, e⟩ | ⟨-, e⟩ <;> cases e
    · exact ⟨⟨p, hp, .refl _⟩, ha, fun _ => rfl⟩
    · exact ⟨⟨p, by rw [List.getElem?_append_left (List.getElem?_eq_some_iff.1 hp).1]; exact hp, .refl _⟩,
        ha, fun _ => rfl⟩
  · rename_i k o env net
    unfold clientStep at e
    split at e
    · cases e; exact ⟨⟨p, hp, .refl _⟩, ha, fun _ => rfl⟩
    · rename_i q hq
      rcases ite_cases e with ⟨-, e⟩ | ⟨hown, e⟩
      · cases e; exact ⟨⟨p, hp, .refl _⟩, ha, fun _ => rfl⟩
      have hown : Op.own o = true := by simpa using hown
      obtain ⟨t, ht, e⟩ := Outcome.bind_eq_ok.1 e
      have hk : k < s.peers.length := (List.getElem?_eq_some_iff.1 hq).1
      have hbq := hb q (List.mem_of_getElem? hq) s.srv
      have hkept : Kept s.srv t.srv := step_kept hbq (own_calm hown) ht
      dsimp only at e
      by_cases hik : k = i
      · subst hik
        rw [hp] at hq
        cases hq
        have hq2 : ∀ rd, o ≠ .readable rd := by
          rintro rd rfl; exact hB.elim (fun h => h rfl) id
        have hq3 : o ≠ .appClose := by
          rintro rfl; exact hB.elim (fun h => h rfl) id
        have hA := quiet_step (hbp _) hst ho hq2 hq3 ht
        obtain ⟨es, h1, -, h2⟩ := hA.log
        have h1 : t.log = p.log ++ es := h1
        rw [h1, List.drop_left, if_neg (by simpa using h2)] at e
        cases e
        exact ⟨⟨_, by rw [List.getElem?_set_self hk], hA⟩, ha.kept hkept, hkept.types⟩
      · obtain ⟨es, h1, h2⟩ := step_excl hbq ht
        have h1 : t.log = q.log ++ es := h1
        have hne : .disconnectOthers ∉ es := by
          intro hm
          obtain ⟨ch, pl, hm2⟩ := h2.1 hm
          rw [h1, List.drop_left, if_pos (by simpa using hm)] at e
          obtain ⟨⟨srv2, ps2⟩, he, e⟩ := Outcome.bind_eq_ok.1 e
          cases e
          have hg := each_get _ _ _ _ _ he
          have hk2 : k < ps2.length := by rw [hg.1, List.length_set]; exact hk
          obtain ⟨sv, u, k1, k2⟩ := hg.2 k (Peer.of t) ps2[k] (by rw [List.getElem?_set_self hk])
            (List.getElem?_eq_getElem hk2)
          unfold closeOther at k1
          rw [if_pos (by simp)] at k1
          cases k1
          have h3 := hx k hik
          unfold exclAsked at h3
          dsimp only at h3
          rw [hq, List.getElem?_eq_getElem hk2, k2] at h3
          have h3 : t.log.countP isExcl ≤ q.log.countP isExcl := h3
          rw [h1, List.countP_append] at h3
          have h4 : 0 < es.countP isExcl := List.countP_pos_iff.2 ⟨_, hm2, rfl⟩
          omega
        rw [h1, List.drop_left, if_neg (by simpa using hne)] at e
        cases e
        exact ⟨⟨p, by rw [List.getElem?_set_ne hik]; exact hp, .refl _⟩, ha.kept hkept, hkept.types⟩
  · obtain ⟨⟨srv2, ps2⟩, he, e⟩ := Outcome.bind_eq_ok.1 e
    cases e
    exact ⟨(kick he).1, ha.kept (kick he).2, (kick he).2.types⟩
  · obtain ⟨⟨srv2, ps2⟩, he, e⟩ := Outcome.bind_eq_ok.1 e
    cases e
    have hk : Kept s.srv srv2 :=
      Kept.trans (b := { s.srv with cursorSeq := s.srv.cursorSeq + 1 })
        ⟨rfl, rfl, rfl, rfl, fun _ => rfl⟩ (kick he).2
    exact ⟨(kick he).1, ha.kept hk, hk.types⟩
  · cases e; exact ⟨⟨p, hp, .refl _⟩, ⟨hB, ha.auth⟩, fun _ => rfl⟩
  · cases e; exact ⟨⟨p, hp, .refl _⟩, ⟨ha.shows_, hB⟩, fun _ => rfl⟩
  · cases e; exact ⟨⟨p, hp, .refl _⟩, ⟨ha.shows_, ha.auth⟩, fun _ => rfl⟩
  · cases e; exact ⟨⟨p, hp, .refl _⟩, ⟨ha.shows_, ha.auth⟩, fun _ => rfl⟩
  · rename_i zip text
    obtain ⟨⟨srv2, ps2⟩, he, e⟩ := Outcome.bind_eq_ok.1 e
    cases e
    have hk : Kept (cutTextSave zip text s) srv2 :=
      each_kept (fun j u t _ h => by cases h; exact .of_eq (cutTextTo_srv text u)) _ _ _ _ _ hb he
    have hk0 : Kept s.srv (cutTextSave zip text s) := by
      unfold cutTextSave saveProvide
      split <;> exact ⟨rfl, rfl, rfl, rfl, fun _ => rfl⟩
    refine ⟨?_, ha.kept (hk0.trans hk), (hk0.trans hk).types⟩
    obtain ⟨h1, h2⟩ := each_get _ _ _ _ _ he
    have hi : i < ps2.length := by rw [h1]; exact (List.getElem?_eq_some_iff.1 hp).1
    obtain ⟨sv, t, h3, h4⟩ := h2 i p _ hp (List.getElem?_eq_getElem hi)
    cases h3
    refine ⟨_, List.getElem?_eq_getElem hi, ?_⟩
    rw [h4]
    refine ⟨⟨p.cl.damage, p.cl.pendingLed, ?_⟩, ?_⟩
    · show (cutTextTo text (p.at sv)).cl = _
      rw [cutTextTo_cl]; rfl
    · obtain ⟨es, k1, k2⟩ := cutTextTo_log text (p.at sv) (hbp sv)
      refine ⟨es, k1, ?_, fun hm => ?_⟩
      · unfold handshakeOf
        rw [List.filter_eq_nil_iff]
        intro x hx
        rcases k2 x hx with rfl | ⟨b, rfl⟩ | ⟨h, -⟩
        · simp
        · simp [Kind.handshake]
        · exact absurd h hst
      · rcases k2 _ hm with h | ⟨b, h⟩ | ⟨h, -⟩
        · cases h
        · cases h
        · exact hst h

/-! ## What the client does -/

/-- what there is to know about a client in the handshake -/
structure View where
  st : CState
  chan : Chan
  username : Bytes
  rsa256 : Bool
  types : List Nat
  trace : List Eff
  closed : Bool
  pending : Bool
  defer : Nat

/-- a connection that goes on -/
def View.On (v : View) : Prop := v.closed = false ∧ v.pending = false ∧ v.defer = 0

/-- the client looks like this and sent `x` of its next message -/
structure Looks (v : View) (x : Bytes) (s : St) : Prop where
  st : s.cl.st = v.st
  chan : s.cl.chan = v.chan
  username : s.cl.username = v.username
  rsa256 : s.cl.rsa256 = v.rsa256
  types : v.types ≠ [] → s.srv.secTypes = v.types
  trace : handshakeOf s.log = v.trace
  closed : s.cl.closed = v.closed
  pending : s.cl.closePending = v.pending
  defer : s.cl.nDefer = v.defer
  alive : s.cl.freed = false
  buf : s.cl.buf = x
  idx : s.cl.idx = 0

/-- In view `v`, while less than `m` was received nothing happens, and when `m` is there it is answered
as `R` says -/
structure Answers (table : List Nat) (P : Env → Prop) (v : View) (m : Bytes)
    (R : Option Fb → Bytes → View → Prop) : Prop where
  on : v.On
  some_ : m ≠ []
  fits : m.length ≤ msgBufferSize
  early : v.st ≠ .ready
  part : ∀ env r s x y, P env → y ≠ [] → m = x ++ y → Looks v x s →
    tryRead env table r s x = .ok (s, 0)
  whole : ∀ env r s, P env → Able s.srv → Base s → Looks v m s →
    ∃ t v', tryRead env table r s m = .ok (t, m.length) ∧ R s.srv.fb s.srv.name v' ∧ Looks v' m t

theorem tryRead_nil {env r} (s : St) : tryRead env table r s [] = .ok (s, 0) := by
  unfold tryRead
  split <;> first | rfl | skip
  · unfold onRsaHash rsaHashLen
    cases s.cl.rsa256 <;> rfl

theorem handshakeOf_append (a b : List Eff) : handshakeOf (a ++ b) = handshakeOf a ++ handshakeOf b := by
  unfold handshakeOf; rw [List.filter_append]

/-- the last iteration of the receive loop -/
theorem loop_end {env} {s : St} {fuel : Nat} (hbl : s.cl.blocked = false) (hmb : s.cl.mustBlock = false)
    (h : s.cl.buf.drop s.cl.idx = []) : loop env table (fuel + 1) s = .ok s := by
  unfold loop
  rw [if_neg (by rw [hbl]; simp)]
  have hs : (s.upd fun k => { k with blocked := k.mustBlock, mustBlock := false }) = s := by
    unfold St.upd
    cases s with
    | mk srv cl net log =>
      cases cl
      simp only at hbl hmb
      subst hbl hmb
      rfl
  dsimp only
  rw [hs, h, tryRead_nil]
  rfl

theorem same_flags {s : St} (hbl : s.cl.blocked = false) (hmb : s.cl.mustBlock = false) :
    (s.upd fun k => { k with blocked := k.mustBlock, mustBlock := false }) = s := by
  unfold St.upd
  cases s with
  | mk srv cl net log =>
    cases cl
    simp only at hbl hmb
    subst hbl hmb
    rfl

/-- the state in which the receive loop is entered -/
def arrived (x b : Bytes) (net : List Read) (s : St) : St :=
  ({ s with net := net } : St).upd fun k => { k with
    buf := x ++ b, plain := if k.chan = .plain then (x ++ b).length else k.plain }

theorem Looks.arrived {v : View} {x b : Bytes} {s : St} (h : Looks v x s) (net) :
    Looks v (x ++ b) (arrived x b net s) :=
  ⟨h.st, h.chan, h.username, h.rsa256, h.types, h.trace, h.closed, h.pending, h.defer, h.alive, rfl, h.idx⟩

theorem arrived_base {x b net} {s : St} (h : Base s) : Base (arrived x b net s) := by
  intro hn
  obtain ⟨a1, a2, a3, a4, a5, a6, a7, a8, a9, b1, b2, b3, b4, b5⟩ := h hn
  exact ⟨a1, a2, a3, a4, a5, a6, a7, a8, a9, b1, b2, b3, b4, b5⟩

theorem step_arrived {env net} {v : View} {x b : Bytes} {s : St} (hb : Base s) (hL : Looks v x s)
    (hon : v.On) (hst : v.st ≠ .ready) (hne : b ≠ []) (hlen : (x ++ b).length ≤ msgBufferSize) :
    step table (.readable (.data b)) env net s =
      (do
        let s ← loop env table ((x ++ b).length + 1) (arrived x b net s)
        .ok (s.upd fun k => { k with buf := k.buf.drop k.idx, idx := 0 })) := by
  have hf : Fresh s.cl := hb (by rw [hL.st]; exact hst)
  have hlen' : x.length + b.length ≤ msgBufferSize := by simpa using hlen
  have hb0 : 0 < b.length := List.length_pos_iff.2 hne
  unfold step event
  rw [if_neg (by show ¬ s.cl.freed = true; rw [hL.alive]; simp)]
  dsimp only
  rw [if_neg (by show ¬ s.cl.closed = true; rw [hL.closed, hon.1]; simp)]
  unfold onReadable
  dsimp only
  rw [hf.cut]
  dsimp only
  rw [if_neg (by show ¬ s.cl.idx ≠ 0; rw [hL.idx]; simp)]
  cases b with
  | nil => exact absurd rfl hne
  | cons c d =>
    dsimp only
    rw [if_neg (by rw [hL.buf]; omega), hL.buf, List.take_of_length_le (by omega)]
    rfl

theorem own_part {P R env net} {v : View} {m x b y : Bytes} {s : St} (A : Answers table P v m R)
    (hP : P env) (hb : Base s) (hL : Looks v x s) (hne : b ≠ []) (hy : y ≠ []) (hm : m = x ++ b ++ y) :
    step table (.readable (.data b)) env net s = .ok (arrived x b net s) := by
  have hlen : (x ++ b).length ≤ msgBufferSize := by
    have := A.fits
    rw [hm, List.length_append] at this
    omega
  rw [step_arrived hb hL A.on A.early hne hlen]
  have hL2 := hL.arrived (b := b) net
  have hf : Fresh (arrived x b net s).cl := arrived_base hb (by rw [hL2.st]; exact A.early)
  have h1 : loop env table ((x ++ b).length + 1) (arrived x b net s) = .ok (arrived x b net s) := by
    unfold loop
    rw [if_neg (by rw [hf.blocked]; simp)]
    dsimp only
    rw [same_flags hf.blocked hf.mustBlock, hL2.idx, hL2.buf, List.drop_zero, A.part _ _ _ _ _ hP hy hm hL2]
    rfl
  rw [h1]
  show Outcome.ok _ = _
  congr 1
  have h2 : (arrived x b net s).cl.idx = 0 := hL2.idx
  unfold St.upd
  generalize arrived x b net s = u at h2
  cases u with
  | mk srv cl net log =>
    cases cl
    simp only at h2
    subst h2
    rfl

theorem own_whole {P R env net} {v : View} {x b : Bytes} {s : St} (A : Answers table P v (x ++ b) R)
    (hP : P env) (hb : Base s) (ha : Able s.srv) (hL : Looks v x s) (hne : b ≠ []) :
    ∃ s' v', step table (.readable (.data b)) env net s = .ok s' ∧ R s.srv.fb s.srv.name v' ∧
      Looks v' [] s' ∧ Fresh s'.cl := by
  rw [step_arrived hb hL A.on A.early hne A.fits]
  have hL2 := hL.arrived (b := b) net
  have hb2 : Base (arrived x b net s) := arrived_base hb
  have hf : Fresh (arrived x b net s).cl := hb2 (by rw [hL2.st]; exact A.early)
  obtain ⟨t, v', h1, h2, h3⟩ := A.whole env reenterInHandler (arrived x b net s) hP ha hb2 hL2
  have hfr := hs_frame (by rw [hL2.st]; exact A.early) h1
  have hft := hfr.fresh hf
  have hlen : 0 < (x ++ b).length := List.length_pos_iff.2 A.some_
  have hloop : ∃ ch st pl, loop env table ((x ++ b).length + 1) (arrived x b net s) =
      .ok (emit (.msg st ch ((x ++ b).take (x ++ b).length) pl)
        (t.upd fun k => { k with idx := k.idx + (x ++ b).length, plain := k.plain - pl })) := by
    refine ⟨(arrived x b net s).cl.chan, (arrived x b net s).cl.st, min (x ++ b).length t.cl.plain, ?_⟩
    unfold loop
    rw [if_neg (by rw [hf.blocked]; simp)]
    dsimp only
    rw [same_flags hf.blocked hf.mustBlock, hL2.idx, hL2.buf, List.drop_zero, h1]
    show (if _ then _ else if _ then _ else _) = _
    rw [if_neg (by omega), if_neg (by rw [h3.buf, h3.idx]; omega)]
    obtain ⟨n, hn⟩ : ∃ n, (x ++ b).length = n + 1 := ⟨(x ++ b).length - 1, by omega⟩
    generalize hq : emit _ _ = q
    rw [hn, loop_end (by rw [← hq]; exact hft.blocked) (by rw [← hq]; exact hft.mustBlock) (by
      rw [← hq]
      show t.cl.buf.drop (t.cl.idx + (x ++ b).length) = []
      rw [h3.buf, h3.idx, Nat.zero_add, List.drop_length])]
  obtain ⟨ch, st, pl, hloop⟩ := hloop
  rw [hloop]
  refine ⟨_, v', rfl, h2, ?_, ?_⟩
  rotate_left
  · obtain ⟨a1, a2, a3, a4, a5, a6, a7, a8, a9, b1, b2, b3, b4, b5⟩ := hft
    exact ⟨a1, a2, a3, a4, a5, a6, a7, a8, a9, b1, b2, b3, b4, b5⟩
  refine ⟨h3.st, h3.chan, h3.username, h3.rsa256, h3.types, ?_, h3.closed, h3.pending, h3.defer, h3.alive,
    ?_, rfl⟩
  · show handshakeOf (t.log ++ [_]) = _
    rw [handshakeOf_append, h3.trace]
    show v'.trace ++ [] = _
    rw [List.append_nil]
  · show t.cl.buf.drop (t.cl.idx + (x ++ b).length) = []
    rw [h3.buf, h3.idx, Nat.zero_add, List.drop_length]

/-- the same for a client of the whole server -/
structure Is (i : Nat) (v : View) (x : Bytes) (s : Sys) : Prop where
  based : Based s
  able : Able s.srv
  peer : ∃ p, s.peers[i]? = some p ∧ Looks v x (p.at s.srv) ∧ Fresh p.cl

theorem is_bystander {s s' : Sys} {o : SysOp} {i : Nat} {v : View} {x : Bytes} (h : Is i v x s)
    (hst : v.st ≠ .ready) (hon : v.On) (hB : Bystander i o) (e : sysStep table o s = .ok s')
    (hx : ∀ j, j ≠ i → exclAsked s' j ≤ exclAsked s j) : Is i v x s' := by
  obtain ⟨p, hp, hL, hfp⟩ := h.peer
  have ho : Open p.cl := ⟨hL.closed.trans hon.1, hL.pending.trans hon.2.1, hL.defer.trans hon.2.2, hL.alive⟩
  have hst' : p.cl.st ≠ .ready := by
    have := hL.st
    rw [show p.cl.st = v.st from this]
    exact hst
  obtain ⟨⟨p', h1, h2⟩, h3, h4⟩ := bystander_step h.based hp hst' ho hB h.able e hx
  have hb' := based_step h.based e
  refine ⟨hb', h3, p', h1, ?_, ?_⟩
  rotate_left
  · refine hb' p' (List.mem_of_getElem? h1) s'.srv ?_
    obtain ⟨⟨d, w, hcl⟩, -⟩ := h2
    show p'.cl.st ≠ _
    rw [hcl]; exact hst'
  obtain ⟨⟨d, w, hcl⟩, es, hlog, hes, -⟩ := h2
  have hc : (p'.at s'.srv).cl = { (p.at s.srv).cl with damage := d, pendingLed := w } := hcl
  have hl : (p'.at s'.srv).log = (p.at s.srv).log ++ es := hlog
  refine ⟨by rw [hc]; exact hL.st, by rw [hc]; exact hL.chan, by rw [hc]; exact hL.username,
    by rw [hc]; exact hL.rsa256, fun hn => ?_, ?_, by rw [hc]; exact hL.closed,
    by rw [hc]; exact hL.pending, by rw [hc]; exact hL.defer, by rw [hc]; exact hL.alive,
    by rw [hc]; exact hL.buf, by rw [hc]; exact hL.idx⟩
  · have k := hL.types hn
    have k : s.srv.secTypes = v.types := k
    show s'.srv.secTypes = _
    rw [h4 (by rw [k]; exact hn), k]
  · rw [hl, handshakeOf_append, hes, List.append_nil]; exact hL.trace

theorem is_part {P R env net} {s : Sys} {i : Nat} {v : View} {m x b y : Bytes} (A : Answers table P v m R)
    (h : Is i v x s) (hP : P env) (hne : b ≠ []) (hy : y ≠ []) (hm : m = x ++ b ++ y) :
    ∃ s', sysStep table (.client i (.readable (.data b)) env net) s = .ok s' ∧ Is i v (x ++ b) s' := by
  obtain ⟨p, hp, hL, hfp⟩ := h.peer
  have hi : i < s.peers.length := (List.getElem?_eq_some_iff.1 hp).1
  have e1 := own_part (net := net) A hP (h.based p (List.mem_of_getElem? hp) s.srv) hL hne hy hm
  have e2 : sysStep table (.client i (.readable (.data b)) env net) s =
      .ok { s with peers := s.peers.set i (Peer.of (arrived x b net (p.at s.srv))) } := by
    unfold sysStep clientStep
    dsimp only
    rw [hp]
    dsimp only
    rw [if_neg (by simp [Op.own]), e1]
    show (if _ then _ else _) = _
    rw [if_neg]
    · rfl
    · show ¬ (List.drop p.log.length p.log).contains _ = true
      rw [List.drop_length]
      simp
  refine ⟨_, e2, based_step h.based e2, h.able, _, List.getElem?_set_self hi, ?_, ?_⟩
  rotate_left
  · obtain ⟨a1, a2, a3, a4, a5, a6, a7, a8, a9, b1, b2, b3, b4, b5⟩ := hfp
    exact ⟨a1, a2, a3, a4, a5, a6, a7, a8, a9, b1, b2, b3, b4, b5⟩
  have := hL.arrived (b := b) net
  exact ⟨this.st, this.chan, this.username, this.rsa256, this.types, this.trace, this.closed, this.pending,
    this.defer, this.alive, this.buf, this.idx⟩

theorem is_whole {P R env net} {s : Sys} {i : Nat} {v : View} {x b : Bytes}
    (A : Answers table P v (x ++ b) R) (h : Is i v x s) (hP : P env) (hne : b ≠ []) :
    ∃ s' v', sysStep table (.client i (.readable (.data b)) env net) s = .ok s' ∧
      R s'.srv.fb s'.srv.name v' ∧ Is i v' [] s' := by
  obtain ⟨p, hp, hL, hfp⟩ := h.peer
  have hi : i < s.peers.length := (List.getElem?_eq_some_iff.1 hp).1
  have hbp := h.based p (List.mem_of_getElem? hp) s.srv
  obtain ⟨t, v', e1, h1, h2, hft⟩ := own_whole (net := net) A hP hbp h.able hL hne
  have h1 : R s.srv.fb s.srv.name v' := h1
  have hk : Kept s.srv t.srv := step_kept hbp rfl e1
  have hsys : sysStep table (.client i (.readable (.data b)) env net) s =
      if (t.log.drop p.log.length).contains .disconnectOthers then do
        let (srv, peers) ← each (closeOther i) 0 (s.peers.set i (Peer.of t)) t.srv
        .ok { srv := srv, peers := peers }
      else .ok { srv := t.srv, peers := s.peers.set i (Peer.of t) } := by
    unfold sysStep clientStep
    dsimp only
    rw [hp]
    dsimp only
    rw [if_neg (by simp [Op.own]), e1]
    rfl
  have hnext : ∀ {s' : Sys}, sysStep table (.client i (.readable (.data b)) env net) s = .ok s' →
      Kept t.srv s'.srv → s'.peers[i]? = some (Peer.of t) → R s'.srv.fb s'.srv.name v' ∧ Is i v' [] s' := by
    intro s' e k1 k2
    have k3 := hk.trans k1
    refine ⟨by rw [k3.fb, k3.name]; exact h1, based_step h.based e, h.able.kept k3, _, k2, ?_, hft⟩
    refine ⟨h2.st, h2.chan, h2.username, h2.rsa256, fun hn => ?_, h2.trace, h2.closed, h2.pending,
      h2.defer, h2.alive, h2.buf, h2.idx⟩
    have k4 := h2.types hn
    show s'.srv.secTypes = _
    rw [k1.types (by rw [k4]; exact hn), k4]
  by_cases hd : (t.log.drop p.log.length).contains .disconnectOthers = true
  · rw [if_pos hd] at hsys
    have hb' : ∀ q ∈ s.peers.set i (Peer.of t), ∀ srv, Base (q.at srv) := by
      intro q hq
      rcases List.mem_or_eq_of_mem_set hq with hq | rfl
      · exact h.based q hq
      · exact fun _ => (step_inv (I := fun _ => True) (fun _ _ _ _ _ => trivial) hbp trivial e1).1
    obtain ⟨srv', ps', he⟩ := each_total (f := closeOther i) (fun j s => ⟨_, rfl⟩)
      (s.peers.set i (Peer.of t)) 0 t.srv
    rw [he] at hsys
    have hkk : Kept t.srv srv' := each_kept (fun j u w _ hc => by
      unfold closeOther at hc
      cases hc
      split
      · exact .refl _
      · exact .of_near (freeClient_near u)) _ _ _ _ _ hb' he
    have hg := each_get _ _ _ _ _ he
    have hi2 : i < ps'.length := by rw [hg.1, List.length_set]; exact hi
    obtain ⟨sv, u, k1, k2⟩ := hg.2 i (Peer.of t) ps'[i] (by rw [List.getElem?_set_self hi])
      (List.getElem?_eq_getElem hi2)
    unfold closeOther at k1
    rw [if_pos (by simp)] at k1
    cases k1
    exact ⟨_, v', hsys, hnext hsys hkk (by
      show ps'[i]? = _
      rw [List.getElem?_eq_getElem hi2, k2]; rfl)⟩
  · rw [if_neg hd] at hsys
    exact ⟨_, v', hsys, hnext hsys (.refl _) (List.getElem?_set_self hi)⟩

theorem spoiled_cons {i o ops} {s t : Sys} (e : sysStep table o s = .ok t) (h : Spoiled table i ops t) :
    Spoiled table i (o :: ops) s := by
  obtain ⟨pre, o', post, u, h1, h2, h3, h4⟩ := h
  exact ⟨o :: pre, o', post, u, by rw [h1]; rfl, h2, Outcome.bind_eq_ok.2 ⟨t, e, h3⟩, h4⟩

theorem sysRun_append {xs ys : List SysOp} : ∀ {s t u : Sys}, sysRun table xs s = .ok t →
    sysRun table ys t = .ok u → sysRun table (xs ++ ys) s = .ok u := by
  induction xs with
  | nil => intro s t u h1 h2; cases h1; exact h2
  | cons x xs ih =>
    intro s t u h1 h2
    obtain ⟨w, hw, h1⟩ := Outcome.bind_eq_ok.1 h1
    exact Outcome.bind_eq_ok.2 ⟨w, hw, ih h1 h2⟩

theorem spoiled_left {i xs ys} {s : Sys} (h : Spoiled table i xs s) : Spoiled table i (xs ++ ys) s := by
  obtain ⟨pre, o, post, u, h1, h2⟩ := h
  exact ⟨pre, o, post ++ ys, u, by rw [h1]; simp, h2⟩

theorem spoiled_right {i xs ys} {s t : Sys} (e : sysRun table xs s = .ok t) (h : Spoiled table i ys t) :
    Spoiled table i (xs ++ ys) s := by
  obtain ⟨pre, o, post, u, h1, h2, h3, h4⟩ := h
  exact ⟨xs ++ pre, o, post, u, by rw [h1]; simp, h2, sysRun_append e h3, h4⟩

theorem Says.ne {i P m ops} (h : Says i P m ops) : m ≠ [] := by
  induction h with
  | last net h => exact h
  | more net h _ _ _ => intro hn; exact h (List.append_eq_nil_iff.1 hn).1
  | other _ _ ih => exact ih

theorem says_run {P R} {i : Nat} {v : View} {z : Bytes} {ops : List SysOp} (A : Answers table P v z R)
    {m : Bytes} (hs : Says i P m ops) : ∀ {s : Sys} {x : Bytes}, z = x ++ m → Is i v x s →
    (∃ s' v', sysRun table ops s = .ok s' ∧ R s'.srv.fb s'.srv.name v' ∧ Is i v' [] s') ∨
      Spoiled table i ops s := by
  induction hs with
  | @last b env net hne hP =>
    intro s x hz h
    subst hz
    obtain ⟨s', v', h1, h2⟩ := is_whole (net := net) A h hP hne
    exact .inl ⟨s', v', Outcome.bind_eq_ok.2 ⟨s', h1, rfl⟩, h2⟩
  | @more b m env ops net hne hP hs ih =>
    intro s x hz h
    obtain ⟨s', h1, h2⟩ := is_part (net := net) A h hP hne hs.ne (by rw [hz, List.append_assoc])
    rcases ih (by rw [hz, List.append_assoc]) h2 with ⟨s2, v', h3, h4⟩ | h3
    · exact .inl ⟨s2, v', Outcome.bind_eq_ok.2 ⟨s', h1, h3⟩, h4⟩
    · exact .inr (spoiled_cons h1 h3)
  | @other m o ops hB hs ih =>
    intro s x hz h
    by_cases hc : ∃ t, sysStep table o s = .ok t ∧ ∀ j, j ≠ i → exclAsked t j ≤ exclAsked s j
    · obtain ⟨t, ht, hx⟩ := hc
      rcases ih hz (is_bystander h A.early A.on hB ht hx) with ⟨s2, v', h3, h4⟩ | h3
      · exact .inl ⟨s2, v', Outcome.bind_eq_ok.2 ⟨t, ht, h3⟩, h4⟩
      · exact .inr (spoiled_cons ht h3)
    · refine .inr ⟨[], o, ops, s, rfl, hB, rfl, fun t ht => ?_⟩
      apply Classical.byContradiction
      intro hn
      refine hc ⟨t, ht, fun j hj => ?_⟩
      apply Nat.le_of_not_lt
      intro hlt
      exact hn ⟨j, hj, hlt⟩

/-- answers to a sequence of messages -/
def Path (table : List Nat) (P : Env → Prop) : List Bytes → View → (Option Fb → Bytes → View → Prop) → Prop
  | [], _, _ => False
  | [m], v, Q => Answers table P v m Q
  | m :: ms, v, Q => ∃ R, Answers table P v m R ∧ ∀ fb name v', R fb name v' → Path table P ms v' Q

theorem talks_run {P} {i : Nat} {ms : List Bytes} {ops : List SysOp} (hs : Talks i P ms ops) :
    ∀ {s : Sys} {v : View} {Q}, Path table P ms v Q → Is i v [] s →
    (∃ s' v', sysRun table ops s = .ok s' ∧ Q s'.srv.fb s'.srv.name v' ∧ Is i v' [] s') ∨
      Spoiled table i ops s := by
  induction hs with
  | nil => intro s v Q h; exact h.elim
  | @cons m ms ops ops' h1 h2 ih =>
    intro s v Q hp hi
    cases h2 with
    | nil =>
      rw [List.append_nil]
      exact says_run (R := Q) hp h1 rfl hi
    | @cons m' ms' xs ys k1 k2 =>
      obtain ⟨R, hA, hR⟩ := hp
      rcases says_run hA h1 rfl hi with ⟨s', v', h3, h4, h5⟩ | h3
      · rcases ih (hR _ _ _ h4) h5 with ⟨s2, w, h6, h7⟩ | h6
        · exact .inl ⟨s2, w, sysRun_append h3 h6, h7⟩
        · exact .inr (spoiled_right h3 h6)
      · exact .inr (spoiled_left h3)

end Verif.System
