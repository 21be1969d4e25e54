import Verif.Lemmas.Peer
import Verif.Spec.Server

/-!
# C25: counting the clients whose encoder needs damage
-/

namespace Verif.Server

variable {table : List Nat}

/-- 1 for an encoder that makes use of damage, else 0 -/
def weight (c : Client) : Int :=
  match c.encoder with
  | some e => needsDamage e
  | none => 0

theorem weight_eq {c d : Client} (h : d.encoder = c.encoder) : weight d = weight c := by
  unfold weight; rw [h]

theorem ensureEncoder_count (env fb s) :
    (ensureEncoder env fb s).1.srv.nDamageClients - weight (ensureEncoder env fb s).1.cl =
      s.srv.nDamageClients - weight s.cl := by
  unfold ensureEncoder weight
  dsimp only
  split
  · rfl
  · split
    · cases s.cl.encoder <;> dsimp only <;> omega
    · split
      · cases s.cl.encoder <;> dsimp only <;> omega
      · cases s.cl.encoder <;> dsimp only <;> omega

theorem stageFrame_count {env fb s s'} (e : stageFrame env fb s = .ok s') :
    s'.srv.nDamageClients - weight s'.cl = s.srv.nDamageClients - weight s.cl := by
  unfold stageFrame at e
  rcases ite_cases e with ⟨-, e⟩ | ⟨-, e⟩
  · cases e; rfl
  rcases ite_cases e with ⟨-, e⟩ | ⟨-, e⟩
  · cases e; rfl
  have h := ensureEncoder_count env fb s
  generalize ensureEncoder env fb s = res at e h
  obtain ⟨t, b⟩ := res
  cases b
  · dsimp only at e
    rcases ite_cases e with ⟨-, e⟩ | ⟨-, e⟩
    · cases e
    cases e; exact h
  · dsimp only at e h
    rcases ite_cases e with ⟨-, e⟩ | ⟨-, e⟩
    · cases e
    rcases ite_cases e with ⟨-, e⟩ | ⟨-, e⟩
    · cases e
      rw [← h]
      split <;> rfl
    · cases e; rw [← h]; rfl

theorem freeClient_count (s : St) :
    (freeClient s).srv.nDamageClients - weight (freeClient s).cl =
      s.srv.nDamageClients - weight s.cl := by
  have h : (streamClose s).srv = s.srv ∧ (streamClose s).cl.encoder = s.cl.encoder := by
    unfold streamClose deferClose
    split
    · exact ⟨rfl, rfl⟩
    · dsimp only; split <;> exact ⟨rfl, rfl⟩
  unfold freeClient weight
  dsimp only
  rw [h.1, h.2]
  cases s.cl.encoder <;> simp

theorem micro_count {lp s s'} (h : Micro lp table s s') :
    s'.srv.nDamageClients - weight s'.cl = s.srv.nDamageClients - weight s.cl := by
  have key : s'.srv = s.srv → s'.cl.encoder = s.cl.encoder →
      s'.srv.nDamageClients - weight s'.cl = s.srv.nDamageClients - weight s.cl :=
    fun h1 h3 => by rw [h1, weight_eq h3]
  cases h with
  | fenceOut => simp
  | pfFire => simp [weight]
  | ext =>
    obtain ⟨h1, -, h3, -⟩ := sendExtSupport_frame (s.upd fun k => { k with extNotified := true })
    exact key h1 (by rw [h3]; rfl)
  | cursor env =>
    obtain ⟨h1, -, ⟨_, h3⟩, -⟩ := sendCursor_frame env s
    exact key h1 (by rw [h3])
  | led =>
    obtain ⟨h1, -, ⟨_, h3⟩, -⟩ := sendLed_frame s
    exact key h1 (by rw [h3])
  | frame env fb hr h => exact stageFrame_count h
  | sendFrame f =>
    obtain ⟨h1, -, ⟨_, _, _, h3, -⟩, -⟩ := sendFrame_frame f s
    exact key h1 (by rw [h3])
  | hs env r a h h2 =>
    obtain ⟨⟨_, h1⟩, -, ⟨_, _, _, _, _, _, _, _, _, _, _, h3⟩, -⟩ := hs_frame h h2
    rw [h1, h3]; rfl
  | simple env a h h2 =>
    obtain ⟨h1, -, ⟨_, _, _, _, _, _, _, _, _, h3⟩, -⟩ := h2.frame
    exact key h1 (by rw [h3])
  | fbReq inc r =>
    obtain ⟨h1, -, ⟨_, _, h3⟩, -⟩ := fbReqPre_frame inc r s
    exact key h1 (by rw [h3])
  | contOff => simp [weight]
  | fenceReq flags payload h hp h2 =>
    obtain ⟨h1, -, ⟨_, _, _, _, _, h3⟩, -⟩ := fenceSeen_frame h2
    exact key h1 (by rw [h3])
  | bigCut env c d hr hc h h2 =>
    obtain ⟨h1, -, ⟨_, _, _, _, _, _, _, _, _, h3⟩, -⟩ := bigCutText_frame h2
    exact key h1 (by rw [h3])
  | remoteClosed =>
    obtain ⟨⟨_, h1⟩, -, ⟨_, _, _, _, _, _, _, _, _, _, _, h3⟩, -⟩ := remoteClosed_frame (b := .error) s
    rw [h1, h3]; rfl
  | flushed =>
    obtain ⟨⟨_, h1⟩, -, ⟨_, _, _, _, _, _, _, _, _, _, _, h3⟩, -⟩ := streamClose_frame (b := .error) s
    rw [h1, h3]; rfl
  | free hl h => exact freeClient_count s
  | idle hl h h2 => exact freeClient_count (s.upd fun k => { k with nDefer := k.nDefer - 1 })
  | _ => rfl

theorem step_count {o env net s s'} (hb : Base s) (e : step table o env net s = .ok s') :
    s'.srv.nDamageClients - weight s'.cl = s.srv.nDamageClients - weight s.cl :=
  (step_inv (I := fun t => t.srv.nDamageClients - weight t.cl =
    s.srv.nDamageClients - weight s.cl) (fun _ _ hm _ h => (micro_count hm).trans h) hb rfl e).2

/-! ## A client that is gone has no encoder -/

/-- a client that is freed has given up its encoder -/
def Gone (c : Client) : Prop := c.freed = true → c.encoder = none

theorem freeClient_gone (s) : Gone (freeClient s).cl := fun _ => rfl

theorem gone_of_not {c : Client} (h : c.freed = false) : Gone c := by
  intro hf; rw [h] at hf; cases hf

theorem loop_freed {env} (fuel : Nat) : ∀ {s s'}, loop env table fuel s = .ok s' →
    s'.cl.freed = s.cl.freed := by
  induction fuel with
  | zero => intro s s' e; cases e; rfl
  | succ fuel ih =>
    intro s s' e
    unfold loop at e
    rcases ite_cases e with ⟨-, e⟩ | ⟨-, e⟩
    · cases e; rfl
    obtain ⟨⟨t, n⟩, ht, e⟩ := Outcome.bind_eq_ok.1 e
    obtain ⟨-, -, -, h⟩ := tryRead_buf ht
    dsimp only at e
    rcases ite_cases e with ⟨-, e⟩ | ⟨-, e⟩
    · cases e; exact h
    rcases ite_cases e with ⟨-, e⟩ | ⟨-, e⟩
    · cases e
    exact (ih e).trans h

theorem onReadable_gone {env rd s s'} (hb : Base s) (hf : s.cl.freed = false)
    (e : onReadable env table rd s = .ok s') : Gone s'.cl := by
  have hrc : (remoteClosed s).cl.freed = s.cl.freed :=
    (by obtain ⟨_, _, _, _, _, _, _, _, _, _, _, h⟩ := (remoteClosed_frame (b := .error) s).cl; rw [h])
  unfold onReadable at e
  split at e
  · rename_i c hc
    rcases ite_cases e with ⟨-, e⟩ | ⟨hlen, e⟩
    · cases e
    cases rd with
    | again => cases e; exact gone_of_not hf
    | closed => cases e; exact gone_of_not (hrc.trans hf)
    | err => cases e; exact freeClient_gone s
    | data d =>
      cases d with
      | nil => cases e; exact gone_of_not hf
      | cons b d =>
        have hr : s.cl.st = .ready := Classical.byContradiction fun hn => by
          rw [(hb hn).cut] at hc; cases hc
        have := List.length_take_le (min (c.len - c.data.length) msgBufferSize) (b :: d)
        have := Nat.min_le_left (c.len - c.data.length) msgBufferSize
        exact gone_of_not (((micro_buf (wd := true) (table := table)
          (.bigCut s env c _ hr hc (by omega) e)).2.2.2).trans hf)
  · rcases ite_cases e with ⟨-, e⟩ | ⟨-, e⟩
    · cases e
    cases rd with
    | again => cases e; exact gone_of_not hf
    | closed => cases e; exact gone_of_not (hrc.trans hf)
    | err => cases e; exact freeClient_gone s
    | data d =>
      cases d with
      | nil => cases e; exact gone_of_not hf
      | cons b d =>
        simp only at e
        split at e
        · split at e <;> cases e
          · exact gone_of_not (hrc.trans hf)
          · exact freeClient_gone s
          · exact gone_of_not hf
        · obtain ⟨t, ht, e⟩ := Outcome.bind_eq_ok.1 e
          cases e
          exact gone_of_not ((loop_freed _ ht).trans hf)

theorem step_gone {o env net s s'} (hb : Base s) (hg : Gone s.cl)
    (e : step table o env net s = .ok s') : Gone s'.cl := by
  have hk : ∀ s s', Micro true table s s' → (Base s ∧ True) → (Base s' ∧ True) :=
    fun _ _ hm ht => ⟨micro_base hm ht.1, trivial⟩
  unfold step event at e
  have h0 := hk _ _ (.net s net) ⟨hb, trivial⟩
  have hg0 : Gone ({ s with net := net } : St).cl := hg
  generalize ({ s with net := net } : St) = t at e h0 hg0
  split at e
  · split at e
    · split at e <;> cases e; exact hg0
    · cases e; exact hg0
  · rename_i hf
    have hf : t.cl.freed = false := by simpa using hf
    have hm := micro_alive hk
    have hr := reenterTop_keeps hk (env := env)
    have flow : ∀ u u', Micro false table t u → processFb env (reenterTop env table) u = .ok u' →
        Gone u'.cl := by
      intro u u' hmu eu
      have hu := hk _ _ hmu.mono h0
      by_cases hst : u.cl.st = .ready
      · exact gone_of_not (processFb_inv (fun _ h => h.2.2) hm hr
          ⟨hu, (micro_buf hmu).2.2.2.trans hf, hst⟩ eu).2.1
      · rw [processFb_idle (hu.1 hst)] at eu; cases eu
        exact gone_of_not ((micro_buf hmu).2.2.2.trans hf)
    cases o with
    | readable rd =>
      dsimp only at e
      split at e
      · cases e; exact hg0
      · exact onReadable_gone h0.1 hf e
    | written =>
      dsimp only at e
      split at e
      · rename_i hw
        have hst : t.cl.st = .ready := Classical.byContradiction fun hn => by
          rw [(h0.1 hn).writing] at hw; cases hw
        exact gone_of_not (completeFb_inv (fun _ h => h.2.2) hm hr
          (hm _ _ (.written t hst hw) ⟨h0, hf, hst⟩) e).2.1
      · cases e; exact hg0
    | encoded f =>
      dsimp only at e
      split at e
      · rename_i hw
        have hst : t.cl.st = .ready := Classical.byContradiction fun hn => by
          rw [(h0.1 hn).encoding] at hw; cases hw
        exact gone_of_not (finishFb_inv (fun _ h => h.2.2) hm hr (by simp [emit])
          (hm _ _ (.encoded t f hst hw) ⟨h0, hf, hst⟩) e).2.1
      · cases e; exact hg0
    | flushed =>
      dsimp only at e
      split at e
      · rename_i hw; cases e
        exact gone_of_not ((micro_buf (wd := true) (table := table) (.flushed t hw)).2.2.2.trans hf)
      · cases e; exact hg0
    | idle =>
      dsimp only at e
      split at e
      · cases e; exact hg0
      · cases e; exact freeClient_gone _
    | appClose => cases e; exact freeClient_gone _
    | damage r =>
      dsimp only at e
      by_cases hc : t.cl.closed = true
      · rw [if_pos hc] at e; exact flow _ _ (.net t t.net) e
      · rw [if_neg hc] at e; exact flow _ _ (.damage t r (by simpa using hc)) e
    | display fb => cases e; exact hg0
    | cursor => exact flow _ _ (.setCursor t) e
    | setLed v => exact flow _ _ (.setLed t v) e

end Verif.Server

namespace Verif.System

open Verif.Server

variable {table : List Nat}

def total (ps : List Peer) : Int := (ps.map fun p => weight p.cl).sum

/-- the bookkeeping of the whole server is right -/
structure Counted (s : Sys) : Prop where
  based : ∀ p ∈ s.peers, Base (p.at s.srv)
  gone : ∀ p ∈ s.peers, Gone p.cl
  count : s.srv.nDamageClients = total s.peers

theorem each_counted {f : Nat → St → Outcome St}
    (hf : ∀ j s s', Base s → Gone s.cl → f j s = .ok s' → Base s' ∧ Gone s'.cl ∧
      s'.srv.nDamageClients - weight s'.cl = s.srv.nDamageClients - weight s.cl) :
    ∀ (ps : List Peer) (i : Nat) (srv srv' : Srv) (ps' : List Peer),
    (∀ p ∈ ps, Base (p.at srv) ∧ Gone p.cl) →
    each f i ps srv = .ok (srv', ps') →
    (∀ p ∈ ps', Base (p.at srv') ∧ Gone p.cl) ∧
      srv'.nDamageClients - total ps' = srv.nDamageClients - total ps := by
  intro ps
  induction ps with
  | nil => intro i srv srv' ps' h e; cases e; exact ⟨h, rfl⟩
  | cons p ps ih =>
    intro i srv srv' ps' h e
    unfold each at e
    obtain ⟨t, ht, e⟩ := Outcome.bind_eq_ok.1 e
    obtain ⟨⟨srv2, ps2⟩, he, e⟩ := Outcome.bind_eq_ok.1 e
    cases e
    obtain ⟨h1, h2⟩ := h p (by simp)
    obtain ⟨g1, g2, g3⟩ := hf _ _ _ h1 h2 ht
    obtain ⟨k1, k2⟩ := ih (i + 1) t.srv _ _ (fun q hq =>
      ⟨(h q (by simp [hq])).1, (h q (by simp [hq])).2⟩) he
    refine ⟨?_, ?_⟩
    · intro q hq
      rcases List.mem_cons.1 hq with rfl | hq
      · exact ⟨g1, g2⟩
      · exact k1 q hq
    · simp only [total, List.map_cons, List.sum_cons] at k2 ⊢
      simp only [Peer.at, Peer.of] at g3 ⊢
      omega

theorem total_set {ps : List Peer} {i : Nat} {p : Peer} (h : ps[i]? = some p) (q : Peer) :
    total (ps.set i q) - weight q.cl = total ps - weight p.cl := by
  induction ps generalizing i with
  | nil => simp at h
  | cons r ps ih =>
    cases i with
    | zero =>
      simp at h; subst h
      simp only [total, List.set_cons_zero, List.map_cons, List.sum_cons]; omega
    | succ i =>
      simp at h
      have := ih h
      simp only [total, List.set_cons_succ, List.map_cons, List.sum_cons] at this ⊢; omega

theorem closeOther_counted (i j s s') (hb : Base s) (hg : Gone s.cl)
    (e : closeOther i j s = .ok s') : Base s' ∧ Gone s'.cl ∧
      s'.srv.nDamageClients - weight s'.cl = s.srv.nDamageClients - weight s.cl := by
  unfold closeOther at e
  cases e
  split
  · exact ⟨hb, hg, rfl⟩
  · rename_i hn
    have hm : Micro true [] s (freeClient s) := .free s rfl (by
      cases hf : s.cl.freed
      · rfl
      · exact absurd (.inr hf) hn)
    exact ⟨micro_base hm hb, freeClient_gone s, freeClient_count s⟩

theorem step_counted {o env net s s'} (hb : Base s) (hg : Gone s.cl)
    (e : step table o env net s = .ok s') : Base s' ∧ Gone s'.cl ∧
      s'.srv.nDamageClients - weight s'.cl = s.srv.nDamageClients - weight s.cl :=
  ⟨(step_inv (I := fun _ => True) (fun _ _ _ _ _ => trivial) hb trivial e).1,
    step_gone hb hg e, step_count hb e⟩

theorem sysStep_counted {o : SysOp} {s s' : Sys} (h : Counted s)
    (e : sysStep table o s = .ok s') : Counted s' := by
  obtain ⟨h1, h2, h3⟩ := h
  have hps : ∀ p ∈ s.peers, Base (p.at s.srv) ∧ Gone p.cl := fun p hp => ⟨h1 p hp, h2 p hp⟩
  have fin : ∀ {srv srv' : Srv} {ps ps' : List Peer}, srv.nDamageClients = total ps →
      (∀ p ∈ ps', Base (p.at srv') ∧ Gone p.cl) ∧
        srv'.nDamageClients - total ps' = srv.nDamageClients - total ps →
      Counted { srv := srv', peers := ps' } := by
    intro srv srv' ps ps' h0 ⟨a, b⟩
    exact ⟨fun p hp => (a p hp).1, fun p hp => (a p hp).2,
      show srv'.nDamageClients = total ps' by omega⟩
  unfold sysStep at e
  split at e
  · split at e <;> cases e
    · exact ⟨h1, h2, h3⟩
    · refine ⟨fun p hp => ?_, fun p hp => ?_, ?_⟩
      · rcases List.mem_append.1 hp with hp | hp
        · exact h1 p hp
        · rw [List.mem_singleton] at hp; subst hp; exact start_base _
      · rcases List.mem_append.1 hp with hp | hp
        · exact h2 p hp
        · rw [List.mem_singleton] at hp; subst hp; exact fun _ => rfl
      · show s.srv.nDamageClients = _
        rw [h3]
        simp [total, weight, Peer.of, Server.start, newClient]
  · rename_i i o env net
    unfold clientStep at e
    split at e
    · cases e; exact ⟨h1, h2, h3⟩
    · rename_i p hp
      split at e
      · cases e; exact ⟨h1, h2, h3⟩
      · obtain ⟨t, ht, e⟩ := Outcome.bind_eq_ok.1 e
        have hpm := List.mem_of_getElem? hp
        obtain ⟨g1, g2, g3⟩ := step_counted (h1 p hpm) (h2 p hpm) ht
        have hset := total_set hp (Peer.of t)
        have g4 : ∀ q ∈ s.peers.set i (Peer.of t), Base (q.at t.srv) ∧ Gone q.cl := by
          intro q hq
          rcases List.mem_or_eq_of_mem_set hq with hq | rfl
          · exact ⟨h1 q hq, h2 q hq⟩
          · exact ⟨g1, g2⟩
        have g5 : t.srv.nDamageClients = total (s.peers.set i (Peer.of t)) := by
          simp only [Peer.at, Peer.of] at g3 hset ⊢; omega
        dsimp only at e
        split at e
        · obtain ⟨⟨srv2, ps2⟩, he, e⟩ := Outcome.bind_eq_ok.1 e
          cases e
          exact fin g5 (each_counted (closeOther_counted i) _ _ _ _ _ g4 he)
        · cases e
          exact ⟨fun p hp => (g4 p hp).1, fun p hp => (g4 p hp).2, g5⟩
  · obtain ⟨⟨srv2, ps2⟩, he, e⟩ := Outcome.bind_eq_ok.1 e
    cases e
    exact fin h3 (each_counted (fun _ _ _ hb hg h => step_counted hb hg h) _ _ _ _ _ hps he)
  · obtain ⟨⟨srv2, ps2⟩, he, e⟩ := Outcome.bind_eq_ok.1 e
    cases e
    exact fin (srv := { s.srv with cursorSeq := s.srv.cursorSeq + 1 }) h3
      (each_counted (fun _ _ _ hb hg h => step_counted hb hg h) _ _ _ _ _ hps he)
  · cases e; exact ⟨h1, h2, h3⟩
  · cases e; exact ⟨h1, h2, h3⟩
  · cases e; exact ⟨h1, h2, h3⟩
  · cases e; exact ⟨h1, h2, h3⟩
  · rename_i zip text
    obtain ⟨⟨srv2, ps2⟩, he, e⟩ := Outcome.bind_eq_ok.1 e
    cases e
    refine fin (srv := cutTextSave zip text s) (ps := s.peers) ?_ (each_counted ?_ _ _ _ _ _ hps he)
    · rw [← h3]; unfold cutTextSave saveProvide; split <;> rfl
    · intro j u u' hb hg hc
      cases hc
      refine ⟨?_, by rw [cutTextTo_cl]; exact hg, by rw [cutTextTo_cl, cutTextTo_srv]⟩
      unfold Base; rw [cutTextTo_cl]; exact hb

theorem sysRun_counted (os : List SysOp) : ∀ {s s' : Sys}, Counted s →
    sysRun table os s = .ok s' → Counted s' := by
  induction os with
  | nil => intro s s' h e; cases e; exact h
  | cons o os ih =>
    intro s s' h e
    obtain ⟨t, ht, e⟩ := Outcome.bind_eq_ok.1 e
    exact ih (sysStep_counted h ht) e

/-- a client that is connected, for which an encoder has been chosen, and that encoder is not the
H.264 encoder (the only one that ignores damage) -/
def usesDamage (p : Peer) : Bool :=
  !p.cl.freed && (match p.cl.encoder with | some e => e != encH264 | none => false)

/-- **C25** whatever clients connect, negotiate, switch encodings and leave in whatever way, the
server's counter is the number of connected clients whose current encoder makes use of damage. -/
theorem c25_damage_clients {s0 s : Sys} {ops : List SysOp} (h0 : s0.peers = [])
    (hn : s0.srv.nDamageClients = 0) (e : sysRun table ops s0 = .ok s) :
    s.srv.nDamageClients = s.peers.countP usesDamage := by
  have h : Counted s := sysRun_counted ops ⟨by simp [h0], by simp [h0], by simp [h0, hn, total]⟩ e
  rw [h.count]
  have hg := h.gone
  generalize s.peers = ps at hg
  induction ps with
  | nil => rfl
  | cons p ps ih =>
    have h1 : weight p.cl = if usesDamage p then 1 else 0 := by
      have := hg p (by simp)
      unfold Gone at this
      unfold usesDamage weight needsDamage
      cases hf : p.cl.freed
      · cases p.cl.encoder with
        | none => rfl
        | some v => by_cases hv : v = encH264 <;> simp [hv]
      · rw [this hf]; rfl
    rw [List.countP_cons, total, List.map_cons, List.sum_cons, h1]
    have := ih (fun q hq => hg q (by simp [hq]))
    rw [total] at this
    rw [this]
    split <;> simp <;> omega

/-- Client 0 is sent raw frames, client 1 H.264, client 2 Tight and then Raw after another
SetEncodings, client 3 has asked for nothing yet, and client 4 was sent raw frames until it left. -/
def demoCount : List SysOp :=
  let env := { demoEnv with h264Works := true, sentAtOnce := true }
  let saysG := fun i b => SysOp.client i (.readable (.data b)) env []
  let frame : Frame := { nRects := 1, w := 4, h := 3, pts := none, payload := [7] }
  [.display (some { demoFb with gbm := true })]
    ++ (List.range 5).flatMap (fun i => [.connect, says i (hello ++ [1, 1])])
    ++ [says 1 [2, 0, 0, 1, 0, 0, 0, 50], says 2 [2, 0, 0, 1, 0, 0, 0, 7]]
    ++ [0, 1, 2, 4].map (fun i => saysG i [3, 0, 0, 0, 0, 0, 0, 4, 0, 3])
    ++ [.client 2 (.encoded frame) env [], saysG 2 [2, 0, 0, 1, 0, 0, 0, 0],
        saysG 2 [3, 0, 0, 0, 0, 0, 0, 4, 0, 3], .client 4 .appClose env []]

example : (demoRun demoCount).map (fun s => (s.srv.nDamageClients,
      s.peers.map fun p => (p.cl.freed, p.cl.encoder), s.peers.countP usesDamage)) =
    some (2, [(false, some 0), (false, some 50), (false, some 0), (false, none), (true, none)], 2) := by
  decide +kernel

end Verif.System
