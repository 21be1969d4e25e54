import Verif.Lemmas.Honest
import Verif.Props.Times
import Verif.Spec.Pointers

/-!
# C128: clients get the cursors that the application sets
-/

namespace Verif.Pointers

open Verif.Server Verif.System Verif.Formats Verif.Sizes Verif.Times

variable {table : List Nat} {env : Env}

/-- what a step does to the count of cursors that were set -/
theorem micro_seq {wd lp : Bool} {s s' : St} (h : MicroW wd lp table s s') :
    s'.srv.cursorSeq = s.srv.cursorSeq ∨ wd = true ∧ s'.srv.cursorSeq = s.srv.cursorSeq + 1 := by
  have ofEq : s'.srv = s.srv → s'.srv.cursorSeq = s.srv.cursorSeq ∨
      wd = true ∧ s'.srv.cursorSeq = s.srv.cursorSeq + 1 := fun h => .inl (by rw [h])
  cases h with
  | hs env r a h h2 => obtain ⟨_, h3⟩ := (hs_frame h h2).srv; exact .inl (by rw [h3])
  | fenceOut _ _ hr => exact ofEq (by simp)
  | pfFire hr => exact ofEq (by simp)
  | ext hr => exact ofEq (sendExtSupport_frame (s.upd fun k => { k with extNotified := true })).1
  | cursor env hr => exact ofEq (sendCursor_frame env s).1
  | led hr => exact ofEq (sendLed_frame s).1
  | frame env fb hr h => obtain ⟨_, h3⟩ := (stageFrame_frame h).1; exact .inl (by rw [h3])
  | sendFrame f hr => exact ofEq (sendFrame_frame f s).1
  | simple env a hr h2 => exact ofEq h2.frame.1
  | fbReq inc r hr => exact ofEq (fbReqPre_frame inc r s).1
  | contOff hr => exact ofEq (by simp)
  | fenceReq flags payload hr hp h2 => exact ofEq (fenceSeen_frame h2).1
  | bigCut env c d hr hc h h2 => exact ofEq (bigCutText_frame h2).1
  | remoteClosed => exact ofEq (remoteClosed_Q s).srv
  | flushed => exact ofEq (streamClose_Q s).srv
  | free => obtain ⟨_, h3⟩ := freeClient_near s; exact .inl (by rw [h3])
  | idle =>
    obtain ⟨_, h3⟩ := freeClient_near (s.upd fun k => { k with nDefer := k.nDefer - 1 })
    exact .inl (by rw [h3]; rfl)
  | setCursor hw => exact .inr ⟨hw, rfl⟩
  | _ => exact .inl rfl

/-- a client and the record of its connection -/
structure Drawn (c : Client) (l : List Eff) : Prop where
  wanted : ∀ a ch b d, l = a ++ .send ch .cursor b :: d → Wanted a b
  count : l.countP drawn ≤ c.cursorSeq

theorem Drawn.grow {c c' : Client} {l es : List Eff} (h : Drawn c l) (hc : c'.cursorSeq = c.cursorSeq)
    (hq : ∀ e ∈ es, drawn e = false) : Drawn c' (l ++ es) := by
  refine ⟨fun a ch b d hl => ?_, ?_⟩
  · rcases append_eq_cons hl with ⟨q, g1, rfl⟩ | ⟨q, -, g2⟩
    · exact h.wanted a ch b q g1
    · exact absurd (hq (.send ch .cursor b) (by rw [g2]; simp)) (by simp [drawn])
  · have hz : es.countP drawn = 0 := List.countP_eq_zero.2 (by simpa using hq)
    rw [List.countP_append, hz, hc]
    exact h.count

theorem Drawn.still {s s' : St} (h : Drawn s.cl s.log) (hm : Sizes.Still s s') : Drawn s'.cl s'.log := by
  obtain ⟨es, h1, h2⟩ := hm.log
  rw [h1]
  refine h.grow hm.seq fun e he => ?_
  have := h2 e he
  cases e with
  | send ch k b => revert this; cases k <;> simp [Sizes.dull, loud, drawn]
  | _ => rfl

theorem cursor_drawn {s : St} (h0 : Sized s.cl s.log) (h : Drawn s.cl s.log) (hl : s.cl.cursorSeq < s.srv.cursorSeq)
    (he : hasEnc s.cl encCursor = true) :
    Drawn (sendCursor env s).cl (sendCursor env s).log ∧ (sendCursor env s).cl.cursorSeq ≤ s.srv.cursorSeq := by
  have hn : -239 ∈ s.cl.encodings := by
    unfold hasEnc encCursor at he
    rwa [List.contains_iff_mem] at he
  unfold sendCursor
  split
  · exact ⟨h, by omega⟩
  · rename_i b _
    rw [send_cl, send_log]
    refine ⟨?_, Nat.le_refl _⟩
    split
    · rw [List.append_nil]
      exact ⟨h.wanted, Nat.le_of_lt (Nat.lt_of_le_of_lt h.count hl)⟩
    · refine ⟨fun a ch b' d hx => ?_, ?_⟩
      · rcases append_eq_cons hx with ⟨q, g1, rfl⟩ | ⟨q, rfl, g2⟩
        · exact h.wanted a ch b' q g1
        · cases q with
          | nil =>
            rw [List.nil_append, List.cons.injEq, Eff.send.injEq] at g2
            obtain ⟨⟨-, -, rfl⟩, -⟩ := g2
            rw [List.append_nil]
            refine ⟨?_, b, ?_⟩
            · show -239 ∈ (view s.log).encs
              rw [h0.encs]; exact hn
            · rw [show updateHead 1 = [0, 0, 0, 1] by decide +kernel]
          | cons y q => have := congrArg List.length g2; simp at this
      · show (s.log ++ _).countP drawn ≤ s.srv.cursorSeq
        rw [List.countP_append]
        have := h.count
        simp only [List.countP_cons, List.countP_nil, drawn]
        simp
        omega

theorem micro_drawn {lp s s'} (hm : Micro lp table s s') (h0 : Sized s.cl s.log) (h : Drawn s.cl s.log)
    (hl : s.cl.cursorSeq ≤ s.srv.cursorSeq) : Drawn s'.cl s'.log ∧ s'.cl.cursorSeq ≤ s'.srv.cursorSeq := by
  have hseq : s.srv.cursorSeq ≤ s'.srv.cursorSeq := by rcases micro_seq hm with h | h <;> omega
  have st : Sizes.Still s s' → Drawn s'.cl s'.log ∧ s'.cl.cursorSeq ≤ s'.srv.cursorSeq := fun hm =>
    ⟨h.still hm, by rw [hm.seq]; omega⟩
  have gr : ∀ es, s'.cl.cursorSeq = s.cl.cursorSeq → s'.log = s.log ++ es → (∀ e ∈ es, drawn e = false) →
      Drawn s'.cl s'.log ∧ s'.cl.cursorSeq ≤ s'.srv.cursorSeq := fun es h1 h2 h3 =>
    ⟨by rw [h2]; exact h.grow h1 h3, by rw [h1]; omega⟩
  cases hm with
  | fenceOut => exact st (.send _ _ _)
  | pfFire => exact st ((Sizes.Still.upd _).trans (.send _ _ _))
  | ext hr hx => exact st (ext_still s)
  | cursor env hr h1 h2 =>
    obtain ⟨g1, g2⟩ := cursor_drawn (env := env) h0 h (by omega) h2
    exact ⟨g1, Nat.le_trans g2 hseq⟩
  | led hr => exact st (sendLed_still s)
  | frame env fb hr e => exact st (stage_still e)
  | sendFrame f hr hd hs hf =>
    have hq : (sendFrame f s).cl.cursorSeq = s.cl.cursorSeq := by
      obtain ⟨-, -, ⟨_, _, _, h3, -⟩, -⟩ := sendFrame_frame f s
      rw [h3]
    cases hc : s.cl.closed with
    | true => exact gr [] hq (by rw [sendFrame_shut hc, List.append_nil]) (by simp)
    | false =>
      obtain ⟨uh, rz, h1, h2⟩ := sendFrame_log (f := f) hc
      refine gr _ hq (by rw [h1, List.append_assoc, List.append_assoc]) fun e he => ?_
      simp only [List.mem_append, List.mem_cons, List.not_mem_nil, or_false] at he
      rcases he with (rfl | he) | he | rfl
      · rfl
      · rcases h2 with rfl | ⟨m, rfl⟩
        · cases he
        · rw [List.mem_singleton.1 he]; rfl
      · unfold part at he
        split at he
        · split at he
          · rw [List.mem_singleton.1 he]; rfl
          · cases he
        · cases he
      · rfl
  | hs env r a h1 h2 =>
    have hf := hs_frame h1 h2
    obtain ⟨_, _, _, _, _, _, _, _, _, _, _, h3⟩ := hf.cl
    obtain ⟨es, h4, h5⟩ := hf.log
    refine gr es (by rw [h3]) h4 fun e he => ?_
    cases h5 e he with
    | send ch k m hk => cases k <;> first | rfl | (exfalso; revert hk; cases s.cl.st <;> simp [hsKind])
    | _ => rfl
  | simple env a h1 h2 =>
    rcases simple_still h2 with e | e
    · have hq : s'.cl.cursorSeq = s.cl.cursorSeq := by
        obtain ⟨_, _, _, _, _, _, _, _, _, h3⟩ := h2.frame.cl
        rw [h3]
      rcases Extensions.encs_sent e with rfl | ⟨es, t, m, -, -, -, -, -, -, hl, hm⟩
      · exact ⟨h, hl⟩
      · refine gr _ hq hl fun x hx => ?_
        rcases List.mem_cons.1 hx with rfl | hx
        · rfl
        · rw [hm] at hx
          split at hx
          · cases hx
          · simp only [List.mem_append] at hx
            rcases hx with (hx | hx) | hx <;> split at hx <;>
              first | (cases hx; done) | (rw [List.mem_singleton.1 hx]; rfl)
    · exact st e
  | fbReq inc r hr =>
    obtain ⟨-, -, ⟨_, _, h3⟩, h4⟩ := fbReqPre_frame inc r s
    exact gr _ (by rw [h3]) h4 (by simp [drawn])
  | contOn => exact st ((Sizes.Still.upd _).trans (.emit _))
  | contOff => exact st ((Sizes.Still.upd _).trans (.send _ _ _))
  | fenceReq flags payload h1 hp h2 => exact st (fenceReq_still h2)
  | consume => exact st ((Sizes.Still.upd _).trans (.emit _))
  | bigCut env c d hr hc h1 h2 => exact st (bigCutText_still h2)
  | remoteClosed => exact st ((Sizes.streamClose_still s).trans (deferClose_still _))
  | flushed => exact st (Sizes.streamClose_still s)
  | free hl h1 => exact st (freeClient_still s)
  | idle hl h1 h2 => exact st ((Sizes.Still.upd s).trans (freeClient_still _))
  | encoded f hr he => exact st ((Sizes.Still.upd _).trans (.emit _))
  | setLed v => exact st ((Sizes.Still.upd _).trans (.emit _))
  | damage r => exact st ((Sizes.Still.upd _).trans (.emit _))
  | net => exact st (.world rfl rfl)
  | display => exact st (.world rfl rfl)
  | setCursor => exact st (.world rfl rfl)
  | _ => exact st (.upd _)

theorem drawn_lifts : Lifts table (fun _ => True) (fun _ => True)
    fun srv c l => Sized c l ∧ Drawn c l ∧ c.cursorSeq ≤ srv.cursorSeq where
  start srv _ := by
    have hn : ∀ x, x ∈ (start srv).log → x = .send .plain .version versionMsg := fun x hx => by simpa [start] using hx
    refine ⟨⟨rfl, fun _ => rfl, fun hr => (by cases hr), fun a ch b d hl => ?_, fun a ch b d hl => ?_⟩,
      ⟨fun a ch b d hl => ?_, Nat.le_of_eq rfl⟩, Nat.zero_le _⟩
    · cases hn (.send ch .resizeRect b) (by rw [hl]; simp)
    · cases hn (.send ch .frame b) (by rw [hl]; simp)
    · cases hn (.send ch .cursor b) (by rw [hl]; simp)
  self s s' hm _ _ h := ⟨trivial, micro_sized hm h.1, micro_drawn hm h.1 h.2.1 h.2.2⟩
  other s s' c l hm _ _ h := ⟨h.1, h.2.1, by rcases micro_seq hm with g | g <;> omega⟩
  api o f srv _ ha _ := ⟨trivial, fun c l h => ⟨h.1, h.2.1, by
    have := h.2.2
    cases ha <;> first | exact this | exact Nat.le_succ_of_le this⟩⟩
  cut s zip text _ hb _ h := by
    have hm := cutTextTo_still text s
    have hc := cutTextTo_cl text s
    have h1 := h.1.still hm
    have h2 := h.2.1.still hm
    rw [hc] at h1 h2
    exact ⟨h1, h2, h.2.2⟩

/-! ## The application sets a cursor -/

theorem step_seq {o : Server.Op} {env : Env} {net : List Read} {s t : St} (hb : Base s)
    (ho : Server.Op.calm o = true) (e : step table o env net s = .ok t) : t.srv.cursorSeq = s.srv.cursorSeq :=
  (step_invW (wd := false) (I := fun u => u.srv.cursorSeq = s.srv.cursorSeq)
    (fun _ _ hm _ h => by
      rcases micro_seq hm with g | g
      · exact g.trans h
      · cases g.1) (.inr ho) hb rfl e).2

/-- what all clients share of the picture and of the cursor -/
def Same (a b : Srv) : Prop := b.fb = a.fb ∧ b.cursorSeq = a.cursorSeq

theorem Same.trans {a b c : Srv} (h : Same a b) (h' : Same b c) : Same a c := ⟨h'.1.trans h.1, h'.2.trans h.2⟩

theorem kick_same {r : Region} {w : Nat → Env × List Read} {j : Nat} {s t : St} (hb : Base s)
    (e : kick table r w j s = .ok t) : Same s.srv t.srv := by
  unfold kick at e
  exact ⟨(step_kept hb rfl e).fb, step_seq hb rfl e⟩

/-- a loop over all clients that leaves what they share alone -/
theorem each_same {f : Nat → St → Outcome St} (hf : ∀ j s t, Base s → f j s = .ok t → Same s.srv t.srv) :
    ∀ (ps : List Peer) (k : Nat) (srv srv' : Srv) (ps' : List Peer),
    (∀ p ∈ ps, ∀ srv, Base (p.at srv)) → each f k ps srv = .ok (srv', ps') → Same srv srv' ∧
      ∀ i p, ps[i]? = some p → ∃ sv t, Same srv sv ∧ f (k + i) (p.at sv) = .ok t ∧ ps'[i]? = some (Peer.of t) := by
  intro ps
  induction ps with
  | nil => intro k srv srv' ps' _ e; cases e; exact ⟨⟨rfl, rfl⟩, by simp⟩
  | cons p ps ih =>
    intro k srv srv' ps' hb e
    obtain ⟨t, ht, e⟩ := Outcome.bind_eq_ok.1 e
    obtain ⟨⟨srv2, ps2⟩, he, e⟩ := Outcome.bind_eq_ok.1 e
    cases e
    have h1 : Same srv t.srv := hf _ _ _ (hb p (.head _) srv) ht
    obtain ⟨h2, h3⟩ := ih _ _ _ _ (fun q hq => hb q (.tail _ hq)) he
    refine ⟨h1.trans h2, fun i q hq => ?_⟩
    cases i with
    | zero =>
      cases hq
      exact ⟨srv, t, ⟨rfl, rfl⟩, ht, rfl⟩
    | succ i =>
      obtain ⟨sv, u, g1, g2, g3⟩ := h3 i q hq
      exact ⟨sv, u, h1.trans g1, by rw [show k + (i + 1) = k + 1 + i by omega]; exact g2, g3⟩

theorem sysStep_seq {o : SysOp} {s s' : Sys} (hb : ∀ p ∈ s.peers, ∀ srv, Base (p.at srv))
    (e : sysStep table o s = .ok s') : s'.srv.cursorSeq = s.srv.cursorSeq + if sets o then 1 else 0 := by
  unfold sysStep at e
  split at e
  · split at e <;> cases e <;> rfl
  · rename_i i o env net
    unfold clientStep at e
    split at e
    · cases e; rfl
    · rename_i p hp
      split at e
      · cases e; rfl
      · next ho =>
        obtain ⟨t, ht, e⟩ := Outcome.bind_eq_ok.1 e
        have hp' := hb p (List.mem_of_getElem? hp)
        have hk : t.srv.cursorSeq = s.srv.cursorSeq :=
          step_seq (hp' s.srv) (by cases o <;> first | rfl | simp [System.Op.own] at ho) ht
        dsimp only at e
        split at e
        · obtain ⟨⟨srv2, ps2⟩, he, e⟩ := Outcome.bind_eq_ok.1 e
          cases e
          have hbt : Base t := (step_inv (I := fun _ => True) (fun _ _ _ _ _ => trivial) (hp' s.srv) trivial ht).1
          refine Eq.trans (each_same (f := closeOther i) (fun j u v _ h => ?_) _ _ _ _ _ (fun q hq srv => ?_) he).1.2 hk
          · unfold closeOther at h
            cases h
            split
            · exact ⟨rfl, rfl⟩
            · obtain ⟨_, h3⟩ := freeClient_near u
              rw [h3]; exact ⟨rfl, rfl⟩
          · rcases List.mem_or_eq_of_mem_set hq with hq | rfl
            · exact hb q hq srv
            · exact hbt
        · cases e; exact hk
  · obtain ⟨⟨srv2, ps2⟩, he, e⟩ := Outcome.bind_eq_ok.1 e
    cases e
    exact (each_same (fun _ _ _ => kick_same) _ _ _ _ _ hb he).1.2
  · obtain ⟨⟨srv2, ps2⟩, he, e⟩ := Outcome.bind_eq_ok.1 e
    cases e
    exact (each_same (fun _ _ _ => kick_same) _ _ _ _ _ hb he).1.2
  · cases e; rfl
  · cases e; rfl
  · cases e; rfl
  · cases e; rfl
  · rename_i zip text
    obtain ⟨⟨srv2, ps2⟩, he, e⟩ := Outcome.bind_eq_ok.1 e
    cases e
    have h1 := (each_same (fun j u t _ h => by cases h; rw [cutTextTo_srv]; exact ⟨rfl, rfl⟩) _ _ _ _ _ hb he).1.2
    have h2 : (cutTextSave zip text s).cursorSeq = s.srv.cursorSeq := by
      unfold cutTextSave saveProvide
      split <;> rfl
    exact h1.trans h2

theorem sysRun_seq (ops : List SysOp) : ∀ {s s' : Sys}, Based s → sysRun table ops s = .ok s' →
    s'.srv.cursorSeq = s.srv.cursorSeq + ops.countP sets := by
  induction ops with
  | nil => intro s s' _ e; cases e; rfl
  | cons o ops ih =>
    intro s s' hb e
    obtain ⟨t, ht, e⟩ := Outcome.bind_eq_ok.1 e
    rw [ih (based_step hb ht) e, sysStep_seq hb ht, List.countP_cons]
    omega

theorem drawn_all {s0 s : Sys} {ops : List SysOp} (h0 : s0.peers = []) (e : sysRun table ops s0 = .ok s)
    {p : Peer} (hp : p ∈ s.peers) : Drawn p.cl p.log ∧ p.cl.cursorSeq ≤ s.srv.cursorSeq :=
  ((drawn_lifts.sysRun ops (fun _ _ => trivial) (show Inv _ _ s0 from
    ⟨trivial, by rw [h0]; intro p hp; cases hp⟩) e).2 p hp).2.2

/-- **C128**: cursors are sent only to clients that named -239 last, each in an update of its own. -/
theorem c128_wanted {s0 s : Sys} {ops : List SysOp} (h0 : s0.peers = []) (e : sysRun table ops s0 = .ok s)
    {p : Peer} (hp : p ∈ s.peers) {a d : List Eff} {ch : Chan} {b : Bytes}
    (hl : p.log = a ++ .send ch .cursor b :: d) : Wanted a b :=
  (drawn_all h0 e hp).1.wanted a ch b d hl

/-- **C128**: no client gets more cursors than the application has set. -/
theorem c128_count {s0 s : Sys} {ops : List SysOp} (h0 : s0.peers = []) (hn : s0.srv.cursorSeq = 0)
    (e : sysRun table ops s0 = .ok s) {p : Peer} (hp : p ∈ s.peers) :
    p.log.countP drawn ≤ ops.countP sets := by
  obtain ⟨h1, h2⟩ := drawn_all h0 e hp
  have h3 := sysRun_seq ops (based_nil h0) e
  have := h1.count
  omega

/-- the client does not have to be told about the extensions any more -/
def noted (s : St) : St := s.upd fun k => { k with extNotified := true }

theorem stageExt_silent {reenter : St → Outcome St} {s : St}
    (hx : s.cl.extNotified = true ∨ -258 ∉ s.cl.encodings ∧ -1001 ∉ s.cl.encodings) :
    stageExt reenter s = .ok (noted s, true) := by
  unfold stageExt
  split
  · rename_i h
    have : noted s = s := by
      obtain ⟨srv, cl, log, net⟩ := s
      unfold noted St.upd
      dsimp only at h ⊢
      rw [← h]
    rw [this]
  · rename_i h
    obtain ⟨h1, h2⟩ := hx.resolve_left h
    dsimp only
    rw [Extensions.sendExtSupport_eq, if_neg]
    · rfl
    · rintro (h | h)
      · exact h1 h
      · exact h2 h

/-- what is done about the requests of a client that is not told about extensions -/
theorem process_stages {I : St → Prop} {reenter : St → Outcome St} (hI : ∀ s, I s → s.cl.st = .ready)
    (hm : ∀ s s', Micro false table s s' → I s → I s') (hre : Keeps I reenter) {s s' : St}
    (ho : s.cl.closed = false) (hu : s.cl.isUpdating = false) (hb : s.srv.fb ≠ none)
    (hp : s.cl.cont = true ∨ s.cl.nPending ≠ 0)
    (hx : s.cl.extNotified = true ∨ -258 ∉ s.cl.encodings ∧ -1001 ∉ s.cl.encodings)
    (hs : (∃ w b, stageCursor env reenter (noted s) = .ok (w, b) ∧ I w) ∨
      stageCursor env reenter (noted s) = .ok (noted s, true) ∧
        (sendLed (noted s)).2 = true ∧ I (sendLed (noted s)).1)
    (e : processFb env reenter s = .ok s') : I s' := by
  unfold processFb at e
  rw [if_neg (by simp [ho])] at e
  cases hfb : s.srv.fb with
  | none => exact absurd hfb hb
  | some fb =>
  rw [hfb] at e
  dsimp only at e
  rw [if_neg (by simp [hu]), if_neg (by rcases hp with h | h <;> simp [h])] at e
  rw [stageExt_silent hx, Outcome.bind_ok] at e
  dsimp only at e
  rw [if_neg (by decide)] at e
  rcases hs with ⟨w, b, hw, i2⟩ | ⟨hw, hl, hi⟩
  · rw [hw, Outcome.bind_ok] at e
    cases b
    · cases e; exact i2
    obtain ⟨⟨x, b⟩, hx, e⟩ := Outcome.bind_eq_ok.1 e
    have i3 := stageLed_inv hI hm hre i2 hx
    cases b
    · cases e; exact i3
    exact hm _ _ (.frame x env _ (hI _ i3) e) i3
  · rw [hw, Outcome.bind_ok] at e
    dsimp only at e
    rw [if_neg (by decide)] at e
    obtain ⟨⟨x, b⟩, hx, e⟩ := Outcome.bind_eq_ok.1 e
    have i3 : I x := by
      unfold stageLed at hx
      generalize sendLed (noted s) = q at hx hl hi
      obtain ⟨q1, q2⟩ := q
      cases hl
      exact decrementPending_inv hI hm hre hi hx
    cases b
    · cases e; exact i3
    exact hm _ _ (.frame x env _ (hI _ i3) e) i3

theorem sendCursor_sent {s : St} {m : Bytes} (ho : s.cl.closed = false) (hm : env.cursorMsg s.cl.pix = some m) :
    (sendCursor env s).log = s.log ++ [.send s.cl.chan .cursor ([0, 0, 0, 1] ++ m)] ∧
      (sendCursor env s).cl.st = s.cl.st ∧ (sendCursor env s).cl.freed = s.cl.freed := by
  unfold sendCursor
  rw [hm]
  dsimp only
  rw [send_log, send_cl, if_neg (by simpa [St.upd] using ho), show updateHead 1 = [0, 0, 0, 1] by decide +kernel]
  exact ⟨rfl, rfl, rfl⟩

/-- the requests of a client are looked at when it does not have the latest cursor -/
theorem process_cursor {I : St → Prop} {reenter : St → Outcome St} (hI : ∀ s, I s → s.cl.st = .ready)
    (hm : ∀ s s', Micro false table s s' → I s → I s') (hre : Keeps I reenter) {s s' : St}
    (ho : s.cl.closed = false) (hu : s.cl.isUpdating = false) (hb : s.srv.fb ≠ none)
    (hp : s.cl.cont = true ∨ s.cl.nPending ≠ 0)
    (hx : s.cl.extNotified = true ∨ -258 ∉ s.cl.encodings ∧ -1001 ∉ s.cl.encodings)
    (hn : -239 ∈ s.cl.encodings)
    (hq : s.srv.cursorSeq ≠ s.cl.cursorSeq) (hi : I (sendCursor env (noted s)))
    (e : processFb env reenter s = .ok s') : I s' := by
  have hE : hasEnc s.cl encCursor = true := by
    unfold hasEnc encCursor; rw [List.contains_iff_mem]; exact hn
  have hs : stageCursor env reenter (noted s) = decrementPending reenter (sendCursor env (noted s)) := by
    unfold stageCursor; rw [if_pos ⟨by exact hq, by exact hE⟩]
  cases hd : decrementPending reenter (sendCursor env (noted s)) with
  | ok r =>
    exact process_stages hI hm hre ho hu hb hp hx
      (.inl ⟨r.1, r.2, hs.trans hd, decrementPending_inv hI hm hre hi hd⟩) e
  | _ =>
    unfold processFb at e
    rw [if_neg (by simp [ho])] at e
    cases hfb : s.srv.fb with
    | none => exact absurd hfb hb
    | some fb =>
    rw [hfb] at e
    dsimp only at e
    rw [if_neg (by simp [hu]), if_neg (by rcases hp with h | h <;> simp [h])] at e
    rw [stageExt_silent hx, Outcome.bind_ok] at e
    dsimp only at e
    rw [if_neg (by decide), hs, hd] at e
    cases e

/-- a record that only gets longer, of a client that stays -/
def Begins (L : List Eff) : St → Prop := Alive fun s => L <+: s.log

theorem micro_begins {L : List Eff} {lp : Bool} (s s' : St) (hm : Micro lp table s s') (h : L <+: s.log) :
    L <+: s'.log := by
  obtain ⟨es, h1, -⟩ := (micro_levels hm).log
  rw [h1]; exact h.trans (List.prefix_append _ _)

/-- **C128**: when the application sets a cursor, every client gets it that named -239, waits for an update and has none
under way. (It is not about to be told about extensions: that comes first.)

Missing: cursors that cannot be encoded, see `c128_unencoded_violated`. -/
theorem c128_served_partial {s0 s s' : Sys} {ops : List SysOp} (h0 : s0.peers = []) (e : sysRun table ops s0 = .ok s)
    {w : Nat → Env × List Read} (e' : sysStep table (.cursor w) s = .ok s') {i : Nat} {p : Peer}
    (hp : s.peers[i]? = some p) (hr : p.cl.st = .ready) (hf : p.cl.freed = false) (ho : p.cl.closed = false)
    (hu : p.cl.isUpdating = false) (hb : s.srv.fb ≠ none) (hw : p.cl.cont = true ∨ p.cl.nPending ≠ 0)
    (hx : p.cl.extNotified = true ∨ -258 ∉ p.cl.encodings ∧ -1001 ∉ p.cl.encodings) (hn : -239 ∈ p.cl.encodings)
    {m : Bytes}
    (hm : (w i).1.cursorMsg p.cl.pix = some m) :
    ∃ p' d, s'.peers[i]? = some p' ∧ p'.log = p.log ++ d ∧ .send p.cl.chan .cursor ([0, 0, 0, 1] ++ m) ∈ d := by
  obtain ⟨-, h2⟩ := drawn_all h0 e (List.mem_of_getElem? hp)
  have hbs : Based s := based_run (based_nil h0) e
  unfold sysStep at e'
  dsimp only at e'
  obtain ⟨⟨srv2, ps2⟩, he, e'⟩ := Outcome.bind_eq_ok.1 e'
  cases e'
  obtain ⟨-, h4⟩ := each_same (fun _ _ _ => kick_same) _ _ _ _ _ hbs he
  obtain ⟨sv, t, ⟨g1, g2⟩, g3, g4⟩ := h4 i p hp
  rw [Nat.zero_add] at g3
  unfold kick step event at g3
  rw [if_neg (by show ¬ p.cl.freed = true; simp [hf])] at g3
  dsimp only at g3
  rw [if_neg (by show ¬ p.cl.closed = true; simp [ho])] at g3
  generalize hv : emit (.damaged []) _ = v at g3
  have v1 : v.cl = { p.cl with damage := p.cl.damage ++ [] } := by rw [← hv]; rfl
  have v2 : v.log = p.log ++ [.damaged []] := by rw [← hv]; rfl
  have v3 : v.srv = sv := by rw [← hv]; rfl
  obtain ⟨k1, k2, k3⟩ := sendCursor_sent (env := (w i).1) (s := noted v) (m := m)
    (by show v.cl.closed = _; rw [v1]; exact ho) (by show _ = some m; unfold noted St.upd; rw [v1]; exact hm)
  have key : Begins (sendCursor (w i).1 (noted v)).log t :=
    process_cursor (table := table) (I := Begins (sendCursor (w i).1 (noted v)).log)
    (fun _ h => h.2.2) (micro_alive micro_begins) (reenterTop_keeps micro_begins) (by rw [v1]; exact ho)
    (by rw [v1]; exact hu) (by rw [v3, g1]; exact hb) (by rw [v1]; exact hw) (by rw [v1]; exact hx)
    (by rw [v1]; exact hn) (by
      rw [v3, v1, g2]
      show s.srv.cursorSeq + 1 ≠ p.cl.cursorSeq
      omega)
    ⟨List.prefix_refl _, by rw [k3]; show v.cl.freed = _; rw [v1]; exact hf, by rw [k2]; show v.cl.st = _; rw [v1]; exact hr⟩ g3
  obtain ⟨d, hd⟩ := key.1
  rw [k1, show (noted v).log = v.log from rfl, show (noted v).cl.chan = v.cl.chan from rfl, v2, v1] at hd
  refine ⟨Peer.of t, .damaged [] :: .send p.cl.chan .cursor ([0, 0, 0, 1] ++ m) :: d, g4, ?_, by simp⟩
  · show t.log = p.log ++ (.damaged [] :: .send p.cl.chan .cursor ([0, 0, 0, 1] ++ m) :: d)
    rw [← hd, List.append_assoc, List.append_assoc]; rfl

/-- **C128**: a client that does not have the latest cursor gets it with its next request, of whatever kind, before
anything else is sent.

Missing: cursors that cannot be encoded, see `c128_unencoded_violated`. -/
theorem c128_asked_partial {s s' : St} (hr : s.cl.st = .ready) (ho : s.cl.closed = false)
    (hu : s.cl.isUpdating = false) (hb : s.srv.fb ≠ none) (hp : 0 ≤ s.cl.nPending) (hc : s.cl.cont = false)
    (hx : s.cl.extNotified = true ∨ -258 ∉ s.cl.encodings ∧ -1001 ∉ s.cl.encodings) (hn : -239 ∈ s.cl.encodings)
    (hs : s.srv.cursorSeq ≠ s.cl.cursorSeq) {m : Bytes}
    (hm : env.cursorMsg s.cl.pix = some m) {inc : UInt8} {q : Rect} (hq : q.Fits) {rest : Bytes} {n : Nat}
    (e : tryRead env table reenterInHandler s ((Msg.fbRequest inc q).wire ++ rest) = .ok (s', n)) :
    s.log ++ [.fbReq (inc != 0) q.x q.y q.w q.h, .send s.cl.chan .cursor ([0, 0, 0, 1] ++ m)] <+: s'.log := by
  rw [msg_fbRequest hr hq, if_neg (by simp [hc])] at e
  obtain ⟨t, ht, e⟩ := Outcome.bind_eq_ok.1 e
  cases e
  obtain ⟨h1, h2, ⟨kw, kh, h3⟩, h4⟩ := fbReqPre_frame (inc != 0) q s
  generalize fbReqPre (inc != 0) q s = u at ht h1 h2 h3 h4
  obtain ⟨k1, k2, k3⟩ := sendCursor_sent (env := env) (s := noted u) (m := m)
    (by show u.cl.closed = _; rw [h3]; exact ho) (by unfold noted St.upd; rw [h3]; exact hm)
  have hmi : ∀ v v', Micro false table v v' → (v.cl.st = .ready ∧ (sendCursor env (noted u)).log <+: v.log) →
      v'.cl.st = .ready ∧ (sendCursor env (noted u)).log <+: v'.log := fun v v' hm h =>
    ⟨micro_ready hm h.1, micro_begins v v' hm h.2⟩
  have key := process_cursor (I := fun v => v.cl.st = .ready ∧ (sendCursor env (noted u)).log <+: v.log) (fun _ h => h.1) hmi
    (reenterInHandler_keeps hmi) (by rw [h3]; exact ho) (by rw [h3]; exact hu) (by rw [h1]; exact hb)
    (.inr (by rw [h3]; show s.cl.nPending + 1 ≠ 0; omega)) (by rw [h3]; exact hx) (by rw [h3]; exact hn)
    (by rw [h1, h3]; exact hs) ⟨by rw [k2]; show u.cl.st = _; rw [h3]; exact hr, List.prefix_refl _⟩ ht
  have := key.2
  rw [k1, show (noted u).log = u.log from rfl, show (noted u).cl.chan = u.cl.chan from rfl, h4, h3, List.append_assoc] at this
  exact this

/-- one client of a server, and what happens to it -/
def alone (ops : List (Op × Env × List Read)) : List SysOp :=
  .connect :: ops.map fun x => .client 0 x.1 x.2.1 x.2.2

def cursors (l : List Eff) : List Bytes :=
  l.filterMap fun e => match e with
    | .send _ .cursor b => some b
    | _ => none

/-- a run of a server that ends well, and what holds at its end -/
def sysCheck (ops : List SysOp) (f : Sys → Bool) : Bool :=
  match sysRun [] ops (fresh [] (some demoFb)) with
  | .ok s => f s
  | _ => false

def ask : Op × Env × List Read := reads (Msg.fbRequest 1 ⟨0, 0, 4, 3⟩).wire

/-- a client that has had a frame and asks for the next -/
def waiting (encs : List Int) : List SysOp :=
  alone (enter encs ++ [reads fullReq, (.encoded demoFrame, cursorEnv, []), (.written, cursorEnv, []), ask])

/-- What `c128_served_partial` asks for is met by a client that waits for the next update. -/
example : sysCheck (waiting [0, -239]) (fun s => match s.peers with
    | [p] => p.cl.st == .ready && !p.cl.freed && !p.cl.closed && !p.cl.isUpdating && s.srv.fb.isSome &&
      decide (p.cl.nPending ≠ 0) && p.cl.extNotified && p.cl.encodings.contains (-239) && cursors p.log == []
    | _ => false) = true := by decide +kernel

/-- It gets the first cursor at once, and one more when it asks, although two were set in between; then none until another
one is set. -/
example : sysCheck (waiting [0, -239] ++ [.cursor fun _ => (cursorEnv, []), .cursor fun _ => (cursorEnv, []),
      .cursor fun _ => (cursorEnv, []), .client 0 ask.1 ask.2.1 ask.2.2, .client 0 ask.1 ask.2.1 ask.2.2])
    (fun s => s.peers.map (fun p => cursors p.log) == [[[0, 0, 0, 1, 7], [0, 0, 0, 1, 7]]]) = true := by decide +kernel

/-- A cursor that was set before the first request comes with that request if there are no extensions to announce, and
with the second otherwise. -/
example : sysCheck (alone (enter [0, -239]) ++ [.cursor fun _ => (cursorEnv, []), .client 0 ask.1 ask.2.1 ask.2.2])
    (fun s => s.peers.map (fun p => cursors p.log) == [[[0, 0, 0, 1, 7]]]) = true ∧
  sysCheck (alone (enter [0, -239, -258]) ++ [.cursor fun _ => (cursorEnv, []), .client 0 ask.1 ask.2.1 ask.2.2])
    (fun s => s.peers.map (fun p => cursors p.log) == [[]]) = true ∧
  sysCheck (alone (enter [0, -239, -258]) ++ [.cursor fun _ => (cursorEnv, []), .client 0 ask.1 ask.2.1 ask.2.2,
      .client 0 ask.1 ask.2.1 ask.2.2])
    (fun s => s.peers.map (fun p => cursors p.log) == [[[0, 0, 0, 1, 7]]]) = true := by
  refine ⟨?_, ?_, ?_⟩ <;> decide +kernel

/-- A client without -239 gets none. -/
example : sysCheck (waiting [0] ++ [.cursor fun _ => (cursorEnv, []), .client 0 ask.1 ask.2.1 ask.2.2])
    (fun s => s.peers.map (fun p => cursors p.log) == [[]]) = true := by decide +kernel

/-- **C128** is false for cursors that cannot be encoded: the request of the client is used up although nothing is sent
(server.c 892-898). The client has asked for a second update and the picture has changed since, but nothing is under
way and nothing will be. -/
theorem c128_unencoded_violated : ∃ s, run [] (enter [0, -239] ++ [reads fullReq, (.encoded demoFrame, cursorEnv, []),
      (.written, cursorEnv, []), ask, (.cursor, demoEnv, []), (.damage [⟨0, 0, 1, 1⟩], cursorEnv, [])])
      (start demoSrv) = .ok s ∧ s.cl.closed = false ∧ s.log.countP Eff.isRequest = 2 ∧
    s.log.countP Eff.isUpdate = 1 ∧ cursors s.log = [] ∧ Region.Has s.cl.damage 0 0 ∧ s.cl.nPending = 0 ∧
    s.cl.isUpdating = false := by
  obtain ⟨s, h1, h2⟩ := runCheck_iff.1 (show runCheck (enter [0, -239] ++ [reads fullReq,
      (.encoded demoFrame, cursorEnv, []), (.written, cursorEnv, []), ask, (.cursor, demoEnv, []),
      (.damage [⟨0, 0, 1, 1⟩], cursorEnv, [])])
    (fun s => decide (s.cl.closed = false ∧ s.log.countP Eff.isRequest = 2 ∧ s.log.countP Eff.isUpdate = 1 ∧
      cursors s.log = [] ∧ s.cl.damage = [⟨0, 0, 1, 1⟩] ∧ s.cl.nPending = 0 ∧ s.cl.isUpdating = false)) = true from by
    decide +kernel)
  obtain ⟨a1, a2, a3, a4, a5, a6, a7⟩ := of_decide_eq_true h2
  exact ⟨s, h1, a1, a2, a3, a4, by rw [a5]; exact ⟨_, List.mem_singleton.2 rfl, by decide⟩, a6, a7⟩

end Verif.Pointers
