import Verif.Lemmas.ServerHs

/-!
# Invariants of micro steps are invariants of runs
-/

namespace Verif.Server

variable {wd : Bool} {table : List Nat} {I : St → Prop}

theorem SendsOnly.refl (s) : SendsOnly s s := ⟨[], by simp, by simp⟩

theorem SendsOnly.send (s k b) (hk : k.early = false := by rfl) : SendsOnly s (send k b s) := by
  unfold Server.send
  split
  · exact .refl s
  · rename_i h
    exact ⟨_, rfl, fun e he => ⟨by simpa using h, k, b, hk, by simpa using he⟩⟩

theorem SendsOnly.upd (s) (f : Client → Client) : SendsOnly s (s.upd f) := ⟨[], by simp, by simp⟩

theorem SendsOnly.trans {s t u : St} (h1 : t.cl.closed = s.cl.closed) (h2 : t.cl.chan = s.cl.chan)
    (a : SendsOnly s t) (b : SendsOnly t u) : SendsOnly s u := by
  obtain ⟨es, a1, a2⟩ := a
  obtain ⟨fs, b1, b2⟩ := b
  refine ⟨es ++ fs, by rw [b1, a1, List.append_assoc], ?_⟩
  intro e he
  rcases List.mem_append.1 he with he | he
  · exact a2 e he
  · rw [← h1, ← h2]; exact b2 e he

theorem sendPts_frame (p s) : (sendPts p s).srv = s.srv ∧ (sendPts p s).net = s.net ∧
    (sendPts p s).cl = s.cl ∧ SendsOnly s (sendPts p s) := by
  unfold sendPts
  split
  · exact ⟨rfl, rfl, rfl, .refl s⟩
  · split
    · exact ⟨by simp, by simp, by simp, .send _ _ _⟩
    · exact ⟨rfl, rfl, rfl, .refl s⟩

theorem sendResizeRect_frame (w h s) : (sendResizeRect w h s).srv = s.srv ∧
    (sendResizeRect w h s).net = s.net ∧
    (sendResizeRect w h s).cl = { s.cl with
      knownW := w % 65536, knownH := h % 65536,
      damage := s.cl.damage ++ [{ x := 0, y := 0, w := w % 65536, h := h % 65536 }] } ∧
    SendsOnly s (sendResizeRect w h s) := by
  unfold sendResizeRect
  refine ⟨by simp, by simp, by rw [send_cl]; rfl, ?_⟩
  exact .trans (by rfl) (by rfl) (.upd s _) (.send _ _ _)

theorem sendFrame_frame (f s) : (sendFrame f s).srv = s.srv ∧ (sendFrame f s).net = s.net ∧
    (∃ kw kh dm, (sendFrame f s).cl = { s.cl with knownW := kw, knownH := kh, damage := dm } ∧
      (dm = s.cl.damage ∨ ∃ r, dm = s.cl.damage ++ [r])) ∧
    SendsOnly s (sendFrame f s) := by
  unfold sendFrame
  dsimp only
  generalize updateHead (nRectsSent f s.cl % 65536) = hd
  have h1 : ∃ t, t = (if resized f s.cl = true then sendResizeRect f.w f.h (send .updateHead hd s)
      else send .updateHead hd s) ∧ t.srv = s.srv ∧ t.net = s.net ∧
      (∃ kw kh dm, t.cl = { s.cl with knownW := kw, knownH := kh, damage := dm } ∧
        (dm = s.cl.damage ∨ ∃ r, dm = s.cl.damage ++ [r])) ∧ SendsOnly s t := by
    refine ⟨_, rfl, ?_⟩
    split
    · obtain ⟨g1, g2, g3, g4⟩ := sendResizeRect_frame f.w f.h (send .updateHead hd s)
      refine ⟨by rw [g1, send_srv], by rw [g2, send_net],
        ⟨_, _, _, by rw [g3, send_cl], .inr ⟨_, rfl⟩⟩,
        .trans (by simp) (by simp) (.send _ _ _) g4⟩
    · exact ⟨by simp, by simp, ⟨s.cl.knownW, s.cl.knownH, s.cl.damage, by simp, .inl rfl⟩,
        .send _ _ _⟩
  obtain ⟨t, ht, h2, h3, ⟨kw, kh, dm, h4, h4'⟩, h5⟩ := h1
  rw [← ht]
  obtain ⟨g1, g2, g3, g4⟩ := sendPts_frame f.pts t
  refine ⟨by rw [send_srv, g1, h2], by rw [send_net, g2, h3],
    ⟨kw, kh, dm, by rw [send_cl, g3, h4], h4'⟩, ?_⟩
  refine .trans (by rw [g3, h4]) (by rw [g3, h4])
    (.trans (by rw [h4]) (by rw [h4]) h5 g4) (.send _ _ _)

theorem forgetSize_frame (inc s) : ∃ kw kh, forgetSize inc s =
    s.upd fun k => { k with knownW := kw, knownH := kh } := by
  unfold forgetSize
  split
  · exact ⟨_, _, rfl⟩
  · exact ⟨s.cl.knownW, s.cl.knownH, rfl⟩

theorem fbReqPre_frame (inc r s) : (fbReqPre inc r s).srv = s.srv ∧ (fbReqPre inc r s).net = s.net ∧
    (∃ kw kh, (fbReqPre inc r s).cl = { s.cl with
      nPending := s.cl.nPending + 1, damage := if inc then s.cl.damage else s.cl.damage ++ [r],
      knownW := kw, knownH := kh }) ∧
    (fbReqPre inc r s).log = s.log ++ [.fbReq inc r.x r.y r.w r.h] := by
  unfold fbReqPre
  dsimp only
  obtain ⟨kw, kh, h⟩ := forgetSize_frame inc (emit (.fbReq inc r.x r.y r.w r.h) (s.upd fun k =>
    { k with nPending := k.nPending + 1, damage := if inc then k.damage else k.damage ++ [r] }))
  rw [h]
  exact ⟨rfl, rfl, ⟨kw, kh, rfl⟩, rfl⟩

theorem freeClient_frame (s) : (freeClient s).cl = { (streamClose s).cl with freed := true, encoder := none } ∧
    (freeClient s).log = (streamClose s).log ∧ (freeClient s).net = (streamClose s).net ∧
    (∃ n, (freeClient s).srv = { (streamClose s).srv with nDamageClients := n }) :=
  ⟨rfl, rfl, rfl, ⟨_, rfl⟩⟩

theorem MicroW.mono {s s'} (h : MicroW wd false table s s') : MicroW wd true table s s' := by
  cases h with
  | fenceOut flags payload hr h hf => exact .fenceOut s flags payload hr h hf
  | inflight hr v => exact .inflight s hr v
  | pfDec hr h h2 => exact .pfDec s hr h h2
  | pfFire hr h hp => exact .pfFire s hr h hp
  | ext hr h => exact .ext s hr h
  | cursor env hr h h2 => exact .cursor s env hr h h2
  | led hr => exact .led s hr
  | dec hr => exact .dec s hr
  | frame env fb hr h => exact .frame s env fb hr h
  | complete hr => exact .complete s hr
  | redo hr h h2 => exact .redo s hr h h2
  | sendFrame f hr hd h hf => exact .sendFrame s f hr hd h hf
  | writing hr => exact .writing s hr
  | hs env r a h h2 => exact .hs s env r a h h2
  | simple env a h h2 => exact .simple s env a h h2
  | fbReq inc r h => exact .fbReq s inc r h
  | contOn r h => exact .contOn s r h
  | contOff h => exact .contOff s h
  | fenceReq flags payload h hp h2 => exact .fenceReq s flags payload h hp h2
  | head h => exact .head s h
  | consume _ _ _ hl => cases hl
  | recv _ hl => cases hl
  | compact hl => cases hl
  | bigCut env c d hr hc h h2 => exact .bigCut s env c d hr hc h h2
  | remoteClosed h => exact .remoteClosed s h
  | free hl => cases hl
  | idle hl => cases hl
  | flushed h => exact .flushed s h
  | net n => exact .net s n
  | encoded f hr h => exact .encoded s f hr h
  | written hr h => exact .written s hr h
  | damage r h => exact .damage s r h
  | display fb hw => exact .display s fb hw
  | setCursor hw => exact .setCursor s hw
  | setLed v => exact .setLed s v

/-- message handlers leave the receive buffer alone and do not free the client -/
theorem micro_buf {s s'} (h : MicroW wd false table s s') :
    s'.cl.buf = s.cl.buf ∧ s'.cl.idx = s.cl.idx ∧ s'.cl.plain = s.cl.plain ∧
      s'.cl.freed = s.cl.freed := by
  cases h with
  | consume _ _ _ hl => cases hl
  | recv _ hl => cases hl
  | compact hl => cases hl
  | free hl => cases hl
  | idle hl => cases hl
  | fenceOut => simp
  | pfFire => simp
  | ext =>
    rw [(sendExtSupport_frame _).2.2.1]; exact ⟨rfl, rfl, rfl, rfl⟩
  | cursor env =>
    obtain ⟨_, h⟩ := (sendCursor_frame env s).2.2.1
    rw [h]; exact ⟨rfl, rfl, rfl, rfl⟩
  | led =>
    obtain ⟨_, h⟩ := (sendLed_frame s).2.2.1
    rw [h]; exact ⟨rfl, rfl, rfl, rfl⟩
  | frame env fb hr h =>
    obtain ⟨_, _, _, _, _, _, _, _, _, h⟩ := (stageFrame_frame h).2.2.1
    rw [h]; exact ⟨rfl, rfl, rfl, rfl⟩
  | sendFrame f =>
    obtain ⟨_, _, _, h, -⟩ := (sendFrame_frame f s).2.2.1
    rw [h]; exact ⟨rfl, rfl, rfl, rfl⟩
  | hs env r a h h2 =>
    obtain ⟨_, _, _, _, _, _, _, _, _, _, _, h⟩ := (hs_frame h h2).cl
    rw [h]; exact ⟨rfl, rfl, rfl, rfl⟩
  | simple env a h h2 =>
    obtain ⟨_, _, _, _, _, _, _, _, _, h⟩ := h2.frame.cl
    rw [h]; exact ⟨rfl, rfl, rfl, rfl⟩
  | fbReq inc r =>
    obtain ⟨_, _, h⟩ := (fbReqPre_frame inc r s).2.2.1
    rw [h]; exact ⟨rfl, rfl, rfl, rfl⟩
  | contOff => simp
  | fenceReq flags payload h hp h2 =>
    obtain ⟨_, _, _, _, _, h⟩ := (fenceSeen_frame h2).2.2.1
    rw [h]; exact ⟨rfl, rfl, rfl, rfl⟩
  | bigCut env c d hr hc h h2 =>
    obtain ⟨_, _, _, _, _, _, _, _, _, h⟩ := (bigCutText_frame h2).cl
    rw [h]; exact ⟨rfl, rfl, rfl, rfl⟩
  | remoteClosed =>
    obtain ⟨_, _, _, _, _, _, _, _, _, _, _, h⟩ := (remoteClosed_frame (b := .error) s).cl
    rw [h]; exact ⟨rfl, rfl, rfl, rfl⟩
  | flushed =>
    obtain ⟨_, _, _, _, _, _, _, _, _, _, _, h⟩ := (streamClose_frame (b := .error) s).cl
    rw [h]; exact ⟨rfl, rfl, rfl, rfl⟩
  | _ => exact ⟨rfl, rfl, rfl, rfl⟩

/-- nothing that happens to a ready client makes it leave that state -/
theorem micro_ready {lp s s'} (h : MicroW wd lp table s s') (hr : s.cl.st = .ready) :
    s'.cl.st = .ready := by
  cases h with
  | fenceOut => simpa using hr
  | pfFire => simpa using hr
  | ext => rw [(sendExtSupport_frame _).2.2.1]; exact hr
  | cursor env => obtain ⟨_, h⟩ := (sendCursor_frame env s).2.2.1; rw [h]; exact hr
  | led => obtain ⟨_, h⟩ := (sendLed_frame s).2.2.1; rw [h]; exact hr
  | frame env fb _ h =>
    obtain ⟨_, _, _, _, _, _, _, _, _, h⟩ := (stageFrame_frame h).2.2.1
    rw [h]; exact hr
  | sendFrame f => obtain ⟨_, _, _, h, -⟩ := (sendFrame_frame f s).2.2.1; rw [h]; exact hr
  | hs env r a h h2 => exact absurd hr h
  | simple env a h h2 =>
    obtain ⟨_, _, _, _, _, _, _, _, _, h⟩ := h2.frame.cl
    rw [h]; exact hr
  | fbReq inc r => obtain ⟨_, _, h⟩ := (fbReqPre_frame inc r s).2.2.1; rw [h]; exact hr
  | contOff => simpa using hr
  | fenceReq flags payload h hp h2 =>
    obtain ⟨_, _, _, _, _, h⟩ := (fenceSeen_frame h2).2.2.1
    rw [h]; exact hr
  | bigCut env c d _ hc h h2 =>
    obtain ⟨_, _, _, _, _, _, _, _, _, h⟩ := (bigCutText_frame h2).cl
    rw [h]; exact hr
  | remoteClosed =>
    rw [show (remoteClosed s).cl.st = s.cl.st by
      unfold remoteClosed deferClose streamClose deferClose
      split
      · rfl
      · dsimp only; split <;> rfl]
    exact hr
  | flushed =>
    rw [show (streamClose s).cl.st = s.cl.st by
      unfold streamClose deferClose
      split
      · rfl
      · dsimp only; split <;> rfl]
    exact hr
  | free =>
    rw [(freeClient_frame s).1]
    rw [show ({ (streamClose s).cl with freed := true, encoder := none } : Client).st = s.cl.st by
      unfold streamClose deferClose
      split
      · rfl
      · dsimp only; split <;> rfl]
    exact hr
  | idle =>
    rw [(freeClient_frame _).1]
    rw [show ({ (streamClose (s.upd fun k => { k with nDefer := k.nDefer - 1 })).cl with
        freed := true, encoder := none } : Client).st = s.cl.st by
      unfold streamClose deferClose
      split
      · rfl
      · dsimp only; split <;> rfl]
    exact hr
  | _ => exact hr

/-- a client that is not ready has not used any of the update flow -/
structure Fresh (c : Client) : Prop where
  nPending : c.nPending = 0
  cont : c.cont = false
  isUpdating : c.isUpdating = false
  encoding : c.encoding = false
  writing : c.writing = false
  pfN : c.pfN = 0
  blocked : c.blocked = false
  mustBlock : c.mustBlock = false
  cut : c.cut = none
  encoder : c.encoder = none
  encodings : c.encodings = []
  inflight : c.inflight = 0
  cursorSeq : c.cursorSeq = 0
  led : c.led = -1

def Base (s : St) : Prop := s.cl.st ≠ .ready → Fresh s.cl

theorem HsFrame.fresh {b s s'} (h : HsFrame b s s') (hf : Fresh s.cl) : Fresh s'.cl := by
  obtain ⟨_, _, _, _, _, _, _, _, _, _, _, h⟩ := h.cl
  rw [h]
  obtain ⟨a1, a2, a3, a4, a5, a6, a7, a8, a9, b1, b2, b3, b4, b5⟩ := hf
  exact ⟨a1, a2, a3, a4, a5, a6, a7, a8, a9, b1, b2, b3, b4, b5⟩

theorem micro_base {lp s s'} (h : MicroW wd lp table s s') (hb : Base s) : Base s' := by
  by_cases hr : s.cl.st = .ready
  · exact fun hn => absurd (micro_ready h hr) hn
  · have hf := hb hr
    intro _
    have key : ∀ c : Client, (∃ b i p k d n, c = { s.cl with
        buf := b, idx := i, plain := p, pendingLed := k, damage := d, freed := n }) → Fresh c := by
      rintro c ⟨_, _, _, _, _, _, h⟩
      rw [h]
      obtain ⟨a1, a2, a3, a4, a5, a6, a7, a8, a9, b1, b2, b3, b4, b5⟩ := hf
      exact ⟨a1, a2, a3, a4, a5, a6, a7, a8, a9, b1, b2, b3, b4, b5⟩
    cases h with
    | hs env r a h h2 => exact (hs_frame h h2).fresh hf
    | head h =>
      obtain ⟨a1, a2, a3, a4, a5, a6, a7, a8, a9, b1, b2, b3, b4, b5⟩ := hf
      exact ⟨a1, a2, a3, a4, a5, a6, a8, rfl, a9, b1, b2, b3, b4, b5⟩
    | consume => exact key _ ⟨_, _, _, _, _, _, rfl⟩
    | recv => exact key _ ⟨_, _, _, _, _, _, rfl⟩
    | compact => exact key _ ⟨_, _, _, _, _, _, rfl⟩
    | remoteClosed => exact (remoteClosed_frame (b := .error) s).fresh hf
    | flushed => exact (streamClose_frame (b := .error) s).fresh hf
    | free =>
      obtain ⟨a1, a2, a3, a4, a5, a6, a7, a8, a9, b1, b2, b3, b4, b5⟩ :=
        (streamClose_frame (b := .error) s).fresh hf
      exact ⟨a1, a2, a3, a4, a5, a6, a7, a8, a9, rfl, b2, b3, b4, b5⟩
    | idle =>
      have hf' : Fresh (s.upd fun k => { k with nDefer := k.nDefer - 1 }).cl := by
        obtain ⟨a1, a2, a3, a4, a5, a6, a7, a8, a9, b1, b2, b3, b4, b5⟩ := hf
        exact ⟨a1, a2, a3, a4, a5, a6, a7, a8, a9, b1, b2, b3, b4, b5⟩
      obtain ⟨a1, a2, a3, a4, a5, a6, a7, a8, a9, b1, b2, b3, b4, b5⟩ :=
        (streamClose_frame (b := .error) _).fresh hf'
      exact ⟨a1, a2, a3, a4, a5, a6, a7, a8, a9, rfl, b2, b3, b4, b5⟩
    | net => exact hf
    | damage => exact key _ ⟨_, _, _, _, _, _, rfl⟩
    | display => exact hf
    | setCursor => exact hf
    | setLed => exact key _ ⟨_, _, _, _, _, _, rfl⟩
    | simple _ _ h => exact absurd h hr
    | fbReq _ _ h => exact absurd h hr
    | contOn _ h => exact absurd h hr
    | contOff h => exact absurd h hr
    | fenceReq _ _ h => exact absurd h hr
    | _ => contradiction

/-! ## The receive loop -/

theorem tryRead_inv {lp} (h : ∀ s s', MicroW wd lp table s s' → I s → I s') {env reenter}
    (hr : Keeps (fun s => I s ∧ s.cl.st = .ready) reenter) {s a s' n} (hs : I s)
    (hlp : ∀ s s', MicroW wd false table s s' → MicroW wd lp table s s')
    (e : tryRead env table reenter s a = .ok (s', n)) : I s' := by
  by_cases hst : s.cl.st = .ready
  · unfold tryRead at e; rw [hst] at e
    exact (onMessage_inv (I := fun s => I s ∧ s.cl.st = .ready) (fun _ h => h.2)
      (fun t t' hm ht => ⟨h t t' (hlp _ _ hm) ht.1, micro_ready hm ht.2⟩) hr hst ⟨hs, hst⟩ e).1
  · exact h _ _ (.hs s env reenter a hst e) hs

theorem reenterInHandler_ready {lp} (h : ∀ s s', MicroW wd lp table s s' → I s → I s')
    (hlp : ∀ s s', MicroW wd false table s s' → MicroW wd lp table s s') :
    Keeps (fun s => I s ∧ s.cl.st = .ready) reenterInHandler :=
  reenterInHandler_keeps
    (fun t t' hm ht => ⟨h t t' (hlp _ _ hm) ht.1, micro_ready hm ht.2⟩)

theorem tryRead_buf {env s a s' n} (e : tryRead env table reenterInHandler s a = .ok (s', n)) :
    s'.cl.buf = s.cl.buf ∧ s'.cl.idx = s.cl.idx ∧ s'.cl.plain = s.cl.plain ∧
      s'.cl.freed = s.cl.freed := by
  have hm : ∀ t t', MicroW false false table t t' →
      (t.cl.buf = s.cl.buf ∧ t.cl.idx = s.cl.idx ∧ t.cl.plain = s.cl.plain ∧
        t.cl.freed = s.cl.freed) →
      (t'.cl.buf = s.cl.buf ∧ t'.cl.idx = s.cl.idx ∧ t'.cl.plain = s.cl.plain ∧
        t'.cl.freed = s.cl.freed) := by
    intro t t' h ⟨h1, h2, h3, h4⟩
    obtain ⟨g1, g2, g3, g4⟩ := micro_buf h
    exact ⟨g1.trans h1, g2.trans h2, g3.trans h3, g4.trans h4⟩
  exact tryRead_inv (I := fun t => t.cl.buf = s.cl.buf ∧ t.cl.idx = s.cl.idx ∧
    t.cl.plain = s.cl.plain ∧ t.cl.freed = s.cl.freed) hm
    (reenterInHandler_ready hm (fun _ _ h => h)) ⟨rfl, rfl, rfl, rfl⟩ (fun _ _ h => h) e

theorem loop_inv (h : ∀ s s', MicroW wd true table s s' → I s → I s') {env} (fuel : Nat) :
    ∀ {s s'}, I s → loop env table fuel s = .ok s' → I s' := by
  induction fuel with
  | zero => intro s s' hs e; cases e; exact hs
  | succ fuel ih =>
    intro s s' hs e
    unfold loop at e
    split at e
    · cases e; exact hs
    · rename_i hb
      dsimp only at e
      obtain ⟨⟨t, n⟩, ht, e⟩ := Outcome.bind_eq_ok.1 e
      have h1 := tryRead_inv h (reenterInHandler_ready h (fun _ _ h => h.mono))
        (h _ _ (.head s (by simpa using hb)) hs) (fun _ _ h => h.mono) ht
      obtain ⟨b1, b2, b3, -⟩ := tryRead_buf ht
      dsimp only at e
      split at e
      · cases e; exact h1
      · split at e
        · cases e
        · rename_i hle
          rw [← b1, ← b2] at e
          exact ih (h _ _ (.consume t _ _ n rfl (by omega)) h1) e

theorem onReadable_inv (h : ∀ s s', MicroW wd true table s s' → I s → I s') {env rd s s'}
    (hb : Base s) (hf : s.cl.freed = false)
    (hop : s.cl.closed = true → rd = .again ∨ rd = .err) (hs : I s)
    (e : onReadable env table rd s = .ok s') : I s' := by
  unfold onReadable at e
  split at e
  · rename_i c hc
    split at e
    · cases e
    · rename_i hlen
      cases rd with
      | again => cases e; exact hs
      | closed => cases e; exact h _ _ (.remoteClosed s (open_of hop nofun nofun)) hs
      | err => cases e; exact h _ _ (.free s rfl hf) hs
      | data d =>
        cases d with
        | nil => cases e; exact hs
        | cons b d =>
          refine h _ _ (.bigCut s env c _ (Classical.byContradiction fun hn => by
            rw [(hb hn).cut] at hc; cases hc) hc ?_ e) hs
          have := List.length_take_le (min (c.len - c.data.length) msgBufferSize) (b :: d)
          have := Nat.min_le_left (c.len - c.data.length) msgBufferSize
          omega
  · rename_i hc
    split at e
    · cases e
    · rename_i hi
      cases rd with
      | again => cases e; exact hs
      | closed => cases e; exact h _ _ (.remoteClosed s (open_of hop nofun nofun)) hs
      | err => cases e; exact h _ _ (.free s rfl hf) hs
      | data d =>
        cases d with
        | nil => cases e; exact hs
        | cons b d =>
          simp only at e
          split at e
          · split at e <;> cases e
            · exact h _ _ (.remoteClosed s (open_of hop nofun nofun)) hs
            · exact h _ _ (.free s rfl hf) hs
            · exact hs
          · rename_i hfull
            obtain ⟨t, ht, e⟩ := Outcome.bind_eq_ok.1 e
            cases e
            refine h _ _ (.compact t rfl) (loop_inv h _ (h _ _ (.recv s _ rfl hc
              (Classical.not_not.1 hi) ?_) hs) ht)
            have := List.length_take_le (msgBufferSize - s.cl.buf.length) (b :: d)
            omega

theorem nextRead_freed (s : St) : (nextRead s).2.cl.freed = s.cl.freed := by
  unfold nextRead; split
  · rfl
  · dsimp only; split
    · split <;> rfl
    · rfl

/-- inside an event of a ready client: the invariant, and the client is still there -/
def Alive (I : St → Prop) (s : St) : Prop := I s ∧ s.cl.freed = false ∧ s.cl.st = .ready

theorem micro_alive (h : ∀ s s', MicroW wd true table s s' → I s → I s') :
    ∀ s s', MicroW wd false table s s' → Alive I s → Alive I s' :=
  fun s s' hm hs => ⟨h s s' hm.mono hs.1, (micro_buf hm).2.2.2.trans hs.2.1,
    micro_ready hm hs.2.2⟩

theorem reenterTop_keeps (h : ∀ s s', MicroW wd true table s s' → I s → I s') {env} :
    Keeps (Alive I) (reenterTop env table) := by
  intro s s' hs e
  have hk : ∀ s s', MicroW wd true table s s' → (I s ∧ s.cl.st = .ready) → (I s' ∧ s'.cl.st = .ready) :=
    fun _ _ hm ht => ⟨h _ _ hm ht.1, micro_ready hm ht.2⟩
  unfold reenterTop at e
  have h1 := nextRead_inv (fun _ _ hm => hk _ _ hm.mono) ⟨hs.1, hs.2.2⟩
  have h2 := (nextRead_freed s).trans hs.2.1
  have h3 := nextRead_closed s
  generalize nextRead s = res at e h1 h2 h3
  obtain ⟨rd, t⟩ := res
  dsimp only at e
  obtain ⟨u, hu, e⟩ := Outcome.bind_eq_ok.1 e
  split at e
  · cases e
  · rename_i hf
    cases e
    have := onReadable_inv hk (fun hn => absurd h1.2 hn) h2 h3 h1 hu
    exact ⟨this.1, by simpa using hf, this.2⟩

theorem processFb_idle {env reenter s} (h : Fresh s.cl) : processFb env reenter s = .ok s := by
  unfold processFb
  split
  · rfl
  · split
    · rfl
    · rw [if_neg (by simp [h.isUpdating]), if_pos (by simp [h.cont, h.nPending])]

/-- the events that do not change the display or the cursor -/
def Op.calm : Op → Bool
  | .display _ | .cursor => false
  | _ => true

/-- what every micro step preserves, every event preserves -/
theorem step_invW (h : ∀ s s', MicroW wd true table s s' → Base s → I s → I s') {o env net s s'}
    (hw : wd = true ∨ Op.calm o = true) (hb : Base s) (hs : I s) (e : step table o env net s = .ok s') : Base s' ∧ I s' := by
  have hk : ∀ s s', MicroW wd true table s s' → (Base s ∧ I s) → (Base s' ∧ I s') :=
    fun _ _ hm ht => ⟨micro_base hm ht.1, h _ _ hm ht.1 ht.2⟩
  unfold step event at e
  have h0 := hk _ _ (.net s net) ⟨hb, hs⟩
  generalize ({ s with net := net } : St) = t at e h0
  split at e
  · split at e
    · split at e <;> cases e; exact h0
    · cases e; exact h0
  · rename_i hf
    have hf : t.cl.freed = false := by simpa using hf
    have hm := micro_alive hk
    have hr := reenterTop_keeps hk (env := env)
    have flow : ∀ u u', MicroW wd false table t u → processFb env (reenterTop env table) u = .ok u' →
        Base u' ∧ I u' := by
      intro u u' hmu eu
      have hu := hk _ _ hmu.mono h0
      by_cases hst : u.cl.st = .ready
      · exact (processFb_inv (fun _ h => h.2.2) hm hr
          ⟨hu, (micro_buf hmu).2.2.2.trans hf, hst⟩ eu).1
      · rw [processFb_idle (hu.1 hst)] at eu; cases eu; exact hu
    cases o with
    | readable rd =>
      dsimp only at e
      split at e
      · cases e; exact h0
      · rename_i hc; exact onReadable_inv hk h0.1 hf (fun h => absurd h hc) h0 e
    | written =>
      dsimp only at e
      split at e
      · rename_i hw
        have hst : t.cl.st = .ready := Classical.byContradiction fun hn => by
          rw [(h0.1 hn).writing] at hw; cases hw
        exact (completeFb_inv (fun _ h => h.2.2) hm hr
          (hm _ _ (.written t hst hw) ⟨h0, hf, hst⟩) e).1
      · cases e; exact h0
    | encoded f =>
      dsimp only at e
      split at e
      · rename_i hw
        have hst : t.cl.st = .ready := Classical.byContradiction fun hn => by
          rw [(h0.1 hn).encoding] at hw; cases hw
        exact (finishFb_inv (fun _ h => h.2.2) hm hr (by simp [emit])
          (hm _ _ (.encoded t f hst hw) ⟨h0, hf, hst⟩) e).1
      · cases e; exact h0
    | flushed =>
      dsimp only at e
      split at e
      · rename_i hw; cases e; exact hk _ _ (.flushed t hw) h0
      · cases e; exact h0
    | idle =>
      dsimp only at e
      split at e
      · cases e; exact h0
      · rename_i hw; cases e; exact hk _ _ (.idle t rfl hw hf) h0
    | appClose => cases e; exact hk _ _ (.free t rfl hf) h0
    | damage r =>
      dsimp only at e
      by_cases hc : t.cl.closed = true
      · rw [if_pos hc] at e; exact flow _ _ (.net t t.net) e
      · rw [if_neg hc] at e; exact flow _ _ (.damage t r (by simpa using hc)) e
    | display fb => cases e; exact hk _ _ (.display t fb (hw.resolve_right nofun)) h0
    | cursor => exact flow _ _ (.setCursor t (hw.resolve_right nofun)) e
    | setLed v => exact flow _ _ (.setLed t v) e

/-- what every micro step preserves, every event preserves -/
theorem step_inv (h : ∀ s s', Micro true table s s' → Base s → I s → I s') {o env net s s'}
    (hb : Base s) (hs : I s) (e : step table o env net s = .ok s') : Base s' ∧ I s' :=
  step_invW h (.inl rfl) hb hs e

theorem run_inv (h : ∀ s s', Micro true table s s' → Base s → I s → I s') (evs) :
    ∀ {s s'}, Base s → I s → run table evs s = .ok s' → Base s' ∧ I s' := by
  induction evs with
  | nil => intro s s' hb hs e; cases e; exact ⟨hb, hs⟩
  | cons ev evs ih =>
    intro s s' hb hs e
    obtain ⟨o, env, net⟩ := ev
    obtain ⟨t, ht, e⟩ := Outcome.bind_eq_ok.1 e
    obtain ⟨g1, g2⟩ := step_inv h hb hs ht
    exact ih g1 g2 e

theorem start_base (srv) : Base (start srv) :=
  fun _ => ⟨rfl, rfl, rfl, rfl, rfl, rfl, rfl, rfl, rfl, rfl, rfl, rfl, rfl, rfl⟩

end Verif.Server
