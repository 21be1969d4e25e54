import Verif.Model.Server

/-!
# Micro steps

Every event of the server model is a sequence of the micro steps below.  A property of states that
every micro step preserves is preserved by every event (`step_inv`), whatever the nesting of
event handlers.
-/

namespace Verif.Server

theorem ite_cases {α} {c : Prop} [Decidable c] {x y z : α} (h : (if c then x else y) = z) :
    (c ∧ x = z) ∨ (¬ c ∧ y = z) := by
  by_cases hc : c
  · exact .inl ⟨hc, by rwa [if_pos hc] at h⟩
  · exact .inr ⟨hc, by rwa [if_neg hc] at h⟩

/-- the messages of a ready client whose handlers do not look at the update flow -/
inductive Simple (env : Env) (table : List Nat) (s : St) (a : Bytes) : St → Nat → Prop
  | pix {s' n} : onSetPixelFormat s a = .ok (s', n) → Simple env table s a s' n
  | encs {s' n} : onSetEncodings env s a = .ok (s', n) → Simple env table s a s' n
  | key {s' n} : onKey s a = .ok (s', n) → Simple env table s a s' n
  | pointer {s' n} : onPointer s a = .ok (s', n) → Simple env table s a s' n
  | cut {s' n} : onCutText env s a = .ok (s', n) → Simple env table s a s' n
  | qemu {s' n} : onQemu table s a = .ok (s', n) → Simple env table s a s' n
  | size {s' n} : onSetDesktopSize env s a = .ok (s', n) → Simple env table s a s' n
  | ntp {s' n} {h : a.head? = some 160} : onNtp env s a = .ok (s', n) → Simple env table s a s' n

/-- `lp` allows the steps that touch the receive buffer; message handlers do without them.  `wd` allows
the steps with which the application changes what all clients share. -/
inductive MicroW (wd lp : Bool) (table : List Nat) : St → St → Prop
  -- fences and pings
  | fenceOut (s flags payload) (hr : s.cl.st = .ready) (h : payload.length ≤ 64)
      (hf : fenceRequest ≤ flags ∧ flags < 4294967296) : MicroW wd lp table s
      (send .fence ([248, 0, 0, 0] ++ be32 flags ++ [UInt8.ofNat payload.length] ++ payload) s)
  | inflight (s) (hr : s.cl.st = .ready) (v : Int) : MicroW wd lp table s (s.upd fun k => { k with inflight := v })
  | pfDec (s) (hr : s.cl.st = .ready) (h : s.cl.pfN ≠ 0) (h' : s.cl.pfN - 1 ≠ 0) :
      MicroW wd lp table s (s.upd fun k => { k with pfN := k.pfN - 1 })
  | pfFire (s) (hr : s.cl.st = .ready) (h : s.cl.pfN = 1) (hp : s.cl.pfPayload.length ≤ 64) : MicroW wd lp table s
      (send .fence ([248, 0, 0, 0] ++ be32 s.cl.pfFlags ++ [UInt8.ofNat s.cl.pfPayload.length] ++ s.cl.pfPayload)
        (s.upd fun k => { k with pfN := 0, pfFlags := 0, pfPayload := [], blocked := false }))
  -- framebuffer updates
  | ext (s) (hr : s.cl.st = .ready) (h : s.cl.extNotified = false) : MicroW wd lp table s
      (sendExtSupport (s.upd fun k => { k with extNotified := true })).1
  | cursor (s env) (hr : s.cl.st = .ready) (h : s.srv.cursorSeq ≠ s.cl.cursorSeq) (h' : hasEnc s.cl encCursor = true) :
      MicroW wd lp table s (sendCursor env s)
  | led (s) (hr : s.cl.st = .ready) : MicroW wd lp table s (sendLed s).1
  | dec (s) (hr : s.cl.st = .ready) :
      MicroW wd lp table s (s.upd fun k => { k with nPending := k.nPending - 1 })
  | frame (s env fb) (hr : s.cl.st = .ready) {s'} (h : stageFrame env fb s = .ok s') :
      MicroW wd lp table s s'
  | complete (s) (hr : s.cl.st = .ready) : MicroW wd lp table s (s.upd fun k => { k with isUpdating := false })
  | redo (s) (hr : s.cl.st = .ready) (h : s.cl.formatsChanged = true) (h' : hasEnc s.cl encFence = false) :
      MicroW wd lp table s (s.upd fun k => { k with nPending := k.nPending + 1 })
  | sendFrame (s f) (hr : s.cl.st = .ready) (hd : s.log.getLast? = some (.encodeDone f))
      (h : resized f s.cl = false ∨ supportsResizing s.cl = true)
      (hf : s.cl.formatsChanged = false ∨ hasEnc s.cl encFence = true) :
      MicroW wd lp table s (sendFrame f s)
  | writing (s) (hr : s.cl.st = .ready) : MicroW wd lp table s (s.upd fun k => { k with writing := true })
  -- messages
  | hs (s env r a) {s' n} (h : s.cl.st ≠ .ready) (h' : tryRead env table r s a = .ok (s', n)) :
      MicroW wd lp table s s'
  | simple (s env a) {s' n} (h : s.cl.st = .ready) (h' : Simple env table s a s' n) :
      MicroW wd lp table s s'
  | fbReq (s inc r) (h : s.cl.st = .ready) : MicroW wd lp table s (fbReqPre inc r s)
  | contOn (s r) (h : s.cl.st = .ready) :
      MicroW wd lp table s (emit .contOn (s.upd fun k => { k with cont := true, contRect := r }))
  | contOff (s) (h : s.cl.st = .ready) : MicroW wd lp table s
      (send .endOfCont [150]
        (s.upd fun k => { k with cont := false, contRect := { x := 0, y := 0, w := 0, h := 0 } }))
  | fenceReq (s flags payload) {s' b} (h : s.cl.st = .ready) (hp : payload.length ≤ 64)
      (h' : onFenceRequest flags payload (noteFence flags payload s) = .ok (s', b)) :
      MicroW wd lp table s s'
  -- receive loop
  | head (s) (h : s.cl.blocked = false) : MicroW wd lp table s
      (s.upd fun k => { k with blocked := k.mustBlock, mustBlock := false })
  | consume (s st ch n) (hl : lp = true) (h : s.cl.idx + n ≤ s.cl.buf.length) : MicroW wd lp table s
      (emit (.msg st ch ((s.cl.buf.drop s.cl.idx).take n) (min n s.cl.plain))
        (s.upd fun k => { k with idx := k.idx + n, plain := k.plain - min n k.plain }))
  | recv (s d) (hl : lp = true) (hc : s.cl.cut = none) (h : s.cl.idx = 0)
      (h' : s.cl.buf.length + d.length ≤ msgBufferSize) :
      MicroW wd lp table s (s.upd fun k => { k with
        buf := k.buf ++ d, plain := if k.chan = .plain then (k.buf ++ d).length else k.plain })
  | compact (s) (hl : lp = true) : MicroW wd lp table s
      (s.upd fun k => { k with buf := k.buf.drop k.idx, idx := 0 })
  | bigCut (s env c d) (hr : s.cl.st = .ready) {s'} (hc : s.cl.cut = some c) (h : c.data.length + d.length ≤ c.len)
      (h' : bigCutText env c d s = .ok s') : MicroW wd lp table s s'
  -- closing
  | remoteClosed (s) (h : s.cl.closed = false) : MicroW wd lp table s (remoteClosed s)
  | free (s) (hl : lp = true) (h : s.cl.freed = false) : MicroW wd lp table s (freeClient s)
  | idle (s) (hl : lp = true) (h : s.cl.nDefer ≠ 0) (h' : s.cl.freed = false) :
      MicroW wd lp table s (freeClient (s.upd fun k => { k with nDefer := k.nDefer - 1 }))
  | flushed (s) (h : s.cl.closePending = true) : MicroW wd lp table s (streamClose s)
  -- the rest of the world
  | net (s n) : MicroW wd lp table s { s with net := n }
  | encoded (s f) (hr : s.cl.st = .ready) (h : s.cl.encoding = true) :
      MicroW wd lp table s (emit (.encodeDone f) (s.upd fun k => { k with encoding := false }))
  | written (s) (hr : s.cl.st = .ready) (h : s.cl.writing = true) :
      MicroW wd lp table s (s.upd fun k => { k with writing := false })
  | damage (s r) (h : s.cl.closed = false) :
      MicroW wd lp table s (emit (.damaged r) (s.upd fun k => { k with damage := k.damage ++ r }))
  | display (s fb) (hw : wd = true := by rfl) : MicroW wd lp table s { s with srv := { s.srv with fb := fb } }
  | setCursor (s) (hw : wd = true := by rfl) : MicroW wd lp table s
      { s with srv := { s.srv with cursorSeq := s.srv.cursorSeq + 1 } }
  | setLed (s v) : MicroW wd lp table s (emit (.ledSet v) (s.upd fun k => { k with pendingLed := v }))

/-- with all of them -/
abbrev Micro (lp : Bool) (table : List Nat) := MicroW true lp table

/-! ## Everything is made of micro steps -/

section
variable {wd : Bool} {table : List Nat} {I : St → Prop}

/-- what a nested event handler must satisfy -/
def Keeps (I : St → Prop) (reenter : St → Outcome St) : Prop :=
  ∀ s s', I s → reenter s = .ok s' → I s'

theorem sendFence_inv (hI : ∀ s, I s → s.cl.st = .ready)
    (h : ∀ s s', MicroW wd false table s s' → I s → I s') {flags payload s s'}
    (hf : fenceRequest ≤ flags ∧ flags < 4294967296) (hs : I s) (e : sendFence flags payload s = .ok s') : I s' := by
  unfold sendFence at e
  split at e
  · cases e
  · cases e; exact h _ _ (.fenceOut s flags payload (hI _ hs) (by omega) hf) hs

theorem sendPing_inv (hI : ∀ s, I s → s.cl.st = .ready)
    (h : ∀ s s', MicroW wd false table s s' → I s → I s') {env n s s'}
    (hs : I s) (e : sendPing env n s = .ok s') : I s' := by
  unfold sendPing at e
  split at e
  · cases e; exact hs
  · exact sendFence_inv hI h (by decide) (h _ _ (.inflight s (hI _ hs) _) hs) e

theorem ppf_inv (hI : ∀ s, I s → s.cl.st = .ready)
    (h : ∀ s s', MicroW wd false table s s' → I s → I s') {reenter}
    (hr : Keeps I reenter) {s s'} (hs : I s) (e : processPendingFence reenter s = .ok s') : I s' := by
  unfold processPendingFence at e
  split at e
  · split at e <;> cases e; exact hs
  · rename_i h0
    dsimp only at e
    split at e
    · rename_i h1; cases e; exact h _ _ (.pfDec s (hI _ hs) h0 h1) hs
    · rename_i h1
      obtain ⟨t, ht, e⟩ := Outcome.bind_eq_ok.1 e
      have h1' : s.cl.pfN = 1 := by
        have := Classical.not_not.1 h1; omega
      unfold sendFence at ht
      rcases ite_cases ht with ⟨-, ht⟩ | ⟨hl, ht⟩
      · cases ht
      cases ht
      have h3 := h _ _ (.pfFire s (hI _ hs) h1' (by change ¬ 64 < s.cl.pfPayload.length at hl; omega)) hs
      refine hr _ _ ?_ e
      have : ∀ k b, (send k b (s.upd fun k => { k with pfN := s.cl.pfN - 1 })).upd
          (fun k => { k with pfN := 0, pfFlags := 0, pfPayload := [], blocked := false }) =
          send k b (s.upd fun k => { k with pfN := 0, pfFlags := 0, pfPayload := [], blocked := false }) := by
        intro k b; unfold send; split <;> simp_all [St.upd, emit]
      rw [this]
      exact h3

theorem decrementPending_inv (hI : ∀ s, I s → s.cl.st = .ready)
    (h : ∀ s s', MicroW wd false table s s' → I s → I s') {reenter}
    (hr : Keeps I reenter)
    {s s' b} (hs : I s) (e : decrementPending reenter s = .ok (s', b)) : I s' := by
  unfold decrementPending at e
  split at e
  · cases e
  · split at e
    · cases e; exact hs
    · obtain ⟨t, ht, e⟩ := Outcome.bind_eq_ok.1 e
      cases e
      have h3 := ppf_inv hI h hr hs ht
      exact h _ _ (.dec t (hI _ h3)) h3

theorem stageExt_inv (hI : ∀ s, I s → s.cl.st = .ready)
    (h : ∀ s s', MicroW wd false table s s' → I s → I s') {reenter}
    (hr : Keeps I reenter) {s s' b} (hs : I s) (e : stageExt reenter s = .ok (s', b)) : I s' := by
  unfold stageExt at e
  split at e
  · cases e; exact hs
  · rename_i hx
    dsimp only at e
    have h1 := h _ _ (.ext s (hI _ hs) (by simpa using hx)) hs
    generalize sendExtSupport (s.upd fun k => { k with extNotified := true }) = res at e h1
    obtain ⟨t, b'⟩ := res
    cases b'
    · cases e; exact h1
    · exact decrementPending_inv hI h hr h1 e

theorem stageCursor_inv (hI : ∀ s, I s → s.cl.st = .ready)
    (h : ∀ s s', MicroW wd false table s s' → I s → I s') {reenter env}
    (hr : Keeps I reenter) {s s' b} (hs : I s) (e : stageCursor env reenter s = .ok (s', b)) :
    I s' := by
  unfold stageCursor at e
  split at e
  · rename_i hx
    exact decrementPending_inv hI h hr (h _ _ (.cursor s env (hI _ hs) hx.1 hx.2) hs) e
  · cases e; exact hs

theorem stageLed_inv (hI : ∀ s, I s → s.cl.st = .ready)
    (h : ∀ s s', MicroW wd false table s s' → I s → I s') {reenter}
    (hr : Keeps I reenter) {s s' b} (hs : I s) (e : stageLed reenter s = .ok (s', b)) : I s' := by
  unfold stageLed at e
  have h1 := h _ _ (.led s (hI _ hs)) hs
  generalize sendLed s = res at e h1
  obtain ⟨t, b'⟩ := res
  cases b'
  · cases e; exact h1
  · exact decrementPending_inv hI h hr h1 e

theorem processFb_inv (hI : ∀ s, I s → s.cl.st = .ready)
    (h : ∀ s s', MicroW wd false table s s' → I s → I s') {env reenter}
    (hr : Keeps I reenter) {s s'} (hs : I s) (e : processFb env reenter s = .ok s') : I s' := by
  unfold processFb at e
  split at e
  · cases e; exact hs
  · split at e
    · cases e; exact hs
    · split at e
      · cases e; exact hs
      · split at e
        · cases e; exact hs
        · obtain ⟨⟨t, b⟩, h1, e⟩ := Outcome.bind_eq_ok.1 e
          have i1 := stageExt_inv hI h hr hs h1
          cases b
          · cases e; exact i1
          · obtain ⟨⟨u, b⟩, h2, e⟩ := Outcome.bind_eq_ok.1 e
            have i2 := stageCursor_inv hI h hr i1 h2
            cases b
            · cases e; exact i2
            · obtain ⟨⟨v, b⟩, h3, e⟩ := Outcome.bind_eq_ok.1 e
              have i3 := stageLed_inv hI h hr i2 h3
              cases b
              · cases e; exact i3
              · exact h _ _ (.frame v env _ (hI _ i3) e) i3

theorem completeFb_inv (hI : ∀ s, I s → s.cl.st = .ready)
    (h : ∀ s s', MicroW wd false table s s' → I s → I s') {env reenter}
    (hr : Keeps I reenter) {s s'} (hs : I s) (e : completeFb env reenter s = .ok s') : I s' := by
  unfold completeFb at e
  split at e
  · cases e; exact hs
  · exact processFb_inv hI h hr (h _ _ (.complete s (hI _ hs)) hs) e

theorem finishFb_inv (hI : ∀ s, I s → s.cl.st = .ready)
    (h : ∀ s s', MicroW wd false table s s' → I s → I s') {env reenter f}
    (hr : Keeps I reenter) {s s'} (hd : s.log.getLast? = some (.encodeDone f)) (hs : I s)
    (e : finishFb env reenter f s = .ok s') : I s' := by
  unfold finishFb at e
  split at e
  · exact completeFb_inv hI h hr hs e
  · split at e
    · rename_i hf
      simp only [Bool.and_eq_true, Bool.not_eq_true'] at hf
      exact completeFb_inv hI h hr (h _ _ (.redo s (hI _ hs) hf.1 hf.2) hs) e
    · rename_i hnf
      split at e
      · cases e
      · rename_i hz
        have h1 : I (sendFrame f s) := by
          refine h _ _ (.sendFrame s f (hI _ hs) hd ?_ ?_) hs
          · by_cases hq : supportsResizing s.cl = true
            · exact .inr hq
            · left; simpa [hq] using hz
          · by_cases hq : hasEnc s.cl encFence = true
            · exact .inr hq
            · left; simpa [hq] using hnf
        dsimp only at e
        obtain ⟨t, ht, e⟩ := Outcome.bind_eq_ok.1 e
        have h2 : I t := by
          split at ht
          · exact completeFb_inv hI h hr h1 ht
          · cases ht; exact h _ _ (.writing _ (hI _ h1)) h1
        obtain ⟨u, hu, e⟩ := Outcome.bind_eq_ok.1 e
        exact ppf_inv hI h hr (sendPing_inv hI h h2 hu) e

theorem onFbRequest_inv (hI : ∀ s, I s → s.cl.st = .ready)
    (h : ∀ s s', MicroW wd false table s s' → I s → I s') {env reenter}
    (hr : Keeps I reenter) {s a s' n} (hst : s.cl.st = .ready) (hs : I s)
    (e : onFbRequest env reenter s a = .ok (s', n)) : I s' := by
  unfold onFbRequest at e
  split at e
  · split at e
    · cases e; exact hs
    · obtain ⟨t, ht, e⟩ := Outcome.bind_eq_ok.1 e
      cases e
      exact processFb_inv hI h hr (h _ _ (.fbReq s _ _ hst) hs) ht
  · cases e; exact hs

theorem onContUpdates_inv (hI : ∀ s, I s → s.cl.st = .ready)
    (h : ∀ s s', MicroW wd false table s s' → I s → I s') {env reenter}
    (hr : Keeps I reenter) {s a s' n} (hst : s.cl.st = .ready) (hs : I s)
    (e : onContUpdates env reenter s a = .ok (s', n)) : I s' := by
  unfold onContUpdates at e
  split at e
  · split at e
    · obtain ⟨t, ht, e⟩ := Outcome.bind_eq_ok.1 e
      cases e
      exact processFb_inv hI h hr (h _ _ (.contOn s _ hst) hs) ht
    · cases e; exact h _ _ (.contOff s hst) hs
  · cases e; exact hs

theorem onFence_inv (hI : ∀ s, I s → s.cl.st = .ready)
    (h : ∀ s s', MicroW wd false table s s' → I s → I s') {env reenter}
    (hr : Keeps I reenter) {s a s' n} (hst : s.cl.st = .ready) (hs : I s)
    (e : onFence env reenter s a = .ok (s', n)) : I s' := by
  unfold onFence at e
  split at e
  · dsimp only at e
    generalize _ ++ List.map env.stale (List.range 80) = more at e
    split at e
    · cases e; exact hs
    · split at e
      · cases e
      · rename_i hl
        split at e
        · obtain ⟨⟨t, b⟩, ht, e⟩ := Outcome.bind_eq_ok.1 e
          have hp : (List.take (more.getD 0 0).toNat (List.drop 1 more)).length ≤ 64 :=
            Nat.le_trans (List.length_take_le _ _) (by omega)
          have := h _ _ (.fenceReq s _ _ hst hp ht) hs
          cases b <;> cases e <;> exact this
        · obtain ⟨t, ht, e⟩ := Outcome.bind_eq_ok.1 e
          cases e
          unfold onFenceResponse at ht
          split at ht
          · dsimp only at ht
            split at ht
            · cases ht; exact hs
            · split at ht
              · cases ht; exact hs
              · exact processFb_inv hI h hr (h _ _ (.inflight s (hI _ hs) _) hs) ht
          · cases ht
  · cases e; exact hs

theorem onMessage_inv (hI : ∀ s, I s → s.cl.st = .ready)
    (h : ∀ s s', MicroW wd false table s s' → I s → I s') {env reenter}
    (hr : Keeps I reenter) {s a s' n} (hst : s.cl.st = .ready) (hs : I s)
    (e : onMessage env table reenter s a = .ok (s', n)) : I s' := by
  unfold onMessage at e
  split at e
  · cases e; exact hs
  · rename_i t rest
    by_cases hc : t = 0
    · rw [if_pos hc] at e; exact h _ _ (.simple s env _ hst (.pix e)) hs
    rw [if_neg hc] at e; clear hc
    by_cases hc : t = 2
    · rw [if_pos hc] at e; exact h _ _ (.simple s env _ hst (.encs e)) hs
    rw [if_neg hc] at e; clear hc
    by_cases hc : t = 3
    · rw [if_pos hc] at e; exact onFbRequest_inv hI h hr hst hs e
    rw [if_neg hc] at e; clear hc
    by_cases hc : t = 4
    · rw [if_pos hc] at e; exact h _ _ (.simple s env _ hst (.key e)) hs
    rw [if_neg hc] at e; clear hc
    by_cases hc : t = 5
    · rw [if_pos hc] at e; exact h _ _ (.simple s env _ hst (.pointer e)) hs
    rw [if_neg hc] at e; clear hc
    by_cases hc : t = 6
    · rw [if_pos hc] at e; exact h _ _ (.simple s env _ hst (.cut e)) hs
    rw [if_neg hc] at e; clear hc
    by_cases hc : t = 150
    · rw [if_pos hc] at e; exact onContUpdates_inv hI h hr hst hs e
    rw [if_neg hc] at e; clear hc
    by_cases hc : t = 255
    · rw [if_pos hc] at e; exact h _ _ (.simple s env _ hst (.qemu e)) hs
    rw [if_neg hc] at e; clear hc
    by_cases hc : t = 251
    · rw [if_pos hc] at e; exact h _ _ (.simple s env _ hst (.size e)) hs
    rw [if_neg hc] at e; clear hc
    by_cases hc : t = 160
    · rw [if_pos hc] at e; exact h _ _ (.simple s env _ hst (.ntp (h := by rw [hc]; rfl) e)) hs
    rw [if_neg hc] at e; clear hc
    by_cases hc : t = 248
    · rw [if_pos hc] at e; exact onFence_inv hI h hr hst hs e
    rw [if_neg hc] at e; clear hc
    cases e

theorem nextRead_inv (h : ∀ s s', MicroW wd false table s s' → I s → I s') {s} (hs : I s) :
    I (nextRead s).2 := by
  unfold nextRead
  split
  · exact hs
  · dsimp only
    split
    · split <;> exact h _ _ (.net s _) hs
    · exact h _ _ (.net s _) hs

/-- a closed stream has nothing to read -/
theorem nextRead_closed (s : St) : (nextRead s).2.cl.closed = true →
    (nextRead s).1 = .again ∨ (nextRead s).1 = .err := by
  unfold nextRead
  split
  · exact fun _ => .inl rfl
  · dsimp only
    intro h
    split at h
    · rename_i hc
      rw [if_pos hc]
      split
      · exact .inr rfl
      · exact .inl rfl
    · rename_i hc; exact absurd h hc

theorem open_of {c : Bool} {rd : Read} (h : c = true → rd = .again ∨ rd = .err) (h1 : rd ≠ .again)
    (h2 : rd ≠ .err) : c = false := by
  cases c with
  | false => rfl
  | true => rcases h rfl with h | h
            · exact absurd h h1
            · exact absurd h h2

theorem reenterInHandler_keeps (h : ∀ s s', MicroW wd false table s s' → I s → I s') :
    Keeps I reenterInHandler := by
  intro s s' hs e
  unfold reenterInHandler at e
  split at e
  · cases e
  · have h1 := nextRead_inv h hs
    have h2 := nextRead_closed s
    generalize nextRead s = res at e h1 h2
    obtain ⟨rd, t⟩ := res
    split at e <;> rename_i heq <;> cases heq <;> cases e
    · exact h1
    · exact h _ _ (.remoteClosed _ (open_of h2 nofun nofun)) h1
    · exact h1

end

end Verif.Server
