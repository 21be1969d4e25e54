import Verif.Lemmas.Peer

/-!
# The receive buffer
-/

namespace Verif.Server

variable {table : List Nat}

theorem slice_le {a : Bytes} {i n b} (h : slice a i n = some b) : i + n ≤ a.length := by
  unfold slice at h
  split at h
  · assumption
  · cases h

theorem onVersion_len {env s a s' n} (e : onVersion env s a = .ok (s', n)) : n ≤ a.length := by
  unfold onVersion at e
  split at e
  · cases e; exact Nat.zero_le _
  · rename_i v hv
    rcases ite_cases e with ⟨-, e⟩ | ⟨-, e⟩
    · cases e; exact Nat.zero_le _
    · obtain ⟨srv, -, e⟩ := Outcome.bind_eq_ok.1 e
      cases e
      have := slice_le hv; omega

theorem onSecurity_len {env s a s' n} (e : onSecurity env s a = .ok (s', n)) : n ≤ a.length := by
  unfold onSecurity at e
  split at e
  · cases e; exact Nat.zero_le _
  · dsimp only at e
    rcases ite_cases e with ⟨-, e⟩ | ⟨-, e⟩
    · cases e; simp
    rcases ite_cases e with ⟨-, e⟩ | ⟨-, e⟩
    · cases e; simp
    rcases ite_cases e with ⟨-, e⟩ | ⟨-, e⟩
    · cases e; simp
    rcases ite_cases e with ⟨-, e⟩ | ⟨-, e⟩
    · cases e; simp
    rcases ite_cases e with ⟨-, e⟩ | ⟨-, e⟩
    · cases e; simp
    rcases ite_cases e with ⟨-, e⟩ | ⟨-, e⟩
    · cases e; simp
    cases e; simp

theorem onInit_len {s a s' n} (e : onInit s a = .ok (s', n)) : n ≤ a.length := by
  unfold onInit at e
  split at e
  · cases e; exact Nat.zero_le _
  · dsimp only at e
    split at e
    · cases e
    · cases e; simp

theorem onVeVersion_len {env s a s' n} (e : onVeVersion env s a = .ok (s', n)) : n ≤ a.length := by
  unfold onVeVersion at e
  split at e
  · rcases ite_cases e with ⟨-, e⟩ | ⟨-, e⟩
    · cases e; simp
    · cases e; simp
  · cases e; exact Nat.zero_le _

theorem onVeSubtype_len {env s a s' n} (e : onVeSubtype env s a = .ok (s', n)) : n ≤ a.length := by
  unfold onVeSubtype at e
  split at e
  · dsimp only at e
    rcases ite_cases e with ⟨-, e⟩ | ⟨-, e⟩
    · cases e; simp
    · rcases ite_cases e with ⟨-, e⟩ | ⟨-, e⟩
      · cases e
      · cases e; simp
  · cases e; exact Nat.zero_le _

theorem vePlainBody_len {env a u p s s' n} (e : vePlainBody env a u p s = .ok (s', n)) :
    n ≤ a.length := by
  unfold vePlainBody at e
  split at e
  · rename_i h1 h2
    cases e
    have := slice_le h2; omega
  · cases e; exact Nat.zero_le _

theorem onVePlain_len {env s a s' n} (e : onVePlain env s a = .ok (s', n)) : n ≤ a.length := by
  unfold onVePlain at e
  split at e
  · exact vePlainBody_len e
  · cases e; exact Nat.zero_le _

theorem onAppleDh_len {env s a s' n} (e : onAppleDh env s a = .ok (s', n)) : n ≤ a.length := by
  unfold onAppleDh at e
  split at e
  · rename_i h1 h2
    cases e
    have := slice_le h2; omega
  · cases e; exact Nat.zero_le _

theorem rsaPubKeyBody_len {env a k s s' n} (e : rsaPubKeyBody env a k s = .ok (s', n)) :
    n ≤ a.length := by
  unfold rsaPubKeyBody at e
  split at e
  · rename_i h1 h2
    dsimp only at e
    rcases ite_cases e with ⟨-, e⟩ | ⟨-, e⟩
    · cases e
    · have := slice_le h2
      split at e <;> (cases e; omega)
  · cases e; exact Nat.zero_le _

theorem onRsaPubKey_len {env s a s' n} (e : onRsaPubKey env s a = .ok (s', n)) : n ≤ a.length := by
  unfold onRsaPubKey at e
  split at e
  · exact rsaPubKeyBody_len e
  · cases e; exact Nat.zero_le _

theorem onRsaChallenge_len {env s a s' n} (e : onRsaChallenge env s a = .ok (s', n)) :
    n ≤ a.length := by
  unfold onRsaChallenge at e
  split at e
  · dsimp only at e
    split at e
    · rename_i h1
      have := slice_le h1
      split at e
      · cases e
      · cases e; omega
    · cases e; exact Nat.zero_le _
  · cases e; exact Nat.zero_le _

theorem onRsaHash_len {env s a s' n} (e : onRsaHash env s a = .ok (s', n)) : n ≤ a.length := by
  unfold onRsaHash at e
  split at e
  · rename_i h1
    have := slice_le h1
    rcases ite_cases e with ⟨-, e⟩ | ⟨-, e⟩
    · cases e
    · cases e
      have : rsaHashLen (send .rsaSubtype [1] s).cl = rsaHashLen s.cl := by simp
      omega
  · cases e; exact Nat.zero_le _

theorem onRsaCreds_len {env s a s' n} (e : onRsaCreds env s a = .ok (s', n)) : n ≤ a.length := by
  unfold onRsaCreds at e
  split at e
  · dsimp only at e
    split at e
    · split at e
      · rename_i h1
        have := slice_le h1
        cases e; omega
      · cases e; exact Nat.zero_le _
    · cases e; exact Nat.zero_le _
  · cases e; exact Nat.zero_le _

theorem onSetPixelFormat_len {s a s' n} (e : onSetPixelFormat s a = .ok (s', n)) :
    n ≤ a.length := by
  unfold onSetPixelFormat at e
  split at e
  · cases e; simp
  · cases e; exact Nat.zero_le _

theorem onSetEncodings_len {env s a s' n} (e : onSetEncodings env s a = .ok (s', n)) :
    n ≤ a.length := by
  unfold onSetEncodings at e
  split at e
  · dsimp only at e
    split at e
    · cases e; exact Nat.zero_le _
    · rename_i h1
      have := slice_le h1
      obtain ⟨t, -, e⟩ := Outcome.bind_eq_ok.1 e
      cases e; omega
  · cases e; exact Nat.zero_le _

theorem onFbRequest_len {env r s a s' n} (e : onFbRequest env r s a = .ok (s', n)) :
    n ≤ a.length := by
  unfold onFbRequest at e
  split at e
  · rcases ite_cases e with ⟨-, e⟩ | ⟨-, e⟩
    · cases e; exact Nat.zero_le _
    · obtain ⟨t, -, e⟩ := Outcome.bind_eq_ok.1 e
      cases e; simp
  · cases e; exact Nat.zero_le _

theorem onKey_len {s a s' n} (e : onKey s a = .ok (s', n)) : n ≤ a.length := by
  unfold onKey at e
  split at e
  · cases e; simp
  · cases e; exact Nat.zero_le _

theorem onPointer_len {s a s' n} (e : onPointer s a = .ok (s', n)) : n ≤ a.length := by
  unfold onPointer at e
  split at e
  · cases e; simp
  · cases e; exact Nat.zero_le _

theorem onQemuKey_len {s a s' n} (e : onQemuKey table s a = .ok (s', n)) : n ≤ a.length := by
  unfold onQemuKey at e
  split at e
  · dsimp only at e
    split at e
    · cases e
    · cases e; simp
  · cases e; exact Nat.zero_le _

theorem onQemu_len {s a s' n} (e : onQemu table s a = .ok (s', n)) : n ≤ a.length := by
  unfold onQemu at e
  split at e
  · rcases ite_cases e with ⟨-, e⟩ | ⟨-, e⟩
    · exact onQemuKey_len e
    · cases e
  · cases e; exact Nat.zero_le _

theorem onExtClipboard_len {env s a s' n} (e : onExtClipboard env s a = .ok (s', n)) :
    n ≤ a.length := by
  unfold onExtClipboard at e
  split at e
  · dsimp only at e
    rcases ite_cases e with ⟨-, e⟩ | ⟨-, e⟩
    · cases e
    · rcases ite_cases e with ⟨-, e⟩ | ⟨-, e⟩
      · cases e; exact Nat.zero_le _
      · rcases ite_cases e with ⟨-, e⟩ | ⟨-, e⟩
        · cases e
        · rcases ite_cases e with ⟨-, e⟩ | ⟨hl, e⟩
          · cases e; exact Nat.le_refl _
          · obtain ⟨t, -, e⟩ := Outcome.bind_eq_ok.1 e
            generalize List.length _ = L at hl ⊢
            have e := (Prod.mk.inj (Outcome.ok.inj e)).2
            omega
  · cases e; exact Nat.zero_le _

theorem onPlainCutText_len {s a s' n} (e : onPlainCutText s a = .ok (s', n)) :
    n ≤ a.length := by
  unfold onPlainCutText at e
  split at e
  · rename_i l0 l1 l2 l3 body
    generalize rd32 l0 l1 l2 l3 = len at e
    dsimp only at e
    rcases ite_cases e with ⟨-, e⟩ | ⟨-, e⟩
    · cases e
    · rcases ite_cases e with ⟨h, e⟩ | ⟨-, e⟩
      · cases e; exact h
      · cases e; exact Nat.le_refl _
  · cases e; exact Nat.zero_le _

theorem onCutText_len {env s a s' n} (e : onCutText env s a = .ok (s', n)) : n ≤ a.length := by
  unfold onCutText at e
  split at e
  · rcases ite_cases e with ⟨-, e⟩ | ⟨-, e⟩
    · exact onExtClipboard_len e
    · exact onPlainCutText_len e
  · cases e; exact Nat.zero_le _

theorem onContUpdates_len {env r s a s' n} (e : onContUpdates env r s a = .ok (s', n)) :
    n ≤ a.length := by
  unfold onContUpdates at e
  split at e
  · rcases ite_cases e with ⟨-, e⟩ | ⟨-, e⟩
    · obtain ⟨t, -, e⟩ := Outcome.bind_eq_ok.1 e
      cases e; simp
    · cases e; simp
  · cases e; exact Nat.zero_le _

theorem onSetDesktopSize_len {env s a s' n} (e : onSetDesktopSize env s a = .ok (s', n)) :
    n ≤ a.length := by
  unfold onSetDesktopSize at e
  split at e
  · split at e
    · cases e; exact Nat.zero_le _
    · rename_i h1
      have := slice_le h1
      cases e; omega
  · cases e; exact Nat.zero_le _

theorem onNtp_len {env s a s' n} (e : onNtp env s a = .ok (s', n)) : n ≤ a.length := by
  unfold onNtp at e
  split at e
  · cases e; exact Nat.zero_le _
  · rename_i h1
    have := slice_le h1
    rcases ite_cases e with ⟨-, e⟩ | ⟨-, e⟩
    · cases e; omega
    · cases e; omega

/-- no handler except the one for fences consumes more than there is -/
theorem tryRead_len {env r s a s' n} (hf : ¬ (s.cl.st = .ready ∧ a.head? = some 248))
    (e : tryRead env table r s a = .ok (s', n)) : n ≤ a.length := by
  unfold tryRead at e
  split at e
  · cases e; exact Nat.le_refl _
  · exact onVersion_len e
  · exact onSecurity_len e
  · exact onInit_len e
  · exact onVeVersion_len e
  · exact onVeSubtype_len e
  · exact onVePlain_len e
  · exact onAppleDh_len e
  · exact onRsaPubKey_len e
  · exact onRsaChallenge_len e
  · exact onRsaHash_len e
  · exact onRsaCreds_len e
  · rename_i hr
    unfold onMessage at e
    split at e
    · cases e; exact Nat.zero_le _
    · rename_i t rest
      rcases ite_cases e with ⟨-, e⟩ | ⟨-, e⟩
      · exact onSetPixelFormat_len e
      rcases ite_cases e with ⟨-, e⟩ | ⟨-, e⟩
      · exact onSetEncodings_len e
      rcases ite_cases e with ⟨-, e⟩ | ⟨-, e⟩
      · exact onFbRequest_len e
      rcases ite_cases e with ⟨-, e⟩ | ⟨-, e⟩
      · exact onKey_len e
      rcases ite_cases e with ⟨-, e⟩ | ⟨-, e⟩
      · exact onPointer_len e
      rcases ite_cases e with ⟨-, e⟩ | ⟨-, e⟩
      · exact onCutText_len e
      rcases ite_cases e with ⟨-, e⟩ | ⟨-, e⟩
      · exact onContUpdates_len e
      rcases ite_cases e with ⟨-, e⟩ | ⟨-, e⟩
      · exact onQemu_len e
      rcases ite_cases e with ⟨-, e⟩ | ⟨-, e⟩
      · exact onSetDesktopSize_len e
      rcases ite_cases e with ⟨-, e⟩ | ⟨-, e⟩
      · exact onNtp_len e
      rcases ite_cases e with ⟨h, e⟩ | ⟨-, e⟩
      · exact absurd ⟨hr, by rw [h]; rfl⟩ hf
      · cases e

/-! ## What happens to the buffer -/

theorem micro_chan {lp s s'} (h : Micro lp table s s') (hc : s'.cl.chan = .plain) :
    s.cl.chan = .plain := by
  rcases micro_keep h with h | h
  · have := h.move.chan
    rw [hc] at this
    unfold chanAfter at this
    split at this <;> first | cases this | exact this.symm
  · rw [← h.chan]; exact hc

/-- the ways the receive buffer changes -/
inductive BufMove (s s' : St) : Prop
  | same : s'.cl.buf = s.cl.buf → s'.cl.idx = s.cl.idx → s'.cl.plain = s.cl.plain → BufMove s s'
  | consume (n) : s.cl.idx + n ≤ s.cl.buf.length → s'.cl.buf = s.cl.buf →
      s'.cl.idx = s.cl.idx + n → s'.cl.plain = s.cl.plain - min n s.cl.plain → BufMove s s'
  | recv (d) : s.cl.idx = 0 → s.cl.buf.length + d.length ≤ msgBufferSize →
      s'.cl.buf = s.cl.buf ++ d → s'.cl.idx = 0 → s'.cl.chan = s.cl.chan →
      s'.cl.plain = (if s.cl.chan = .plain then (s.cl.buf ++ d).length else s.cl.plain) →
      BufMove s s'
  | compact : s'.cl.buf = s.cl.buf.drop s.cl.idx → s'.cl.idx = 0 → s'.cl.plain = s.cl.plain →
      BufMove s s'

theorem freeClient_buf (s : St) : (freeClient s).cl.buf = s.cl.buf ∧
    (freeClient s).cl.idx = s.cl.idx ∧ (freeClient s).cl.plain = s.cl.plain := by
  obtain ⟨_, _, _, _, _, _, _, _, _, _, _, h⟩ := (streamClose_frame (b := .error) s).cl
  rw [(freeClient_frame s).1, h]
  exact ⟨rfl, rfl, rfl⟩

theorem micro_bufMove {lp s s'} (h : Micro lp table s s') : BufMove s s' := by
  have hlow : Micro false table s s' → BufMove s s' := fun h => by
    obtain ⟨h1, h2, h3, -⟩ := micro_buf h
    exact .same h1 h2 h3
  cases h with
  | consume st ch n hl h => exact .consume n h rfl rfl rfl
  | recv d hl hc h h2 => exact .recv d h h2 rfl h rfl rfl
  | compact hl => exact .compact rfl rfl rfl
  | free hl h =>
    obtain ⟨h1, h2, h3⟩ := freeClient_buf s
    exact .same h1 h2 h3
  | idle hl h h2 =>
    obtain ⟨h1, h2, h3⟩ := freeClient_buf (s.upd fun k => { k with nDefer := k.nDefer - 1 })
    exact .same h1 h2 h3
  | fenceOut flags payload hr h hf => exact hlow (.fenceOut s flags payload hr h hf)
  | inflight hr v => exact hlow (.inflight s hr v)
  | pfDec hr h h2 => exact hlow (.pfDec s hr h h2)
  | pfFire hr h hp => exact hlow (.pfFire s hr h hp)
  | ext hr h => exact hlow (.ext s hr h)
  | cursor env hr h h2 => exact hlow (.cursor s env hr h h2)
  | led hr => exact hlow (.led s hr)
  | dec hr => exact hlow (.dec s hr)
  | frame env fb hr h => exact hlow (.frame s env fb hr h)
  | complete hr => exact hlow (.complete s hr)
  | redo hr h h2 => exact hlow (.redo s hr h h2)
  | sendFrame f hr hd h hf => exact hlow (.sendFrame s f hr hd h hf)
  | writing hr => exact hlow (.writing s hr)
  | hs env r a h h2 => exact hlow (.hs s env r a h h2)
  | simple env a h h2 => exact hlow (.simple s env a h h2)
  | fbReq inc r h => exact hlow (.fbReq s inc r h)
  | contOn r h => exact hlow (.contOn s r h)
  | contOff h => exact hlow (.contOff s h)
  | fenceReq flags payload h hp h2 => exact hlow (.fenceReq s flags payload h hp h2)
  | head h => exact hlow (.head s h)
  | bigCut env c d hr hc h h2 => exact hlow (.bigCut s env c d hr hc h h2)
  | remoteClosed h => exact hlow (.remoteClosed s h)
  | flushed h => exact hlow (.flushed s h)
  | net n => exact hlow (.net s n)
  | encoded f hr h => exact hlow (.encoded s f hr h)
  | written hr h => exact hlow (.written s hr h)
  | damage r h => exact hlow (.damage s r h)
  | display fb => exact hlow (.display s fb)
  | setCursor => exact hlow (.setCursor s)
  | setLed v => exact hlow (.setLed s v)

/-- the buffer is in order, and the ghost counter counts the unread bytes that came in plain text -/
structure BufOk (c : Client) : Prop where
  idx : c.idx ≤ c.buf.length
  len : c.buf.length ≤ msgBufferSize
  plain : c.plain ≤ c.buf.length - c.idx
  all : c.chan = .plain → c.plain = c.buf.length - c.idx

theorem micro_bufOk {lp s s'} (h : Micro lp table s s') (hs : BufOk s.cl) : BufOk s'.cl := by
  obtain ⟨a1, a2, a3, a4⟩ := hs
  have hch := micro_chan h
  cases micro_bufMove h with
  | same h1 h2 h3 =>
    exact ⟨by rw [h1, h2]; exact a1, by rw [h1]; exact a2, by rw [h1, h2, h3]; exact a3,
      fun hc => by rw [h1, h2, h3]; exact a4 (hch hc)⟩
  | consume n h0 h1 h2 h3 =>
    refine ⟨by rw [h1, h2]; exact h0, by rw [h1]; exact a2, by rw [h1, h2, h3]; omega,
      fun hc => ?_⟩
    rw [h1, h2, h3]
    have := a4 (hch hc)
    omega
  | recv d h0 hl h1 h2 hc h3 =>
    have hlen : s'.cl.buf.length = s.cl.buf.length + d.length := by rw [h1, List.length_append]
    refine ⟨by rw [h2]; exact Nat.zero_le _, by omega, ?_, fun hc2 => ?_⟩
    · rw [h3, h2]
      split
      · rw [h1]; exact Nat.le_refl _
      · omega
    · rw [h3, h2, if_pos (hch hc2), h1]; rfl
  | compact h1 h2 h3 =>
    have hlen : s'.cl.buf.length = s.cl.buf.length - s.cl.idx := by rw [h1, List.length_drop]
    exact ⟨by rw [h2]; exact Nat.zero_le _, by omega, by omega, fun hc => by
      have := a4 (hch hc); omega⟩

theorem bufOk_stays : System.Stays table (fun c _ => BufOk c) :=
  ⟨fun _ _ hm _ h => micro_bufOk hm h, fun _ _ _ h => h⟩

end Verif.Server
