import Verif.Lemmas.ServerStep
import Verif.Lemmas.System

/-!
# Which steps concern the clipboard, the encodings and the LED state
-/

namespace Verif.Server

/-- messages about the clipboard and the LED state -/
def Kind.watched : Kind → Bool
  | .clip | .cutText | .led => true
  | _ => false

def Eff.watched : Eff → Bool
  | .send _ k _ => k.watched
  | .encodings _ | .clipMsg .. | .offered _ | .ledSet _ => true
  | _ => false

/-- a step that has nothing to do with them -/
structure Still (s s' : St) : Prop where
  enc : s'.cl.encodings = s.cl.encodings
  caps : s'.cl.clipCaps = s.cl.clipCaps
  max : s'.cl.clipMax = s.cl.clipMax
  pend : s'.cl.pendingLed = s.cl.pendingLed
  led : s'.cl.led = s.cl.led
  cls : s'.cl.closed = s.cl.closed ∨ s'.cl.closed = true
  log : ∃ es, s'.log = s.log ++ es ∧ ∀ e ∈ es, e.watched = false

theorem Still.refl (s : St) : Still s s :=
  ⟨rfl, rfl, rfl, rfl, rfl, .inl rfl, [], by simp, by simp⟩

theorem Still.trans {s t u : St} (h1 : Still s t) (h2 : Still t u) : Still s u := by
  obtain ⟨a1, a2, a3, a4, a5, a6, es, a7, a8⟩ := h1
  obtain ⟨b1, b2, b3, b4, b5, b6, fs, b7, b8⟩ := h2
  refine ⟨b1.trans a1, b2.trans a2, b3.trans a3, b4.trans a4, b5.trans a5, ?_, es ++ fs,
    by rw [b7, a7, List.append_assoc], ?_⟩
  · rcases b6 with b6 | b6
    · rw [b6]; exact a6
    · exact .inr b6
  · intro e he
    rcases List.mem_append.1 he with h | h
    · exact a8 e h
    · exact b8 e h

theorem Still.send (s k b) (hk : k.watched = false := by rfl) : Still s (Server.send k b s) := by
  unfold Server.send
  split
  · exact .refl s
  · exact ⟨rfl, rfl, rfl, rfl, rfl, .inl rfl, _, rfl, by simpa [Eff.watched] using hk⟩

theorem Still.emit (s) {e : Eff} (h : e.watched = false := by rfl) : Still s (Server.emit e s) :=
  ⟨rfl, rfl, rfl, rfl, rfl, .inl rfl, _, rfl, by simpa using h⟩

theorem Still.upd (s : St) {f : Client → Client}
    (h : (f s.cl).encodings = s.cl.encodings ∧ (f s.cl).clipCaps = s.cl.clipCaps ∧
      (f s.cl).clipMax = s.cl.clipMax ∧ (f s.cl).pendingLed = s.cl.pendingLed ∧
      (f s.cl).led = s.cl.led ∧ (f s.cl).closed = s.cl.closed := by exact ⟨rfl, rfl, rfl, rfl, rfl, rfl⟩) :
    Still s (s.upd f) :=
  ⟨h.1, h.2.1, h.2.2.1, h.2.2.2.1, h.2.2.2.2.1, .inl h.2.2.2.2.2, [], by simp, by simp⟩

/-- the same client and log -/
theorem Still.world {s s' : St} (h1 : s'.cl = s.cl) (h2 : s'.log = s.log) : Still s s' :=
  ⟨by rw [h1], by rw [h1], by rw [h1], by rw [h1], by rw [h1], .inl (by rw [h1]), [], by simp [h2], by simp⟩

theorem deferClose_still (s) : Still s (deferClose s) := (Still.upd s).trans (.emit _)

theorem streamClose_still (s) : Still s (streamClose s) := by
  unfold streamClose
  split
  · exact .refl s
  · have h : Still s (s.upd fun k => { k with closed := true }) :=
      ⟨rfl, rfl, rfl, rfl, rfl, .inr rfl, [], by simp, by simp⟩
    dsimp only
    split
    · exact h.trans ((Still.upd _).trans (deferClose_still _))
    · exact h

theorem freeClient_still (s) : Still s (freeClient s) := by
  have h := streamClose_still s
  obtain ⟨h1, h2, -, -⟩ := freeClient_frame s
  exact h.trans ⟨by rw [h1], by rw [h1], by rw [h1], by rw [h1], by rw [h1], .inl (by rw [h1]), [],
    by simp [h2], by simp⟩

theorem sendExtSupport_still (s) : Still s (sendExtSupport s).1 := by
  obtain ⟨-, -, h3, h4⟩ := sendExtSupport_frame s
  refine ⟨by rw [h3], by rw [h3], by rw [h3], by rw [h3], by rw [h3], .inl (by rw [h3]), ?_⟩
  rcases h4 with h4 | ⟨-, b, h4⟩
  · exact ⟨[], by simp [h4], by simp⟩
  · exact ⟨_, h4, by simp [Eff.watched, Kind.watched]⟩

theorem sendCursor_still (env s) : Still s (sendCursor env s) := by
  obtain ⟨-, -, ⟨_, h3⟩, h4⟩ := sendCursor_frame env s
  refine ⟨by rw [h3], by rw [h3], by rw [h3], by rw [h3], by rw [h3], .inl (by rw [h3]), ?_⟩
  rcases h4 with h4 | ⟨-, b, h4⟩
  · exact ⟨[], by simp [h4], by simp⟩
  · exact ⟨_, h4, by simp [Eff.watched, Kind.watched]⟩

theorem stageFrame_still {env fb s s'} (e : stageFrame env fb s = .ok s') : Still s s' := by
  obtain ⟨-, -, ⟨_, _, _, _, _, _, _, _, _, h3⟩, h4⟩ := stageFrame_frame e
  refine ⟨by rw [h3], by rw [h3], by rw [h3], by rw [h3], by rw [h3], .inl (by rw [h3]), ?_⟩
  rcases h4 with h4 | ⟨_, _, _, _, h4⟩ | h4
  · exact ⟨[], by simp [h4], by simp⟩
  · exact ⟨_, h4, by simp [Eff.watched]⟩
  · exact ⟨_, h4, by simp [Eff.watched]⟩

theorem sendFrame_still (f s) : Still s (sendFrame f s) := by
  have h1 : ∀ w h t, Still t (sendResizeRect w h t) := fun w h t =>
    (Still.upd t).trans (.send _ .resizeRect _)
  have h2 : ∀ p t, Still t (sendPts p t) := by
    intro p t
    unfold sendPts
    split
    · exact .refl _
    · split
      · exact .send _ .ptsRect _
      · exact .refl _
  have h3 : Still s (send .updateHead (updateHead (nRectsSent f s.cl % 65536)) s) := .send s .updateHead _
  unfold sendFrame
  dsimp only
  generalize send .updateHead (updateHead (nRectsSent f s.cl % 65536)) s = t at h3
  refine .trans ?_ (.send _ .frame _)
  refine .trans ?_ (h2 _ _)
  split
  · exact h3.trans (h1 _ _ _)
  · exact h3

theorem SimpleEff.still {s e} (h : SimpleEff s e) (hw : ∀ k b, e = .send s.cl.chan k b → k.watched = false)
    (h1 : ∀ es, e ≠ .encodings es) (h2 : ∀ f d, e ≠ .clipMsg f d) : e.watched = false := by
  cases h with
  | send k b => exact hw k b rfl
  | encodings es => exact absurd rfl (h1 es)
  | clipMsg f d => exact absurd rfl (h2 f d)
  | _ => rfl

theorem clipProvideText_still {env z s s'} (e : clipProvideText env z s = .ok s') : Still s s' := by
  unfold clipProvideText at e
  split at e
  · cases e; exact .refl _
  · dsimp only at e
    split at e
    · cases e; exact .refl _
    · split at e
      · cases e; exact .refl _
      · split at e
        · cases e
        · split at e <;> cases e
          · exact .refl _
          · exact .emit _
  · cases e

theorem bigCutText_still {env c d s s'} (e : bigCutText env c d s = .ok s') : Still s s' := by
  unfold bigCutText at e
  rcases ite_cases e with ⟨-, e⟩ | ⟨-, e⟩
  · cases e
  dsimp only at e
  rcases ite_cases e with ⟨-, e⟩ | ⟨-, e⟩
  · cases e; exact .upd _
  obtain ⟨t, ht, e⟩ := Outcome.bind_eq_ok.1 e
  cases e
  refine .trans ?_ (.upd _)
  rcases ite_cases ht with ⟨-, ht⟩ | ⟨-, ht⟩
  · rcases ite_cases ht with ⟨-, ht⟩ | ⟨-, ht⟩
    · exact clipProvideText_still ht
    · cases ht; exact .refl _
  · cases ht; exact .emit _

theorem fbReqPre_still (inc r s) : Still s (fbReqPre inc r s) := by
  obtain ⟨-, -, ⟨_, _, h3⟩, h4⟩ := fbReqPre_frame inc r s
  exact ⟨by rw [h3], by rw [h3], by rw [h3], by rw [h3], by rw [h3], .inl (by rw [h3]),
    _, h4, by simp [Eff.watched]⟩

theorem fenceReq_still {flags payload s s' b}
    (e : onFenceRequest flags payload (noteFence flags payload s) = .ok (s', b)) : Still s s' := by
  obtain ⟨-, -, ⟨_, _, _, _, _, h3⟩, h4⟩ := fenceSeen_frame e
  refine ⟨by rw [h3], by rw [h3], by rw [h3], by rw [h3], by rw [h3], .inl (by rw [h3]), ?_⟩
  rcases h4 with h4 | h4 | ⟨-, b, h4⟩
  · exact ⟨_, h4, by simp [Eff.watched]⟩
  · exact ⟨_, h4, by simp [Eff.watched]⟩
  · exact ⟨_, h4, by simp [Eff.watched, Kind.watched]⟩

/-- the steps that do concern them -/
inductive Noted (table : List Nat) (s s' : St) : Prop
  | still : Still s s' → Noted table s s'
  | hs : s.cl.st ≠ .ready → HsFrame s.cl.st s s' → Noted table s s'
  | encs (env a n) : s.cl.st = .ready → onSetEncodings env s a = .ok (s', n) → Noted table s s'
  | cut (env a n) : s.cl.st = .ready → onCutText env s a = .ok (s', n) → Noted table s s'
  | led : s.cl.st = .ready → s' = (sendLed s).1 → Noted table s s'
  | setLed (v) : s' = emit (.ledSet v) (s.upd fun k => { k with pendingLed := v }) → Noted table s s'

variable {table : List Nat}

theorem simple_noted {env s a s' n} (hr : s.cl.st = .ready) (h : Simple env table s a s' n) :
    Noted table s s' := by
  cases h with
  | pix e =>
    refine .still ?_
    unfold onSetPixelFormat at e
    split at e
    · cases e
      refine Still.trans ?_ (.upd _)
      split
      · exact (Still.upd _).trans (.emit _)
      · exact ((Still.upd _).trans (.emit _)).trans (.send _ .colourMap _)
    · cases e; exact .refl _
  | encs e => exact .encs env a n hr e
  | cut e => exact .cut env a n hr e
  | key e =>
    refine .still ?_
    unfold onKey at e
    split at e <;> cases e
    · exact .emit _
    · exact .refl _
  | pointer e =>
    refine .still ?_
    unfold onPointer at e
    split at e <;> cases e
    · exact .emit _
    · exact .refl _
  | qemu e =>
    refine .still ?_
    unfold onQemu at e
    split at e
    · split at e
      · unfold onQemuKey at e
        split at e
        · dsimp only at e
          split at e <;> cases e
          exact .emit _
        · cases e; exact .refl _
      · cases e
    · cases e; exact .refl _
  | size e =>
    refine .still ?_
    unfold onSetDesktopSize at e
    split at e
    · split at e
      · cases e; exact .refl _
      · dsimp only at e
        generalize checkLayout env _ = res at e
        obtain ⟨status, called⟩ := res
        cases e
        refine .trans ?_ (.send _ _ _)
        split
        · exact .emit _
        · exact .refl _
    · cases e; exact .refl _
  | ntp e =>
    refine .still ?_
    unfold onNtp at e
    split at e
    · cases e; exact .refl _
    · split at e <;> cases e
      · exact .refl _
      · exact .send _ _ _

theorem micro_noted {lp s s'} (hm : Micro lp table s s') : Noted table s s' := by
  cases hm with
  | fenceOut => exact .still (.send _ _ _)
  | pfFire => exact .still ((Still.upd _).trans (.send _ _ _))
  | ext => exact .still ((Still.upd _).trans (sendExtSupport_still _))
  | cursor env => exact .still (sendCursor_still env s)
  | led hr => exact .led hr rfl
  | frame env fb hr e => exact .still (stageFrame_still e)
  | sendFrame f => exact .still (sendFrame_still f s)
  | hs env r a h1 h2 => exact .hs h1 (hs_frame h1 h2)
  | simple env a h1 h2 => exact simple_noted h1 h2
  | fbReq inc r => exact .still (fbReqPre_still inc r s)
  | contOn => exact .still ((Still.upd _).trans (.emit _))
  | contOff => exact .still ((Still.upd _).trans (.send _ _ _))
  | fenceReq flags payload h1 hp h2 => exact .still (fenceReq_still h2)
  | consume => exact .still ((Still.upd _).trans (.emit _))
  | bigCut env c d hr hc h1 h2 => exact .still (bigCutText_still h2)
  | remoteClosed => exact .still ((streamClose_still s).trans (deferClose_still _))
  | flushed => exact .still (streamClose_still s)
  | free hl h1 => exact .still (freeClient_still s)
  | idle hl h1 h2 => exact .still ((Still.upd s).trans (freeClient_still _))
  | encoded => exact .still ((Still.upd _).trans (.emit _))
  | setLed v => exact .setLed v rfl
  | damage r => exact .still ((Still.upd _).trans (.emit _))
  | net => exact .still (.world rfl rfl)
  | display => exact .still (.world rfl rfl)
  | setCursor => exact .still (.world rfl rfl)
  | _ => exact .still (.upd _)

end Verif.Server
