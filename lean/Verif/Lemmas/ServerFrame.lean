import Verif.Lemmas.ServerMicro
import Verif.Spec.Echo

/-!
# What the handlers of ready clients leave alone
-/

namespace Verif.Server

variable {table : List Nat} {I : St → Prop}

/-- the messages handlers of simple messages send: none of the handshake, none of an update -/
def Kind.reply : Kind → Bool
  | .colourMap | .endOfCont | .fence | .clip | .cutText | .desktopSize | .ntp => true
  | _ => false

/-- what is only ever written before the session begins -/
def Kind.early (k : Kind) : Bool := k.handshake || k == .serverInit

theorem Kind.early_handshake {k : Kind} (h : k.early = false) : k.handshake = false := by
  unfold Kind.early at h
  cases hh : k.handshake
  · rfl
  · rw [hh] at h; cases h

theorem Kind.reply_early {k : Kind} (h : k.reply = true) : k.early = false := by
  cases k <;> first | rfl | cases h

/-- what the handlers of simple messages let the world see -/
inductive SimpleEff (s : St) : Eff → Prop
  | send (k b) : s.cl.closed = false → k.reply = true → (k = .fence → Echo.isRequest b = true) →
      SimpleEff s (.send s.cl.chan k b)
  | key (k d) : SimpleEff s (.key k d)
  | keyCode (k d) : SimpleEff s (.keyCode k d)
  | pointer (x y m) : SimpleEff s (.pointer x y m)
  | cutText (b) : SimpleEff s (.cutText b)
  | layout (l) : SimpleEff s (.layout l)
  | encodings (es) : SimpleEff s (.encodings es)
  | clipMsg (f d) : SimpleEff s (.clipMsg f d)
  | pixFmt (f) : SimpleEff s (.pixFmt f)

/-- what the handler of a simple message may change -/
structure SimpleFrame (s s' : St) : Prop where
  srv : s'.srv = s.srv
  net : s'.net = s.net
  cl : ∃ px fc en q cn infl ct cc cm, s'.cl = { s.cl with
    pix := px, formatsChanged := fc, encodings := en, quality := q, contNotified := cn,
    inflight := infl, cut := ct, clipCaps := cc, clipMax := cm }
  log : ∃ es, s'.log = s.log ++ es ∧ ∀ e ∈ es, SimpleEff s e

theorem SimpleFrame.refl (s : St) : SimpleFrame s s :=
  ⟨rfl, rfl, ⟨_, _, _, _, _, _, _, _, _, rfl⟩, ⟨[], by simp, by simp⟩⟩

theorem SimpleEff.of {s t : St} (h1 : t.cl.closed = s.cl.closed) (h2 : t.cl.chan = s.cl.chan) {e}
    (h : SimpleEff t e) : SimpleEff s e := by
  cases h with
  | send k b h hk hq => rw [h2]; exact .send k b (h1 ▸ h) hk hq
  | key => exact .key _ _
  | keyCode => exact .keyCode _ _
  | pointer => exact .pointer _ _ _
  | cutText => exact .cutText _
  | layout => exact .layout _
  | encodings => exact .encodings _
  | clipMsg => exact .clipMsg _ _
  | pixFmt => exact .pixFmt _

theorem SimpleFrame.trans {s t u : St} (h1 : SimpleFrame s t) (h2 : SimpleFrame t u) :
    SimpleFrame s u := by
  obtain ⟨a1, a2, ⟨_, _, _, _, _, _, _, _, _, a3⟩, ⟨es, a4, a5⟩⟩ := h1
  obtain ⟨b1, b2, ⟨_, _, _, _, _, _, _, _, _, b3⟩, ⟨fs, b4, b5⟩⟩ := h2
  refine ⟨b1.trans a1, b2.trans a2, ⟨_, _, _, _, _, _, _, _, _, by rw [b3, a3]⟩,
    ⟨es ++ fs, by rw [b4, a4, List.append_assoc], ?_⟩⟩
  intro e he
  rcases List.mem_append.1 he with he | he
  · exact a5 e he
  · exact (b5 e he).of (by rw [a3]) (by rw [a3])

theorem SimpleFrame.emit {s e} (h : SimpleEff s e) : SimpleFrame s (emit e s) :=
  ⟨rfl, rfl, ⟨_, _, _, _, _, _, _, _, _, rfl⟩, ⟨[e], rfl, by simpa using h⟩⟩

theorem SimpleFrame.send (s k b) (hk : k.reply = true := by rfl)
    (hq : k = .fence → Echo.isRequest b = true := by intro h; cases h) :
    SimpleFrame s (send k b s) := by
  unfold Server.send
  split
  · exact .refl s
  · rename_i h; exact .emit (.send k b (by simpa using h) hk hq)

theorem SimpleFrame.upd (s) {f : Client → Client}
    (h : ∃ px fc en q cn infl ct cc cm, f s.cl = { s.cl with
      pix := px, formatsChanged := fc, encodings := en, quality := q, contNotified := cn,
      inflight := infl, cut := ct, clipCaps := cc, clipMax := cm }) : SimpleFrame s (s.upd f) :=
  ⟨rfl, rfl, h, ⟨[], by simp, by simp⟩⟩

theorem sendPing_frame {env n s s'} (e : sendPing env n s = .ok s') : SimpleFrame s s' := by
  unfold sendPing sendFence at e
  split at e
  · cases e; exact .refl _
  · dsimp only at e
    split at e <;> cases e
    exact .trans (.upd s ⟨_, _, _, _, _, _, _, _, _, rfl⟩) (.send _ _ _ rfl fun _ => rfl)

theorem clipProvideText_frame {env z s s'} (e : clipProvideText env z s = .ok s') :
    SimpleFrame s s' := by
  unfold clipProvideText at e
  split at e
  · cases e; exact .refl _
  · dsimp only at e
    split at e
    · cases e; exact .refl _
    · split at e
      · cases e; exact .refl _
      · split at e
        · cases e
        · split at e <;> cases e
          · exact .refl _
          · exact .emit (.cutText _)
  · cases e

theorem notifyCont_frame (s) : SimpleFrame s (notifyCont s) := by
  unfold notifyCont
  split
  · exact .trans (.upd _ ⟨_, _, _, _, _, _, _, _, _, rfl⟩) (.send _ _ _)
  · exact .refl _

theorem clipAction_frame {env flags len body s s'}
    (e : clipAction env flags len body s = .ok s') : SimpleFrame s s' := by
  unfold clipAction at e
  rcases ite_cases e with ⟨-, e⟩ | ⟨-, e⟩
  · unfold clipSetCaps at e
    rcases ite_cases e with ⟨-, e⟩ | ⟨-, e⟩
    · split at e <;> cases e
      exact .trans (.upd _ ⟨_, _, _, _, _, _, _, _, _, rfl⟩)
        (.upd _ ⟨_, _, _, _, _, _, _, _, _, rfl⟩)
    · cases e; exact .upd _ ⟨_, _, _, _, _, _, _, _, _, rfl⟩
  rcases ite_cases e with ⟨-, e⟩ | ⟨-, e⟩
  · cases e; exact .send _ _ _
  rcases ite_cases e with ⟨-, e⟩ | ⟨-, e⟩
  · cases e; exact .send _ _ _
  rcases ite_cases e with ⟨-, e⟩ | ⟨-, e⟩
  · cases e; exact .send _ _ _
  rcases ite_cases e with ⟨-, e⟩ | ⟨-, e⟩
  · rcases ite_cases e with ⟨-, e⟩ | ⟨-, e⟩
    · cases e
    · exact clipProvideText_frame e
  · cases e; exact .refl _

theorem Simple.frame {env s a s' n} (h : Simple env table s a s' n) : SimpleFrame s s' := by
  cases h with
  | pix e =>
    unfold onSetPixelFormat at e
    split at e
    · cases e
      refine .trans ?_ (.upd _ ⟨_, _, _, _, _, _, _, _, _, rfl⟩)
      split
      · exact .trans (.upd _ ⟨_, _, _, _, _, _, _, _, _, rfl⟩) (.emit (.pixFmt _))
      · exact .trans (.trans (.upd _ ⟨_, _, _, _, _, _, _, _, _, rfl⟩) (.emit (.pixFmt _))) (.send _ _ _)
    · cases e; exact .refl _
  | encs e =>
    unfold onSetEncodings at e
    split at e
    · dsimp only at e
      split at e
      · cases e; exact .refl _
      · generalize scanEncodings env.experimental _ [] 10 = res at e
        obtain ⟨encs, q⟩ := res
        dsimp only at e
        obtain ⟨t, ht, e⟩ := Outcome.bind_eq_ok.1 e
        cases e
        refine .trans ?_ (sendPing_frame ht)
        have h1 : SimpleFrame s (emit (.encodings encs) (s.upd fun k => { k with
            encodings := encs, quality := q, formatsChanged := true })) :=
          ⟨rfl, rfl, ⟨_, _, _, _, _, _, _, _, _, rfl⟩, ⟨_, rfl, by simpa using .encodings _⟩⟩
        refine .trans h1 ?_
        refine .trans (notifyCont_frame _) ?_
        generalize notifyCont _ = w
        split
        · exact .send _ _ _
        · exact .refl _
    · cases e; exact .refl _
  | key e =>
    unfold onKey at e
    split at e <;> cases e
    · exact .emit (.key _ _)
    · exact .refl _
  | pointer e =>
    unfold onPointer at e
    split at e <;> cases e
    · exact .emit (.pointer _ _ _)
    · exact .refl _
  | cut e =>
    unfold onCutText at e
    split at e
    · rcases ite_cases e with ⟨-, e⟩ | ⟨-, e⟩
      · unfold onExtClipboard at e
        split at e
        · dsimp only at e
          rcases ite_cases e with ⟨-, e⟩ | ⟨-, e⟩
          · cases e
          rcases ite_cases e with ⟨-, e⟩ | ⟨-, e⟩
          · cases e; exact .refl _
          rcases ite_cases e with ⟨-, e⟩ | ⟨-, e⟩
          · cases e
          rcases ite_cases e with ⟨-, e⟩ | ⟨-, e⟩
          · cases e; unfold clipBegin; exact .upd _ ⟨_, _, _, _, _, _, _, _, _, rfl⟩
          obtain ⟨t, ht, e⟩ := Outcome.bind_eq_ok.1 e
          cases e
          exact (SimpleFrame.emit (.clipMsg _ _)).trans (clipAction_frame ht)
        · cases e; exact .refl _
      · unfold onPlainCutText at e
        dsimp only at e
        rcases ite_cases e with ⟨-, e⟩ | ⟨-, e⟩
        · cases e
        rcases ite_cases e with ⟨-, e⟩ | ⟨-, e⟩ <;> cases e
        · exact .emit (.cutText _)
        · exact .upd _ ⟨_, _, _, _, _, _, _, _, _, rfl⟩
    · cases e; exact .refl _
  | qemu e =>
    unfold onQemu at e
    split at e
    · split at e
      · unfold onQemuKey at e
        split at e
        · dsimp only at e
          split at e <;> cases e
          exact .emit (.keyCode _ _)
        · cases e; exact .refl _
      · cases e
    · cases e; exact .refl _
  | size e =>
    unfold onSetDesktopSize at e
    split at e
    · split at e
      · cases e; exact .refl _
      · dsimp only at e
        generalize checkLayout env _ = res at e
        obtain ⟨status, called⟩ := res
        cases e
        refine .trans ?_ (.send _ _ _)
        split
        · exact .emit (.layout _)
        · exact .refl _
    · cases e; exact .refl _
  | ntp e =>
    unfold onNtp at e
    split at e
    · cases e; exact .refl _
    · split at e <;> cases e
      · exact .refl _
      · exact .send _ _ _

end Verif.Server
