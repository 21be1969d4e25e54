import Verif.Spec.Extensions
import Verif.Props.Formats

/-!
# Lemmas about the extensions that clients name
-/

namespace Verif.Extensions

open Verif.Server Verif.System

variable {table : List Nat} {env : Env}

/-- the part of the record that is about something else -/
def dull : Eff → Bool
  | .send _ k _ => k != .extSupport
  | .encodings _ => false
  | _ => true

/-- a step that has nothing to do with extensions -/
structure Mute (s s' : St) : Prop where
  st : s'.cl.st = s.cl.st
  xn : s'.cl.extNotified = s.cl.extNotified
  cn : s'.cl.contNotified = s.cl.contNotified
  encs : s'.cl.encodings = s.cl.encodings
  cls : s.cl.closed = true → s'.cl.closed = true
  log : ∃ es, s'.log = s.log ++ es ∧ ∀ e ∈ es, dull e = true

theorem Mute.refl (s : St) : Mute s s := ⟨rfl, rfl, rfl, rfl, id, [], by simp, by simp⟩

theorem Mute.trans {s t u : St} (h1 : Mute s t) (h2 : Mute t u) : Mute s u := by
  obtain ⟨a1, a2, a3, a4, a5, es, a7, a8⟩ := h1
  obtain ⟨b1, b2, b3, b4, b5, fs, b7, b8⟩ := h2
  refine ⟨b1.trans a1, b2.trans a2, b3.trans a3, b4.trans a4, b5 ∘ a5, es ++ fs,
    by rw [b7, a7, List.append_assoc], ?_⟩
  intro e he
  rcases List.mem_append.1 he with h | h
  · exact a8 e h
  · exact b8 e h

theorem Mute.send (s k b) (hk : (k != .extSupport) = true := by rfl) : Mute s (Server.send k b s) := by
  unfold Server.send
  split
  · exact .refl s
  · exact ⟨rfl, rfl, rfl, rfl, id, _, rfl, by simpa [Extensions.dull] using hk⟩

theorem Mute.emit (s) {e : Eff} (h : Extensions.dull e = true := by rfl) : Mute s (Server.emit e s) :=
  ⟨rfl, rfl, rfl, rfl, id, _, rfl, by simpa using h⟩

theorem Mute.upd (s : St) {f : Client → Client}
    (h : (f s.cl).st = s.cl.st ∧ (f s.cl).extNotified = s.cl.extNotified ∧
      (f s.cl).contNotified = s.cl.contNotified ∧ (f s.cl).encodings = s.cl.encodings ∧
      (f s.cl).closed = s.cl.closed := by exact ⟨rfl, rfl, rfl, rfl, rfl⟩) :
    Mute s (s.upd f) :=
  ⟨h.1, h.2.1, h.2.2.1, h.2.2.2.1, fun h' => h.2.2.2.2.trans h', [], by simp, by simp⟩

theorem Mute.world {s s' : St} (h1 : s'.cl = s.cl) (h2 : s'.log = s.log) : Mute s s' :=
  ⟨by rw [h1], by rw [h1], by rw [h1], by rw [h1], by rw [h1]; exact id, [], by simp [h2], by simp⟩

theorem deferClose_mute (s) : Mute s (deferClose s) := (Mute.upd s).trans (.emit _)

theorem streamClose_mute (s) : Mute s (streamClose s) := by
  unfold streamClose
  split
  · exact .refl s
  · have h : Mute s (s.upd fun k => { k with closed := true }) :=
      ⟨rfl, rfl, rfl, rfl, fun _ => rfl, [], by simp, by simp⟩
    dsimp only
    split
    · exact h.trans ((Mute.upd _).trans (deferClose_mute _))
    · exact h

theorem freeClient_mute (s) : Mute s (freeClient s) := by
  have h := streamClose_mute s
  obtain ⟨h1, h2, -, -⟩ := freeClient_frame s
  exact h.trans ⟨by rw [h1], by rw [h1], by rw [h1], by rw [h1], by rw [h1]; exact id, [],
    by simp [h2], by simp⟩

theorem sendCursor_mute (env s) : Mute s (sendCursor env s) := by
  obtain ⟨-, -, ⟨_, h3⟩, h4⟩ := sendCursor_frame env s
  refine ⟨by rw [h3], by rw [h3], by rw [h3], by rw [h3], by rw [h3]; exact id, ?_⟩
  rcases h4 with h4 | ⟨-, b, h4⟩
  · exact ⟨[], by simp [h4], by simp⟩
  · exact ⟨_, h4, by simp [Extensions.dull]⟩

theorem sendLed_mute (s) : Mute s (sendLed s).1 := by
  obtain ⟨-, -, ⟨_, h3⟩, h4⟩ := sendLed_frame s
  refine ⟨by rw [h3], by rw [h3], by rw [h3], by rw [h3], by rw [h3]; exact id, ?_⟩
  rcases h4 with h4 | ⟨-, b, h4⟩
  · exact ⟨[], by simp [h4], by simp⟩
  · exact ⟨_, h4, by simp [Extensions.dull]⟩

theorem clipProvideText_mute {z s s'} (e : clipProvideText env z s = .ok s') : Mute s s' := by
  unfold clipProvideText at e
  split at e
  · cases e; exact .refl _
  · dsimp only at e
    split at e
    · cases e; exact .refl _
    · split at e
      · cases e; exact .refl _
      · split at e
        · cases e
        · split at e <;> cases e
          · exact .refl _
          · exact .emit _
  · cases e

theorem bigCutText_mute {c d s s'} (e : bigCutText env c d s = .ok s') : Mute s s' := by
  unfold bigCutText at e
  rcases ite_cases e with ⟨-, e⟩ | ⟨-, e⟩
  · cases e
  dsimp only at e
  rcases ite_cases e with ⟨-, e⟩ | ⟨-, e⟩
  · cases e; exact .upd _
  obtain ⟨t, ht, e⟩ := Outcome.bind_eq_ok.1 e
  cases e
  refine .trans ?_ (.upd _)
  rcases ite_cases ht with ⟨-, ht⟩ | ⟨-, ht⟩
  · rcases ite_cases ht with ⟨-, ht⟩ | ⟨-, ht⟩
    · exact clipProvideText_mute ht
    · cases ht; exact .refl _
  · cases ht; exact .emit _

theorem fbReqPre_mute (inc r s) : Mute s (fbReqPre inc r s) := by
  obtain ⟨-, -, ⟨_, _, h3⟩, h4⟩ := fbReqPre_frame inc r s
  exact ⟨by rw [h3], by rw [h3], by rw [h3], by rw [h3], by rw [h3]; exact id,
    _, h4, by simp [Extensions.dull]⟩

theorem fenceReq_mute {flags payload s s' b}
    (e : onFenceRequest flags payload (noteFence flags payload s) = .ok (s', b)) : Mute s s' := by
  obtain ⟨-, -, ⟨_, _, _, _, _, h3⟩, h4⟩ := fenceSeen_frame e
  refine ⟨by rw [h3], by rw [h3], by rw [h3], by rw [h3], by rw [h3]; exact id, ?_⟩
  rcases h4 with h4 | h4 | ⟨-, b, h4⟩
  · exact ⟨_, h4, by simp [Extensions.dull]⟩
  · exact ⟨_, h4, by simp [Extensions.dull]⟩
  · exact ⟨_, h4, by simp [Extensions.dull]⟩

theorem sendPing_mute {n : Nat} {s s' : St} (e : sendPing env n s = .ok s') : Mute s s' := by
  unfold sendPing at e
  split at e
  · cases e; exact .refl _
  · dsimp only at e
    unfold sendFence at e
    split at e
    · cases e
    · cases e; exact (Mute.upd _).trans (.send _ .fence _)

theorem clipAction_mute {flags len body s s'} (e : clipAction env flags len body s = .ok s') : Mute s s' := by
  unfold clipAction at e
  rcases ite_cases e with ⟨-, e⟩ | ⟨-, e⟩
  · unfold clipSetCaps at e
    rcases ite_cases e with ⟨-, e⟩ | ⟨-, e⟩
    · split at e <;> cases e
      exact (Mute.upd _).trans (.upd _)
    · cases e; exact .upd _
  rcases ite_cases e with ⟨-, e⟩ | ⟨-, e⟩
  · cases e; exact .send _ _ _
  rcases ite_cases e with ⟨-, e⟩ | ⟨-, e⟩
  · cases e; exact .send _ _ _
  rcases ite_cases e with ⟨-, e⟩ | ⟨-, e⟩
  · cases e; exact .send _ _ _
  rcases ite_cases e with ⟨-, e⟩ | ⟨-, e⟩
  · rcases ite_cases e with ⟨-, e⟩ | ⟨-, e⟩
    · cases e
    · exact clipProvideText_mute e
  · cases e; exact .refl _

theorem onCutText_mute {s s' : St} {a : Bytes} {n : Nat} (e : onCutText env s a = .ok (s', n)) : Mute s s' := by
  unfold onCutText at e
  split at e
  · split at e
    · unfold onExtClipboard at e
      split at e
      · dsimp only at e
        rcases ite_cases e with ⟨-, e⟩ | ⟨-, e⟩
        · cases e
        rcases ite_cases e with ⟨-, e⟩ | ⟨-, e⟩
        · cases e; exact .refl _
        rcases ite_cases e with ⟨-, e⟩ | ⟨-, e⟩
        · cases e
        rcases ite_cases e with ⟨-, e⟩ | ⟨-, e⟩
        · cases e
          unfold clipBegin
          exact .upd _
        obtain ⟨t, ht, e⟩ := Outcome.bind_eq_ok.1 e
        cases e
        exact (Mute.emit _).trans (clipAction_mute ht)
      · cases e; exact .refl _
    · unfold onPlainCutText at e
      dsimp only at e
      rcases ite_cases e with ⟨-, e⟩ | ⟨-, e⟩
      · cases e
      rcases ite_cases e with ⟨-, e⟩ | ⟨-, e⟩ <;> cases e
      · exact .emit _
      · exact .upd _
  · cases e; exact .refl _

/-- one message is about extensions -/
theorem simple_mute {s s' : St} {a : Bytes} {n : Nat} (hs : Simple env table s a s' n) :
    onSetEncodings env s a = .ok (s', n) ∨ Mute s s' := by
  cases hs with
  | pix e =>
    refine .inr ?_
    unfold onSetPixelFormat at e
    split at e
    · cases e
      split
      · exact ((Mute.upd _).trans (.emit _)).trans (.upd _)
      · exact ((Mute.upd _).trans (.emit _)).trans ((Mute.send _ .colourMap _).trans (.upd _))
    · cases e; exact .refl _
  | encs e => exact .inl e
  | cut e => exact .inr (onCutText_mute e)
  | key e =>
    refine .inr ?_
    unfold onKey at e
    split at e <;> cases e
    · exact .emit _
    · exact .refl _
  | pointer e =>
    refine .inr ?_
    unfold onPointer at e
    split at e <;> cases e
    · exact .emit _
    · exact .refl _
  | qemu e =>
    refine .inr ?_
    unfold onQemu at e
    split at e
    · split at e
      · unfold onQemuKey at e
        split at e
        · dsimp only at e
          split at e <;> cases e
          exact .emit _
        · cases e; exact .refl _
      · cases e
    · cases e; exact .refl _
  | size e =>
    refine .inr ?_
    unfold onSetDesktopSize at e
    split at e
    · split at e
      · cases e; exact .refl _
      · dsimp only at e
        generalize checkLayout env _ = res at e
        obtain ⟨status, called⟩ := res
        cases e
        refine .trans ?_ (.send _ _ _)
        split
        · exact .emit _
        · exact .refl _
    · cases e; exact .refl _
  | ntp e =>
    refine .inr ?_
    unfold onNtp at e
    split at e
    · cases e; exact .refl _
    · split at e <;> cases e
      · exact .refl _
      · exact .send _ _ _

theorem cutTextTo_mute (text : Bytes) (s : St) : Mute s (cutTextTo text s) := by
  unfold cutTextTo
  split
  · exact .refl s
  · refine .trans (t := if s.cl.closed then s else Server.emit (.offered text) s) ?_ ?_
    · split
      · exact .refl s
      · exact .emit s
    · generalize (if s.cl.closed then s else Server.emit (.offered text) s) = t
      unfold cutTextSend
      split
      · split
        · exact .refl t
        · split
          · exact .send _ _ _
          · split
            · exact .send _ _ _
            · exact .refl t
      · exact .send _ _ _

end Verif.Extensions
