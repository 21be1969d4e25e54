import Verif.Spec.Formats
import Verif.Lemmas.Watch
import Verif.Lemmas.Encoders
import Verif.Props.Messages

/-!
# Lemmas about formats
-/

namespace Verif.Formats

open Verif.Server

variable {table : List Nat} {env : Env}

theorem describe_eq (f : PixFmt) : describe f = pixfmtBytes f := by
  have h : ∀ n, UInt8.ofNat (n / 256 % 256) = UInt8.ofNat (n / 256) := fun n => by
    apply UInt8.toNat_inj.1; simp
  have h' : ∀ n, UInt8.ofNat (n % 256) = UInt8.ofNat n := fun n => by
    apply UInt8.toNat_inj.1; simp
  unfold describe pixfmtBytes be16
  simp

/-- the part of the record that is about something else -/
def dull : Eff → Bool
  | .send _ k _ => k != .serverInit && k != .frame
  | .pixFmt _ | .encodings _ | .encode .. | .encodeFail | .encodeDone _ => false
  | _ => true

theorem asked_append (l m : List Eff) : asked (l ++ m) = m.foldl Asked.note (asked l) := List.foldl_append

theorem asked_dull {l es : List Eff} (h : ∀ e ∈ es, dull e = true) : asked (l ++ es) = asked l := by
  rw [asked_append]
  generalize asked l = a
  induction es with
  | nil => rfl
  | cons e es ih =>
    have h1 : a.note e = a := by
      have h2 := h e (by simp)
      cases e with
      | send ch k b => cases k <;> first | rfl | exact absurd h2 (by simp [dull])
      | _ => first | rfl | cases h2
    rw [List.foldl_cons, h1]
    exact ih fun e he => h e (by simp [he])

theorem dull_other {e : Eff} (h : dull e = true) : ∀ a b c d, e ≠ .encode a b c d := by
  rintro a b c d rfl
  cases h

theorem air_append (l m : List Eff) : air (l ++ m) = m.foldl Air.note (air l) := List.foldl_append

theorem air_other {l es : List Eff} (h : ∀ e ∈ es, (∀ a b c d, e ≠ .encode a b c d) ∧ ∀ f, e ≠ .encodeDone f) :
    air (l ++ es) = air l := by
  rw [air_append]
  generalize air l = a
  induction es with
  | nil => rfl
  | cons e es ih =>
    rw [List.foldl_cons]
    have h1 := h e (by simp)
    have h2 := ih fun e he => h e (by simp [he])
    cases e <;> first | exact h2 | exact absurd rfl (h1.1 _ _ _ _) | exact absurd rfl (h1.2 _)

theorem air_dull {l es : List Eff} (h : ∀ e ∈ es, dull e = true) : air (l ++ es) = air l :=
  air_other fun e he => ⟨dull_other (h e he), by rintro f rfl; cases h _ he⟩

theorem Single.left {l m : List Eff} (h : Single (l ++ m)) : Single l :=
  ⟨fun pre e j f q post he => h.taken pre e j f q (post ++ m) (by rw [he]; simp),
    fun pre post he => h.refused pre (post ++ m) (by rw [he]; simp)⟩

theorem FormatsOk.append {l m : List Eff} (h : FormatsOk l)
    (h1 : ∀ pre e j f q post, m = pre ++ .encode e j f q :: post → (asked (l ++ pre)).fmt ≠ none →
      Suits (asked (l ++ pre)) e f)
    (h2 : ∀ pre ch b post, m = pre ++ .send ch .frame b :: post →
      -312 ∈ (asked (l ++ pre)).encs ∨
        (air (l ++ pre)).done ≠ [] ∧ ∀ j ∈ (air (l ++ pre)).done, Suits (asked (l ++ pre)) j.1 j.2) :
    FormatsOk (l ++ m) := by
  have key : ∀ {x : Eff} {pre post}, l ++ m = pre ++ x :: post →
      (∃ q, pre = l ++ q ∧ m = q ++ x :: post) ∨ (∃ q, l = pre ++ x :: q) := by
    intro x pre post e
    rcases List.append_eq_append_iff.1 e with ⟨q, g1, g2⟩ | ⟨q, g1, g2⟩
    · exact .inl ⟨q, g1, g2⟩
    · cases q with
      | nil =>
        rw [List.append_nil] at g1
        rw [List.nil_append] at g2
        exact .inl ⟨[], by rw [g1, List.append_nil], g2.symm⟩
      | cons y q =>
        rw [List.cons_append, List.cons.injEq] at g2
        obtain ⟨rfl, g3⟩ := g2
        exact .inr ⟨q, g1⟩
  refine ⟨fun pre e j f q post he hn => ?_, fun pre ch b post he => ?_⟩
  · rcases key he with ⟨r, rfl, g⟩ | ⟨r, g⟩
    · exact h1 _ _ _ _ _ _ g hn
    · exact h.begun _ _ _ _ _ _ g hn
  · rcases key he with ⟨r, rfl, g⟩ | ⟨r, g⟩
    · exact h2 _ _ _ _ g
    · exact h.sent _ _ _ _ g

/-- other entries matter neither for frames nor for jobs -/
theorem FormatsOk.rest {l m : List Eff} (h : FormatsOk l)
    (hm : ∀ e ∈ m, (∀ a b c d, e ≠ .encode a b c d) ∧ ∀ ch b, e ≠ .send ch .frame b) : FormatsOk (l ++ m) :=
  h.append (fun _ a b c d _ e => absurd rfl ((hm (.encode a b c d) (by rw [e]; simp)).1 _ _ _ _))
    (fun _ ch b _ e => absurd rfl ((hm (.send ch .frame b) (by rw [e]; simp)).2 _ _))

theorem FormatsOk.dull {l m : List Eff} (h : FormatsOk l) (hm : ∀ e ∈ m, dull e = true) : FormatsOk (l ++ m) :=
  h.rest fun e he => ⟨dull_other (hm e he), by rintro ch b rfl; exact absurd (hm _ he) (by simp [Formats.dull])⟩

/-- a client and the record of its connection -/
structure Tuned (c : Client) (l : List Eff) : Prop where
  encs : (asked l).encs = c.encodings
  early : c.st ≠ .ready → (asked l).fmt = none
  idle : c.st ≠ .ready → c.encoding = false ∧ ∀ f, .encodeDone f ∉ l
  fmt : c.st = .ready → c.closed = true ∨ (asked l).fmt = some (describe c.pix)
  same : ∀ g, (asked l).fmt = some g → g = describe c.pix
  job : c.encoding = true → (air l).fly ≠ [] ∧
    (c.formatsChanged = false → ∀ j ∈ (air l).fly, j.2 = c.pix ∧ (j.1 ∈ c.encodings ∨ j.1 = 0))
  landed : (∃ f, l.getLast? = some (.encodeDone f)) → (air l).done ≠ [] ∧
    (c.formatsChanged = false → ∀ j ∈ (air l).done, j.2 = c.pix ∧ (j.1 ∈ c.encodings ∨ j.1 = 0))
  ok : FormatsOk l

/-- a step that has nothing to do with formats -/
structure Steady (s s' : St) : Prop where
  st : s'.cl.st = s.cl.st
  pix : s'.cl.pix = s.cl.pix
  encs : s'.cl.encodings = s.cl.encodings
  fc : s'.cl.formatsChanged = s.cl.formatsChanged
  enc : s'.cl.encoding = s.cl.encoding
  ql : s'.cl.quality = s.cl.quality
  cls : s'.cl.closed = s.cl.closed ∨ s'.cl.closed = true
  log : ∃ es, s'.log = s.log ++ es ∧ ∀ e ∈ es, dull e = true

theorem Tuned.steady {s s' : St} (h : Tuned s.cl s.log) (hs : Steady s s') : Tuned s'.cl s'.log := by
  obtain ⟨es, h1, h2⟩ := hs.log
  have ha := asked_dull (l := s.log) h2
  have hl := air_dull (l := s.log) h2
  rw [h1]
  refine ⟨by rw [ha, hs.encs]; exact h.encs, fun hr => by rw [ha]; exact h.early (hs.st ▸ hr),
    fun hr => ⟨hs.enc.trans (h.idle (hs.st ▸ hr)).1, fun f hf => ?_⟩, fun hr => ?_,
    fun g hg => ?_, fun h3 => ?_, fun h3 => ?_, h.ok.dull h2⟩
  · rcases List.mem_append.1 hf with hf | hf
    · exact (h.idle (hs.st ▸ hr)).2 f hf
    · exact absurd (h2 _ hf) (by simp [Formats.dull])
  · rw [ha, hs.pix]
    rcases h.fmt (hs.st ▸ hr) with h | h
    · rcases hs.cls with h' | h'
      · exact .inl (h'.trans h)
      · exact .inl h'
    · exact .inr h
  · rw [ha] at hg
    rw [hs.pix]; exact h.same g hg
  · rw [hl, hs.pix, hs.encs, hs.fc]
    exact h.job (hs.enc ▸ h3)
  · rw [hl, hs.pix, hs.encs, hs.fc]
    refine h.landed ?_
    obtain ⟨f, h3⟩ := h3
    cases hes : es.getLast? with
    | none =>
      rw [List.getLast?_eq_none_iff.1 hes, List.append_nil] at h3
      exact ⟨f, h3⟩
    | some x =>
      rw [List.getLast?_append, hes] at h3
      obtain rfl := Option.some.inj h3
      exact absurd (h2 _ (List.mem_of_getLast? hes)) (by simp [Formats.dull])

theorem Steady.refl (s : St) : Steady s s :=
  ⟨rfl, rfl, rfl, rfl, rfl, rfl, .inl rfl, [], by simp, by simp⟩

theorem Steady.trans {s t u : St} (h1 : Steady s t) (h2 : Steady t u) : Steady s u := by
  obtain ⟨a1, a2, a3, a4, a5, a9, a6, es, a7, a8⟩ := h1
  obtain ⟨b1, b2, b3, b4, b5, b9, b6, fs, b7, b8⟩ := h2
  refine ⟨b1.trans a1, b2.trans a2, b3.trans a3, b4.trans a4, b5.trans a5, b9.trans a9, ?_, es ++ fs,
    by rw [b7, a7, List.append_assoc], ?_⟩
  · rcases b6 with b6 | b6
    · rw [b6]; exact a6
    · exact .inr b6
  · intro e he
    rcases List.mem_append.1 he with h | h
    · exact a8 e h
    · exact b8 e h

theorem Steady.send (s k b) (hk : (k != .serverInit && k != .frame) = true := by rfl) :
    Steady s (Server.send k b s) := by
  unfold Server.send
  split
  · exact .refl s
  · exact ⟨rfl, rfl, rfl, rfl, rfl, rfl, .inl rfl, _, rfl, by simpa [Formats.dull] using hk⟩

theorem Steady.emit (s) {e : Eff} (h : Formats.dull e = true := by rfl) : Steady s (Server.emit e s) :=
  ⟨rfl, rfl, rfl, rfl, rfl, rfl, .inl rfl, _, rfl, by simpa using h⟩

theorem Steady.upd (s : St) {f : Client → Client}
    (h : (f s.cl).st = s.cl.st ∧ (f s.cl).pix = s.cl.pix ∧ (f s.cl).encodings = s.cl.encodings ∧
      (f s.cl).formatsChanged = s.cl.formatsChanged ∧
      (f s.cl).encoding = s.cl.encoding ∧ (f s.cl).quality = s.cl.quality ∧ (f s.cl).closed = s.cl.closed := by
        exact ⟨rfl, rfl, rfl, rfl, rfl, rfl, rfl⟩) :
    Steady s (s.upd f) :=
  ⟨h.1, h.2.1, h.2.2.1, h.2.2.2.1, h.2.2.2.2.1, h.2.2.2.2.2.1, .inl h.2.2.2.2.2.2, [], by simp, by simp⟩

theorem Steady.world {s s' : St} (h1 : s'.cl = s.cl) (h2 : s'.log = s.log) : Steady s s' :=
  ⟨by rw [h1], by rw [h1], by rw [h1], by rw [h1], by rw [h1], by rw [h1], .inl (by rw [h1]), [], by simp [h2], by simp⟩

theorem deferClose_steady (s) : Steady s (deferClose s) := (Steady.upd s).trans (.emit _)

theorem streamClose_steady (s) : Steady s (streamClose s) := by
  unfold streamClose
  split
  · exact .refl s
  · have h : Steady s (s.upd fun k => { k with closed := true }) :=
      ⟨rfl, rfl, rfl, rfl, rfl, rfl, .inr rfl, [], by simp, by simp⟩
    dsimp only
    split
    · exact h.trans ((Steady.upd _).trans (deferClose_steady _))
    · exact h

theorem freeClient_steady (s) : Steady s (freeClient s) := by
  have h := streamClose_steady s
  obtain ⟨h1, h2, -, -⟩ := freeClient_frame s
  exact h.trans ⟨by rw [h1], by rw [h1], by rw [h1], by rw [h1], by rw [h1], by rw [h1], .inl (by rw [h1]), [],
    by simp [h2], by simp⟩

theorem sendExtSupport_steady (s) : Steady s (sendExtSupport s).1 := by
  obtain ⟨-, -, h3, h4⟩ := sendExtSupport_frame s
  refine ⟨by rw [h3], by rw [h3], by rw [h3], by rw [h3], by rw [h3], by rw [h3], .inl (by rw [h3]), ?_⟩
  rcases h4 with h4 | ⟨-, b, h4⟩
  · exact ⟨[], by simp [h4], by simp⟩
  · exact ⟨_, h4, by simp [Formats.dull]⟩

theorem sendCursor_steady (env s) : Steady s (sendCursor env s) := by
  obtain ⟨-, -, ⟨_, h3⟩, h4⟩ := sendCursor_frame env s
  refine ⟨by rw [h3], by rw [h3], by rw [h3], by rw [h3], by rw [h3], by rw [h3], .inl (by rw [h3]), ?_⟩
  rcases h4 with h4 | ⟨-, b, h4⟩
  · exact ⟨[], by simp [h4], by simp⟩
  · exact ⟨_, h4, by simp [Formats.dull]⟩

theorem sendLed_steady (s) : Steady s (sendLed s).1 := by
  obtain ⟨-, -, ⟨_, h3⟩, h4⟩ := sendLed_frame s
  refine ⟨by rw [h3], by rw [h3], by rw [h3], by rw [h3], by rw [h3], by rw [h3], .inl (by rw [h3]), ?_⟩
  rcases h4 with h4 | ⟨-, b, h4⟩
  · exact ⟨[], by simp [h4], by simp⟩
  · exact ⟨_, h4, by simp [Formats.dull]⟩

theorem clipProvideText_steady {z s s'} (e : clipProvideText env z s = .ok s') : Steady s s' := by
  unfold clipProvideText at e
  split at e
  · cases e; exact .refl _
  · dsimp only at e
    split at e
    · cases e; exact .refl _
    · split at e
      · cases e; exact .refl _
      · split at e
        · cases e
        · split at e <;> cases e
          · exact .refl _
          · exact .emit _
  · cases e

theorem bigCutText_steady {c d s s'} (e : bigCutText env c d s = .ok s') : Steady s s' := by
  unfold bigCutText at e
  rcases ite_cases e with ⟨-, e⟩ | ⟨-, e⟩
  · cases e
  dsimp only at e
  rcases ite_cases e with ⟨-, e⟩ | ⟨-, e⟩
  · cases e; exact .upd _
  obtain ⟨t, ht, e⟩ := Outcome.bind_eq_ok.1 e
  cases e
  refine .trans ?_ (.upd _)
  rcases ite_cases ht with ⟨-, ht⟩ | ⟨-, ht⟩
  · rcases ite_cases ht with ⟨-, ht⟩ | ⟨-, ht⟩
    · exact clipProvideText_steady ht
    · cases ht; exact .refl _
  · cases ht; exact .emit _

theorem fbReqPre_steady (inc r s) : Steady s (fbReqPre inc r s) := by
  obtain ⟨-, -, ⟨_, _, h3⟩, h4⟩ := fbReqPre_frame inc r s
  exact ⟨by rw [h3], by rw [h3], by rw [h3], by rw [h3], by rw [h3], by rw [h3], .inl (by rw [h3]),
    _, h4, by simp [Formats.dull]⟩

theorem fenceReq_steady {flags payload s s' b}
    (e : onFenceRequest flags payload (noteFence flags payload s) = .ok (s', b)) : Steady s s' := by
  obtain ⟨-, -, ⟨_, _, _, _, _, h3⟩, h4⟩ := fenceSeen_frame e
  refine ⟨by rw [h3], by rw [h3], by rw [h3], by rw [h3], by rw [h3], by rw [h3], .inl (by rw [h3]), ?_⟩
  rcases h4 with h4 | h4 | ⟨-, b, h4⟩
  · exact ⟨_, h4, by simp [Formats.dull]⟩
  · exact ⟨_, h4, by simp [Formats.dull]⟩
  · exact ⟨_, h4, by simp [Formats.dull]⟩

theorem sendPing_steady {n : Nat} {s s' : St} (e : sendPing env n s = .ok s') : Steady s s' := by
  unfold sendPing at e
  split at e
  · cases e; exact .refl _
  · dsimp only at e
    unfold sendFence at e
    split at e
    · cases e
    · cases e; exact (Steady.upd _).trans (.send _ .fence _)

theorem clipAction_steady {flags len body s s'} (e : clipAction env flags len body s = .ok s') : Steady s s' := by
  unfold clipAction at e
  rcases ite_cases e with ⟨-, e⟩ | ⟨-, e⟩
  · unfold clipSetCaps at e
    rcases ite_cases e with ⟨-, e⟩ | ⟨-, e⟩
    · split at e <;> cases e
      exact (Steady.upd _).trans (.upd _)
    · cases e; exact .upd _
  rcases ite_cases e with ⟨-, e⟩ | ⟨-, e⟩
  · cases e; exact .send _ _ _
  rcases ite_cases e with ⟨-, e⟩ | ⟨-, e⟩
  · cases e; exact .send _ _ _
  rcases ite_cases e with ⟨-, e⟩ | ⟨-, e⟩
  · cases e; exact .send _ _ _
  rcases ite_cases e with ⟨-, e⟩ | ⟨-, e⟩
  · rcases ite_cases e with ⟨-, e⟩ | ⟨-, e⟩
    · cases e
    · exact clipProvideText_steady e
  · cases e; exact .refl _

theorem onCutText_steady {s s' : St} {a : Bytes} {n : Nat} (e : onCutText env s a = .ok (s', n)) : Steady s s' := by
  unfold onCutText at e
  split at e
  · split at e
    · unfold onExtClipboard at e
      split at e
      · dsimp only at e
        rcases ite_cases e with ⟨-, e⟩ | ⟨-, e⟩
        · cases e
        rcases ite_cases e with ⟨-, e⟩ | ⟨-, e⟩
        · cases e; exact .refl _
        rcases ite_cases e with ⟨-, e⟩ | ⟨-, e⟩
        · cases e
        rcases ite_cases e with ⟨-, e⟩ | ⟨-, e⟩
        · cases e
          unfold clipBegin
          exact .upd _
        obtain ⟨t, ht, e⟩ := Outcome.bind_eq_ok.1 e
        cases e
        exact (Steady.emit _).trans (clipAction_steady ht)
      · cases e; exact .refl _
    · unfold onPlainCutText at e
      dsimp only at e
      rcases ite_cases e with ⟨-, e⟩ | ⟨-, e⟩
      · cases e
      rcases ite_cases e with ⟨-, e⟩ | ⟨-, e⟩ <;> cases e
      · exact .emit _
      · exact .upd _
  · cases e; exact .refl _

theorem pix_tuned {s s' : St} {a : Bytes} {n : Nat} (hr : s.cl.st = .ready) (h : Tuned s.cl s.log)
    (e : onSetPixelFormat s a = .ok (s', n)) : Tuned s'.cl s'.log := by
  have key : ∀ f : PixFmt, Tuned { s.cl with pix := f, formatsChanged := true } (s.log ++ [.pixFmt f]) := by
    intro f
    have ha : asked (s.log ++ [.pixFmt f]) = { asked s.log with fmt := some (describe f) } := by
      rw [asked_append]; rfl
    refine ⟨by rw [ha]; exact h.encs, fun hn => absurd hr hn, fun hn => absurd hr hn, fun _ => .inr (by rw [ha]),
      fun g hg => by rw [ha] at hg; exact (Option.some.inj hg).symm, fun h1 => ⟨?_, nofun⟩,
      fun ⟨g, hg⟩ => by simp at hg, h.ok.rest ?_⟩
    · rw [air_other (by simp)]; exact (h.job h1).1
    · intro x hx
      rw [List.mem_singleton.1 hx]
      exact ⟨nofun, nofun⟩
  unfold onSetPixelFormat at e
  split at e
  · cases e
    split
    · exact key _
    · refine Tuned.steady (s := emit (.pixFmt cookedFmt)
        (s.upd fun k => { k with pix := cookedFmt, formatsChanged := true })) (key cookedFmt) ?_
      have h1 := Steady.send (emit (.pixFmt cookedFmt)
        (s.upd fun k => { k with pix := cookedFmt, formatsChanged := true })) .colourMap rgb332Map
      refine h1.trans ?_
      unfold Server.send
      by_cases hc : s.cl.closed = true
      · rw [if_pos (by exact hc), if_pos (by exact hc)]
        exact .world rfl rfl
      · rw [if_neg (by exact hc), if_neg (by exact hc)]
        exact .world rfl rfl
  · cases e; exact h

theorem encs_tuned {s s' : St} {a : Bytes} {n : Nat} (hr : s.cl.st = .ready) (h : Tuned s.cl s.log)
    (e : onSetEncodings env s a = .ok (s', n)) : Tuned s'.cl s'.log := by
  unfold onSetEncodings at e
  split at e
  · dsimp only at e
    split at e
    · cases e; exact h
    · generalize scanEncodings env.experimental _ [] 10 = res at e
      obtain ⟨encs, q⟩ := res
      dsimp only at e
      obtain ⟨t, ht, e⟩ := Outcome.bind_eq_ok.1 e
      cases e
      refine Tuned.steady ?_ (sendPing_steady ht)
      have h1 : Tuned { s.cl with encodings := encs, quality := q, formatsChanged := true }
          (s.log ++ [.encodings encs]) := by
        have ha : asked (s.log ++ [.encodings encs]) = { asked s.log with encs := encs } := by
          rw [asked_append]; rfl
        refine ⟨by rw [ha], fun hn => absurd hr hn, fun hn => absurd hr hn, fun _ => by rw [ha]; exact h.fmt hr,
          fun g hg => by rw [ha] at hg; exact h.same g hg, fun h1 => ⟨?_, nofun⟩, fun ⟨g, hg⟩ => by simp at hg,
          h.ok.rest ?_⟩
        · rw [air_other (by simp)]; exact (h.job h1).1
        · intro x hx
          rw [List.mem_singleton.1 hx]
          exact ⟨nofun, nofun⟩
      have h2 : Steady (emit (.encodings encs)
          (s.upd fun k => { k with encodings := encs, quality := q, formatsChanged := true }))
          (notifyCont (emit (.encodings encs)
            (s.upd fun k => { k with encodings := encs, quality := q, formatsChanged := true }))) := by
        unfold notifyCont
        split
        · exact (Steady.upd _).trans (.send _ .endOfCont _)
        · exact .refl _
      refine Tuned.steady h1 (h2.trans ?_)
      split
      · exact .send _ .clip _
      · exact .refl _
  · cases e; exact h

/-- two messages change formats -/
theorem simple_cases {s s' : St} {a : Bytes} {n : Nat} (hs : Simple env table s a s' n) :
    onSetPixelFormat s a = .ok (s', n) ∨ onSetEncodings env s a = .ok (s', n) ∨ Steady s s' := by
  cases hs with
  | pix e => exact .inl e
  | encs e => exact .inr (.inl e)
  | cut e => exact .inr (.inr (onCutText_steady e))
  | key e =>
    refine .inr (.inr ?_)
    unfold onKey at e
    split at e <;> cases e
    · exact .emit _
    · exact .refl _
  | pointer e =>
    refine .inr (.inr ?_)
    unfold onPointer at e
    split at e <;> cases e
    · exact .emit _
    · exact .refl _
  | qemu e =>
    refine .inr (.inr ?_)
    unfold onQemu at e
    split at e
    · split at e
      · unfold onQemuKey at e
        split at e
        · dsimp only at e
          split at e <;> cases e
          exact .emit _
        · cases e; exact .refl _
      · cases e
    · cases e; exact .refl _
  | size e =>
    refine .inr (.inr ?_)
    unfold onSetDesktopSize at e
    split at e
    · split at e
      · cases e; exact .refl _
      · dsimp only at e
        generalize checkLayout env _ = res at e
        obtain ⟨status, called⟩ := res
        cases e
        refine .trans ?_ (.send _ _ _)
        split
        · exact .emit _
        · exact .refl _
    · cases e; exact .refl _
  | ntp e =>
    refine .inr (.inr ?_)
    unfold onNtp at e
    split at e
    · cases e; exact .refl _
    · split at e <;> cases e
      · exact .refl _
      · exact .send _ _ _

theorem simple_tuned {s s' : St} {a : Bytes} {n : Nat} (hr : s.cl.st = .ready) (h : Tuned s.cl s.log)
    (hs : Simple env table s a s' n) : Tuned s'.cl s'.log := by
  rcases simple_cases hs with e | e | e
  · exact pix_tuned hr h e
  · exact encs_tuned hr h e
  · exact h.steady e

theorem chosen (fb : Fb) (es : List Int) : chooseEncoding env fb es ∈ es ∨ chooseEncoding env fb es = 0 := by
  rw [chooseEncoding_eq]
  cases h : es.find? (Usable env fb) with
  | none => exact .inr rfl
  | some e => exact .inl (List.mem_of_find?_eq_some h)

theorem ensureEncoder_chosen {fb : Fb} {s t : St} (h : ensureEncoder env fb s = (t, true)) :
    t.cl.encoder = some (chooseEncoding env fb s.cl.encodings) ∧
      ∃ en i k m, t.cl = { s.cl with encoder := en, encId := i, kept := k, nEncs := m } ∧ t.log = s.log := by
  unfold ensureEncoder at h
  dsimp only at h
  split at h
  · next he => cases h; exact ⟨he, _, _, _, _, rfl, rfl⟩
  · split at h
    · cases h; exact ⟨rfl, _, _, _, _, rfl, rfl⟩
    · split at h
      · cases h
      · cases h; exact ⟨rfl, _, _, _, _, rfl, rfl⟩

theorem stageFrame_tuned {fb : Fb} {s s' : St} (hr : s.cl.st = .ready) (h : Tuned s.cl s.log)
    (e : stageFrame env fb s = .ok s') (hone : Single s'.log) : Tuned s'.cl s'.log := by
  unfold stageFrame at e
  rcases ite_cases e with ⟨-, e⟩ | ⟨-, e⟩
  · cases e; exact h
  rcases ite_cases e with ⟨-, e⟩ | ⟨-, e⟩
  · cases e; exact h
  cases he : ensureEncoder env fb s with
  | mk t b =>
  rw [he] at e
  cases b with
  | false =>
    dsimp only at e
    split at e
    · cases e
    · cases e
      obtain ⟨n, en, i, k, m, hf⟩ := ensureEncoder_frame env fb s
      rw [he] at hf
      dsimp only at hf
      subst hf
      exact ⟨h.encs, h.early, h.idle, h.fmt, h.same, h.job, h.landed, h.ok⟩
  | true =>
    obtain ⟨hx, en, i, k, m, hc, hl⟩ := ensureEncoder_chosen he
    dsimp only at e
    rw [hx] at e
    dsimp only [Option.getD] at e
    generalize hg : chooseEncoding env fb s.cl.encodings = g at e hx
    have hin : g ∈ s.cl.encodings ∨ g = 0 := hg ▸ chosen fb s.cl.encodings
    split at e
    · cases e
    · split at e
      · have key : ∀ j q (c : Client), c.st = s.cl.st → c.closed = s.cl.closed → c.pix = s.cl.pix →
            c.encodings = s.cl.encodings → Single (s.log ++ [.encode g j s.cl.pix q]) →
            Tuned c (s.log ++ [.encode g j s.cl.pix q]) := by
          intro j q c c1 c2 c3 c4 c5
          have hf : (air (s.log ++ [.encode g j s.cl.pix q])).fly = [(g, s.cl.pix)] := by
            have h0 := c5.taken s.log g j s.cl.pix q [] rfl
            rw [air_append]
            show (air s.log).fly ++ [(g, s.cl.pix)] = _
            rw [h0]
            rfl
          have ha : asked (s.log ++ [.encode g j s.cl.pix q]) = asked s.log := by rw [asked_append]; rfl
          refine ⟨by rw [ha, c4]; exact h.encs, fun hn => absurd (c1.trans hr) hn, fun hn => absurd (c1.trans hr) hn,
            fun _ => by rw [ha, c2, c3]; exact h.fmt hr, fun x hx => by rw [ha] at hx; rw [c3]; exact h.same x hx,
            fun _ => ⟨by rw [hf]; simp, fun _ y hy => ?_⟩, fun ⟨y, hy⟩ => by simp at hy, h.ok.append ?_ ?_⟩
          · rw [hf] at hy
            rw [List.mem_singleton.1 hy]
            exact ⟨c3.symm, by rw [c4]; exact hin⟩
          · intro pre e j' f q' post hp hne
            cases pre with
            | nil =>
              rw [List.nil_append, List.cons.injEq, Eff.encode.injEq] at hp
              obtain ⟨⟨rfl, -, rfl, -⟩, -⟩ := hp
              rw [List.append_nil] at hne ⊢
              obtain ⟨y, hy⟩ := Option.ne_none_iff_exists'.1 hne
              exact ⟨by rw [hy, h.same y hy], by rw [h.encs]; exact hin⟩
            | cons y pre =>
              rw [List.cons_append, List.cons.injEq] at hp
              have := congrArg List.length hp.2
              simp at this
          · intro pre ch b post hp
            have : Eff.send ch .frame b ∈ [Eff.encode g j s.cl.pix q] := by rw [hp]; simp
            simp at this
        cases e
        simp only [St.upd, Server.emit, hc, hl] at hone ⊢
        split at hone
        · rw [if_pos (by assumption)]
          exact key _ _ _ rfl rfl rfl rfl hone
        · rw [if_neg (by assumption)]
          exact key _ _ _ rfl rfl rfl rfl hone
      · cases e
        simp only [St.upd, Server.emit, hc, hl] at hone ⊢
        have h0 := hone.refused s.log [] rfl
        have ha : asked (s.log ++ [.encodeFail]) = asked s.log := by rw [asked_append]; rfl
        refine ⟨by rw [ha]; exact h.encs, fun hn => absurd hr hn, fun hn => absurd hr hn, by rw [ha]; exact h.fmt,
          by rw [ha]; exact h.same, fun hj => absurd h0 (h.job hj).1, fun ⟨y, hy⟩ => by simp at hy, h.ok.rest ?_⟩
        intro x hx
        rw [List.mem_singleton.1 hx]
        exact ⟨nofun, nofun⟩

end Verif.Formats
