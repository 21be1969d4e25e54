import Verif.Spec.Frames
import Verif.Lemmas.Watch
import Verif.Lemmas.Peer
import Verif.Props.Clipboard

/-!
# The form of framebuffer updates (C56) and LED updates (C55)
-/

namespace Verif.Server

variable {env : Env} {table : List Nat}

/-! ## C56 -/

/-- the log grows by entries that have nothing to do with updates -/
def Off (s s' : St) : Prop := ∃ es, s'.log = s.log ++ es ∧ ∀ e ∈ es, e.framing = false

theorem Off.refl (s : St) : Off s s := ⟨[], by simp, by simp⟩

theorem Off.trans {s t u : St} (h1 : Off s t) (h2 : Off t u) : Off s u := by
  obtain ⟨es, a1, a2⟩ := h1
  obtain ⟨fs, b1, b2⟩ := h2
  refine ⟨es ++ fs, by rw [b1, a1, List.append_assoc], fun e he => ?_⟩
  rcases List.mem_append.1 he with he | he
  · exact a2 e he
  · exact b2 e he

theorem Off.send (s k b) (hk : k.framing = false := by rfl) : Off s (Server.send k b s) := by
  unfold Server.send
  split
  · exact .refl s
  · exact ⟨_, rfl, by simpa [Eff.framing] using hk⟩

theorem Off.emit (s) {e : Eff} (h : e.framing = false := by rfl) : Off s (Server.emit e s) :=
  ⟨_, rfl, by simpa using h⟩

theorem Off.same {s s' : St} (h : s'.log = s.log) : Off s s' := ⟨[], by simp [h], by simp⟩

theorem Framed.off {s s' : St} (h : Framed s.log) (hc : Off s s') : Framed s'.log := by
  obtain ⟨es, h1, h2⟩ := hc
  rw [h1]
  clear h1
  generalize s.log = l at h
  induction es generalizing l with
  | nil => simpa using h
  | cons e es ih =>
    have := ih (fun e he => h2 e (by simp [he])) (l ++ [e]) (h.other (h2 e (by simp)))
    simpa using this

theorem be16_mod (n : Nat) : be16 (n % 65536) = be16 n := by
  unfold be16
  congr 1
  · apply UInt8.toNat.inj; simp; omega
  · congr 1; apply UInt8.toNat.inj; simp

theorem skipRect_head (x y w h : Nat) {e : Int} (r : Bytes) {b : Bytes} (he : be32i e = b)
    {b0 b1 b2 b3 : UInt8} (hb : b = [b0, b1, b2, b3]) (hv : toInt32 (beNat [b0, b1, b2, b3]) = e) :
    skipRect (rectHead x y w h e ++ r) = skipBody e r := by
  unfold rectHead
  rw [he, hb]
  simp only [be16, List.cons_append, List.nil_append, skipRect, hv]

theorem skipRect_pts (p : Nat) : skipRect (rectHead 0 0 0 0 encPts ++ be64 p) = some [] := by
  rw [skipRect_head (b := [255, 255, 252, 24]) 0 0 0 0 (be64 p) (by decide) rfl (by decide)]
  simp [skipBody, encPts, be64, be32]

theorem skipRect_size (w h : Nat) : skipRect (rectHead 0 0 w h encDesktopSize) = some [] := by
  rw [← List.append_nil (rectHead _ _ _ _ _),
    skipRect_head (b := [255, 255, 255, 33]) 0 0 w h [] (by decide) rfl (by decide)]
  rfl

theorem skipRect_extSize (w h i st : Nat) : skipRect (extDesktopSizeRect w h i st) = some [] := by
  unfold extDesktopSizeRect
  rw [List.append_assoc,
    skipRect_head (b := [255, 255, 254, 204]) i st w h _ (by decide) rfl (by decide)]
  simp [skipBody, encExtDesktopSize, be32, be16]

theorem sendFrame_block (f : Frame) {s : St} (hc : s.cl.closed = false) : ∃ mid : List Eff, (sendFrame f s).log = s.log ++
    (.send s.cl.chan .updateHead (updateHead (nRectsSent f s.cl % 65536)) :: mid ++
      [.send s.cl.chan .frame f.payload]) ∧
    mid.length = (if willSendPts s.cl f.pts then 1 else 0) + (if resized f s.cl then 1 else 0) ∧
    ∀ e ∈ mid, ∃ k b, (k = .resizeRect ∨ k = .ptsRect) ∧ e = .send s.cl.chan k b ∧
      skipRect b = some [] := by
  have h1 : ∀ t : St, t.cl.closed = false → ∃ b, (sendResizeRect f.w f.h t).log =
      t.log ++ [.send t.cl.chan .resizeRect b] ∧ skipRect b = some [] := by
    intro t ht
    unfold sendResizeRect
    dsimp only
    rw [send_log, if_neg (by exact Bool.eq_false_iff.1 ht)]
    split
    · exact ⟨_, rfl, skipRect_extSize _ _ _ _⟩
    · exact ⟨_, rfl, skipRect_size _ _⟩
  have h2 : ∀ t : St, t.cl.closed = false → ∃ mid, (sendPts f.pts t).log = t.log ++ mid ∧
      mid.length = (if willSendPts t.cl f.pts then 1 else 0) ∧
      ∀ e ∈ mid, ∃ k b, (k = .resizeRect ∨ k = .ptsRect) ∧ e = .send t.cl.chan k b ∧
        skipRect b = some [] := by
    intro t ht
    unfold sendPts willSendPts
    cases f.pts with
    | none => exact ⟨[], by simp, by simp, by simp⟩
    | some p =>
      dsimp only
      split
      · rename_i hp
        rw [send_log, if_neg (by exact Bool.eq_false_iff.1 ht)]
        refine ⟨_, rfl, by simp [hp], ?_⟩
        intro e he
        rw [List.mem_singleton] at he
        exact ⟨_, _, .inr rfl, he, skipRect_pts p⟩
      · rename_i hp
        exact ⟨[], by simp, by simp [hp], by simp⟩
  unfold sendFrame
  dsimp only
  generalize hu : send .updateHead (updateHead (nRectsSent f s.cl % 65536)) s = u
  have u1 : u.cl = s.cl := by rw [← hu]; simp
  have u2 : u.log = s.log ++ [.send s.cl.chan .updateHead (updateHead (nRectsSent f s.cl % 65536))] := by
    rw [← hu, send_log, if_neg (by exact Bool.eq_false_iff.1 hc)]
  by_cases hz : resized f s.cl = true
  · rw [if_pos hz, if_pos hz]
    obtain ⟨b, g1, g2⟩ := h1 u (by rw [u1]; exact hc)
    obtain ⟨-, -, g3, -⟩ := sendResizeRect_frame f.w f.h u
    generalize sendResizeRect f.w f.h u = t at g1 g3 ⊢
    have c1 : t.cl.closed = false := by rw [g3, u1]; exact hc
    have c2 : t.cl.chan = s.cl.chan := by rw [g3, u1]
    have c3 : willSendPts t.cl f.pts = willSendPts s.cl f.pts := by rw [g3, u1]; rfl
    obtain ⟨mid, m1, m2, m3⟩ := h2 t c1
    obtain ⟨-, -, g4, -⟩ := sendPts_frame f.pts t
    generalize sendPts f.pts t = v at m1 g4 ⊢
    refine ⟨.send s.cl.chan .resizeRect b :: mid, ?_, ?_, ?_⟩
    · rw [send_log, if_neg (by rw [g4]; exact Bool.eq_false_iff.1 c1), m1, g1, u1, u2, g4, c2]
      simp
    · rw [List.length_cons, m2, c3]
    · intro e he
      rcases List.mem_cons.1 he with rfl | he
      · exact ⟨_, _, .inl rfl, rfl, g2⟩
      · rw [← c2]; exact m3 e he
  · rw [if_neg hz, if_neg hz]
    have c1 : u.cl.closed = false := by rw [u1]; exact hc
    obtain ⟨mid, m1, m2, m3⟩ := h2 u c1
    obtain ⟨-, -, g4, -⟩ := sendPts_frame f.pts u
    generalize sendPts f.pts u = v at m1 g4 ⊢
    refine ⟨mid, ?_, ?_, ?_⟩
    · rw [send_log, if_neg (by rw [g4]; exact Bool.eq_false_iff.1 c1), m1, u2, g4, u1]
      simp
    · rw [m2, u1]; rfl
    · rw [← u1]; exact m3

theorem sendFrame_framed (f : Frame) {s : St} (h : Framed s.log) (hd : .encodeDone f ∈ s.log) :
    Framed (sendFrame f s).log := by
  by_cases hc : s.cl.closed = true
  · have : (sendFrame f s).log = s.log := by
      obtain ⟨es, h1, h2⟩ := (sendFrame_frame f s).2.2.2
      cases es with
      | nil => simpa using h1
      | cons e es =>
        have := (h2 e (by simp)).1
        rw [hc] at this; cases this
    rw [this]; exact h
  · have hc : s.cl.closed = false := by simpa using hc
    obtain ⟨mid, h1, h2, h3⟩ := sendFrame_block f hc
    rw [h1]
    have : updateHead (nRectsSent f s.cl % 65536) = [0, 0] ++ be16 (f.nRects + mid.length) := by
      unfold updateHead nRectsSent
      rw [be16_mod, h2, Nat.add_assoc]
    rw [this]
    exact .frame h hd h3

theorem clipProvideText_off {z s s'} (e : clipProvideText env z s = .ok s') : Off s s' := by
  unfold clipProvideText at e
  split at e
  · cases e; exact .refl _
  · dsimp only at e
    split at e
    · cases e; exact .refl _
    · split at e
      · cases e; exact .refl _
      · split at e
        · cases e
        · split at e <;> cases e
          · exact .refl _
          · exact .emit _
  · cases e

theorem bigCutText_off {c d s s'} (e : bigCutText env c d s = .ok s') : Off s s' := by
  unfold bigCutText at e
  rcases ite_cases e with ⟨-, e⟩ | ⟨-, e⟩
  · cases e
  dsimp only at e
  rcases ite_cases e with ⟨-, e⟩ | ⟨-, e⟩
  · cases e; exact .same rfl
  obtain ⟨t, ht, e⟩ := Outcome.bind_eq_ok.1 e
  cases e
  refine .trans ?_ (.same (s := t) rfl)
  rcases ite_cases ht with ⟨-, ht⟩ | ⟨-, ht⟩
  · rcases ite_cases ht with ⟨-, ht⟩ | ⟨-, ht⟩
    · exact clipProvideText_off ht
    · cases ht; exact .refl _
  · cases ht; exact .emit _

theorem streamClose_off (s) : Off s (streamClose s) := by
  unfold streamClose
  split
  · exact .refl s
  · dsimp only
    split
    · exact ⟨[.deferClose], rfl, by simp [Eff.framing]⟩
    · exact .same rfl

theorem sendPing_off {n : Nat} {s s' : St} (e : sendPing env n s = .ok s') : Off s s' := by
  unfold sendPing at e
  split at e
  · cases e; exact .refl _
  · dsimp only at e
    unfold sendFence at e
    split at e
    · cases e
    · cases e; exact Off.trans (.same rfl) (.send _ .fence _)

theorem clipAction_off {flags len body s s'} (e : clipAction env flags len body s = .ok s') :
    Off s s' := by
  unfold clipAction at e
  rcases ite_cases e with ⟨-, e⟩ | ⟨-, e⟩
  · unfold clipSetCaps at e
    dsimp only at e
    split at e
    · split at e
      · cases e; exact .same rfl
      · cases e
    · cases e; exact .same rfl
  rcases ite_cases e with ⟨-, e⟩ | ⟨-, e⟩
  · cases e; exact .send _ _ _
  rcases ite_cases e with ⟨-, e⟩ | ⟨-, e⟩
  · cases e; exact .send _ _ _
  rcases ite_cases e with ⟨-, e⟩ | ⟨-, e⟩
  · cases e; exact .send _ _ _
  rcases ite_cases e with ⟨-, e⟩ | ⟨-, e⟩
  · rcases ite_cases e with ⟨-, e⟩ | ⟨-, e⟩
    · cases e
    · exact clipProvideText_off e
  · cases e; exact .refl _

theorem onCutText_off {s s' a n} (e : onCutText env s a = .ok (s', n)) : Off s s' := by
  unfold onCutText at e
  split at e
  · split at e
    · unfold onExtClipboard at e
      split at e
      · dsimp only at e
        rcases ite_cases e with ⟨-, e⟩ | ⟨-, e⟩
        · cases e
        rcases ite_cases e with ⟨-, e⟩ | ⟨-, e⟩
        · cases e; exact .refl _
        rcases ite_cases e with ⟨-, e⟩ | ⟨-, e⟩
        · cases e
        rcases ite_cases e with ⟨-, e⟩ | ⟨-, e⟩
        · cases e; exact .same rfl
        obtain ⟨t, ht, e⟩ := Outcome.bind_eq_ok.1 e
        cases e
        exact Off.trans (.emit s (e := .clipMsg _ _)) (clipAction_off ht)
      · cases e; exact .refl _
    · unfold onPlainCutText at e
      dsimp only at e
      rcases ite_cases e with ⟨-, e⟩ | ⟨-, e⟩
      · cases e
      rcases ite_cases e with ⟨-, e⟩ | ⟨-, e⟩ <;> cases e
      · exact .emit _
      · exact .same rfl
  · cases e; exact .refl _

theorem onSetEncodings_off {s s' a n} (e : onSetEncodings env s a = .ok (s', n)) : Off s s' := by
  unfold onSetEncodings at e
  split at e
  · dsimp only at e
    split at e
    · cases e; exact .refl _
    · generalize scanEncodings env.experimental _ [] 10 = res at e
      obtain ⟨encs, q⟩ := res
      dsimp only at e
      obtain ⟨t, ht, e⟩ := Outcome.bind_eq_ok.1 e
      cases e
      refine .trans ?_ (sendPing_off ht)
      have h1 : Off s (emit (.encodings encs)
          (s.upd fun k => { k with encodings := encs, quality := q, formatsChanged := true })) :=
        ⟨[.encodings encs], rfl, by simp [Eff.framing]⟩
      generalize emit (.encodings encs) (s.upd fun k =>
        { k with encodings := encs, quality := q, formatsChanged := true }) = u at h1 ⊢
      refine h1.trans ?_
      have h2 : Off u (notifyCont u) := by
        unfold notifyCont
        split
        · exact Off.trans (.same rfl) (.send _ .endOfCont _)
        · exact .refl _
      split
      · exact h2.trans (.send _ .clip _)
      · exact h2
  · cases e; exact .refl _

theorem simple_framed {s a s' n} (hs : Framed s.log) (h : Simple env table s a s' n) :
    Framed s'.log := by
  cases h with
  | pix e =>
    refine hs.off ?_
    unfold onSetPixelFormat at e
    split at e
    · cases e
      split
      · exact Off.trans (t := emit (.pixFmt _) (s.upd fun k => { k with pix := _ })) (.emit _) (.same rfl)
      · exact Off.trans (t := send .colourMap rgb332Map (emit (.pixFmt cookedFmt) (s.upd fun k => { k with pix := cookedFmt })))
          (Off.trans (t := emit (.pixFmt cookedFmt) (s.upd fun k => { k with pix := cookedFmt })) (.emit _)
            (.send _ .colourMap _)) (.same rfl)
    · cases e; exact .refl _
  | encs e => exact hs.off (onSetEncodings_off e)
  | cut e => exact hs.off (onCutText_off e)
  | key e =>
    refine hs.off ?_
    unfold onKey at e
    split at e <;> cases e
    · exact .emit _
    · exact .refl _
  | pointer e =>
    refine hs.off ?_
    unfold onPointer at e
    split at e <;> cases e
    · exact .emit _
    · exact .refl _
  | qemu e =>
    refine hs.off ?_
    unfold onQemu at e
    split at e
    · split at e
      · unfold onQemuKey at e
        split at e
        · dsimp only at e
          split at e <;> cases e
          exact .emit _
        · cases e; exact .refl _
      · cases e
    · cases e; exact .refl _
  | size e =>
    unfold onSetDesktopSize at e
    split at e
    · split at e
      · cases e; exact hs
      · dsimp only at e
        generalize checkLayout env _ = res at e
        obtain ⟨status, called⟩ := res
        cases e
        have h1 : ∀ t : St, Framed t.log → ∀ w h, Framed (send .desktopSize
            (updateHead 1 ++ extDesktopSizeRect w h 1 status) t).log := by
          intro t ht w h
          rw [send_log]
          split
          · simpa using ht
          · refine .whole ht (.inr rfl) ?_
            show skipRects 1 (extDesktopSizeRect w h 1 status) = _
            unfold skipRects
            rw [skipRect_extSize]
            rfl
        apply h1
        split
        · exact hs.off (.emit _)
        · exact hs
    · cases e; exact hs
  | ntp e =>
    refine hs.off ?_
    unfold onNtp at e
    split at e
    · cases e; exact .refl _
    · split at e <;> cases e
      · exact .refl _
      · exact .send _ _ _

theorem sendExtSupport_framed {s : St} (h : Framed s.log) : Framed (sendExtSupport s).1.log := by
  have key : ∀ b, skipUpdate b = some [] → Framed (send .extSupport b s).log := by
    intro b hb
    rw [send_log]
    split
    · simpa using h
    · exact .whole h (.inl rfl) hb
  unfold sendExtSupport
  dsimp only
  cases hq : hasEnc s.cl encQemuKey <;> cases hn : hasEnc s.cl encNtp
  · exact h
  · exact key _ (by decide +kernel)
  · exact key _ (by decide +kernel)
  · exact key _ (by decide +kernel)

theorem hs_unframing {b : CState} {e : Eff} (h : HsEff b e) : e.framing = false := by
  cases h with
  | send ch k m h =>
    cases k <;> first | rfl | (cases b <;> cases h)
  | _ => rfl

theorem micro_framed {lp s s'} (hm : Micro lp table s s') (h : Framed s.log) : Framed s'.log := by
  cases hm with
  | fenceOut => exact h.off (.send _ _ _)
  | pfFire => exact h.off (Off.trans (.same rfl) (.send _ _ _))
  | ext => exact sendExtSupport_framed (by exact h)
  | cursor env =>
    unfold sendCursor
    split
    · exact h
    · rw [send_log]
      split
      · simpa [St.upd] using h
      · exact .one h (.inl rfl)
  | led hr =>
    unfold sendLed
    split
    · exact h
    · dsimp only
      split
      · exact h
      · show Framed (send _ _ _).log
        rw [send_log]
        split
        · simpa using h
        · exact .one h (.inr rfl)
  | frame env fb hr e =>
    obtain ⟨-, -, -, h4⟩ := stageFrame_frame e
    rcases h4 with h4 | ⟨_, _, _, _, h4⟩ | h4
    · rw [h4]; exact h
    · exact h.off ⟨_, h4, by simp [Eff.framing]⟩
    · exact h.off ⟨_, h4, by simp [Eff.framing]⟩
  | sendFrame f hr hd => exact sendFrame_framed f h (List.mem_of_getLast? hd)
  | hs env r a h1 h2 =>
    obtain ⟨es, h3, h4⟩ := (hs_frame h1 h2).log
    exact h.off ⟨es, h3, fun e he => hs_unframing (h4 e he)⟩
  | simple env a h1 h2 => exact simple_framed h h2
  | fbReq inc r => exact h.off ⟨_, (fbReqPre_frame inc r s).2.2.2, by simp [Eff.framing]⟩
  | contOn => exact h.off (Off.trans (.same rfl) (.emit _))
  | contOff => exact h.off (Off.trans (.same rfl) (.send _ _ _))
  | fenceReq flags payload h1 hp h2 =>
    obtain ⟨-, -, -, h4⟩ := fenceSeen_frame h2
    rcases h4 with h4 | h4 | ⟨-, b, h4⟩
    · exact h.off ⟨_, h4, by simp [Eff.framing]⟩
    · exact h.off ⟨_, h4, by simp [Eff.framing]⟩
    · exact h.off ⟨_, h4, by simp [Eff.framing, Kind.framing]⟩
  | consume => exact h.off (Off.trans (.same rfl) (.emit _))
  | bigCut env c d hr hc h1 h2 => exact h.off (bigCutText_off h2)
  | remoteClosed => exact h.off ((streamClose_off s).trans ⟨[.deferClose], rfl, by simp [Eff.framing]⟩)
  | flushed => exact h.off (streamClose_off s)
  | free hl h1 => exact h.off (streamClose_off s)
  | idle hl h1 h2 => exact h.off (Off.trans (.same rfl) (streamClose_off _))
  | encoded => exact h.off (Off.trans (.same rfl) (.emit _))
  | setLed v => exact h.off (Off.trans (.same rfl) (.emit _))
  | damage r => exact h.off (Off.trans (.same rfl) (.emit _))
  | _ => exact h

/-! ## C55 -/

theorem leds_append (l m : List Eff) : leds (l ++ m) = m.foldl Leds.note (leds l) :=
  List.foldl_append

theorem leds_encs (l : List Eff) : (leds l).encs = (consent l).encs := by
  have : ∀ (l : List Eff) (v : Leds) (c : Consent), v.encs = c.encs →
      (l.foldl Leds.note v).encs = (l.foldl Consent.note c).encs := by
    intro l
    induction l with
    | nil => intro v c h; exact h
    | cons e l ih =>
      intro v c h
      rw [List.foldl_cons, List.foldl_cons]
      apply ih
      cases e with
      | send ch k b => cases k <;> exact h
      | encodings es => rfl
      | clipMsg f d =>
        show v.encs = (if _ then _ else _ : Consent).encs
        split <;> exact h
      | _ => exact h
  exact this l _ _ rfl

/-- the entries that matter for the LEDs, apart from the encodings -/
def Eff.leds : Eff → Bool
  | .send _ .led _ | .ledSet _ => true
  | _ => false

theorem leds_quiet {l m : List Eff} (h : ∀ e ∈ m, e.leds = false) :
    (Server.leds (l ++ m)).set = (Server.leds l).set ∧
      (Server.leds (l ++ m)).told = (Server.leds l).told := by
  rw [leds_append]
  generalize Server.leds l = v
  induction m generalizing v with
  | nil => exact ⟨rfl, rfl⟩
  | cons e m ih =>
    rw [List.foldl_cons]
    obtain ⟨h1, h2⟩ := ih (fun e he => h e (by simp [he])) (v.note e)
    rw [h1, h2]
    have := h e (by simp)
    cases e with
    | send ch k b => cases k <;> first | exact ⟨rfl, rfl⟩ | cases this
    | ledSet x => cases this
    | _ => exact ⟨rfl, rfl⟩

theorem LedsOk.append {l m : List Eff} (h : LedsOk l)
    (hm : ∀ pre ch b post, m = pre ++ .send ch .led b :: post → LedOk (leds (l ++ pre)) b) :
    LedsOk (l ++ m) := by
  intro pre ch b post e
  rcases List.append_eq_append_iff.1 e with ⟨q, h1, h2⟩ | ⟨q, h1, h2⟩
  · rw [h1]; exact hm q ch b post h2
  · cases q with
    | nil =>
      rw [List.append_nil] at h1
      rw [List.nil_append] at h2
      have := hm [] ch b post (by simpa using h2.symm)
      rwa [List.append_nil, h1] at this
    | cons x q =>
      rw [List.cons_append, List.cons.injEq] at h2
      obtain ⟨rfl, h3⟩ := h2
      exact h pre ch b q h1

theorem LedsOk.quiet {l m : List Eff} (h : LedsOk l) (hm : ∀ e ∈ m, e.leds = false) :
    LedsOk (l ++ m) := by
  refine h.append fun pre ch b post e => ?_
  have := hm (.send ch .led b) (by rw [e]; simp)
  cases this

/-- the client's record agrees with its history -/
structure Lit (c : Client) (l : List Eff) : Prop where
  kept : Kept c l
  set : c.pendingLed = (leds l).set
  fresh : c.st ≠ .ready → c.led = (leds l).told.getD (-1)
  told : c.closed = true ∨ c.led = (leds l).told.getD (-1)
  ok : LedsOk l

theorem Lit.quiet {c c' : Client} {l es : List Eff} (h : Lit c l) (hk : Kept c' (l ++ es))
    (h1 : c'.pendingLed = c.pendingLed) (h2 : c'.led = c.led) (h3 : c'.st ≠ .ready → c.st ≠ .ready)
    (h4 : (c'.closed = c.closed ∨ c'.closed = true) ∨ c.st ≠ .ready)
    (hq : ∀ e ∈ es, e.leds = false) : Lit c' (l ++ es) := by
  obtain ⟨q1, q2⟩ := leds_quiet (l := l) hq
  refine ⟨hk, by rw [q1, h1, h.set], fun hr => by rw [q2, h2, h.fresh (h3 hr)], ?_, h.ok.quiet hq⟩
  rw [q2, h2]
  rcases h4 with (h4 | h4) | h4
  · rw [h4]; exact h.told
  · exact .inl h4
  · exact .inr (h.fresh h4)

theorem unwatched_leds {e : Eff} (h : e.watched = false) : e.leds = false := by
  cases e with
  | send ch k b => cases k <;> first | rfl | cases h
  | ledSet v => cases h
  | _ => rfl

theorem simple_leds {s : St} {e : Eff} (h : SimpleEff s e) : e.leds = false := by
  cases h with
  | send k b _ hk => cases k <;> first | rfl | cases hk
  | _ => rfl

theorem sendLed_lit {s : St} (hr : s.cl.st = .ready) (h : Lit s.cl s.log)
    (hk : Kept (sendLed s).1.cl (sendLed s).1.log) : Lit (sendLed s).1.cl (sendLed s).1.log := by
  unfold sendLed at hk ⊢
  split
  · exact h
  · rename_i hne
    rw [if_neg hne] at hk
    dsimp only at hk ⊢
    split
    · exact h
    · rename_i hqv
      rw [if_neg hqv] at hk
      generalize hb : updateHead 1 ++ rectHead 0 0 0 0 encQemuLed ++
        (if hasEnc s.cl encQemuLed then [UInt8.ofNat (s.cl.pendingLed % 256).toNat]
          else be32i s.cl.pendingLed) = b at hk ⊢
      have hcl : ((send .led b s).upd fun k => { k with led := k.pendingLed }).cl =
          { s.cl with led := s.cl.pendingLed } := by
        show { (send .led b s).cl with led := (send .led b s).cl.pendingLed } = _
        rw [send_cl]
      have hlog : ((send .led b s).upd fun k => { k with led := k.pendingLed }).log =
          if s.cl.closed then s.log else s.log ++ [.send s.cl.chan .led b] := by
        show (send .led b s).log = _
        rw [send_log]
        split <;> simp
      dsimp only at hk ⊢
      rw [hcl, hlog] at hk ⊢
      by_cases hc : s.cl.closed = true
      · rw [if_pos hc] at hk ⊢
        exact ⟨hk, h.set, (fun hn => absurd hr hn), .inl hc, h.ok⟩
      · rw [if_neg hc] at hk ⊢
        have ht := h.told.resolve_left hc
        have hv : leds (s.log ++ [.send s.cl.chan .led b]) =
            { leds s.log with told := some (leds s.log).set } := by
          rw [leds_append]; rfl
        refine ⟨hk, by rw [hv]; exact h.set, (fun hn => absurd hr hn), .inr ?_, ?_⟩
        · rw [hv]; exact h.set
        · refine h.ok.append fun pre ch b' post e => ?_
          cases pre with
          | cons x pre =>
            rw [List.cons_append, List.cons.injEq] at e
            have := congrArg List.length e.2
            simp at this
          | nil =>
            rw [List.nil_append, List.cons.injEq, Eff.send.injEq] at e
            obtain ⟨⟨-, -, rfl⟩, -⟩ := e
            rw [List.append_nil]
            have he : ∀ x, x ∈ s.cl.encodings ↔ x ∈ (leds s.log).encs := fun x => by
              rw [leds_encs, h.kept.enc]
            refine ⟨?_, ?_, fun hm => ?_⟩
            · rw [← he, ← he]
              simp only [hasEnc, encQemuLed, encVmwareLed, Bool.and_eq_true, Bool.not_eq_true',
                List.contains_eq_mem, decide_eq_false_iff_not] at hqv
              by_cases hq : (-261 : Int) ∈ s.cl.encodings
              · exact .inl hq
              · exact .inr (Classical.byContradiction fun hv => hqv ⟨hq, hv⟩)
            · intro hn
              rw [hn] at ht
              exact hne (h.set.trans ht.symm)
            · rw [← he] at hm
              have hq : hasEnc s.cl encQemuLed = true := by simpa [hasEnc, encQemuLed] using hm
              rw [← hb, if_pos hq, h.set]
              rfl

theorem micro_lit {lp s s'} (hm : Micro lp table s s') (h : Lit s.cl s.log) : Lit s'.cl s'.log := by
  have hn := micro_noted hm
  have hk := noted_kept hn h.kept
  have hst : s'.cl.st ≠ .ready → s.cl.st ≠ .ready := by
    rcases micro_keep hm with hh | hh
    · exact fun _ => hh.ne
    · rw [hh.st]; exact id
  cases hn with
  | still hs =>
    obtain ⟨es, h1, h2⟩ := hs.log
    rw [h1] at hk ⊢
    exact h.quiet hk hs.pend hs.led hst (.inl hs.cls) fun e he => unwatched_leds (h2 e he)
  | hs hne hf =>
    obtain ⟨-, -, ⟨_, _, _, _, _, _, _, _, _, _, _, h3⟩, es, h4, h5⟩ := hf
    rw [h4] at hk ⊢
    exact h.quiet hk (by rw [h3]) (by rw [h3]) hst (.inr hne)
      fun e he => unwatched_leds (hs_unwatched (h5 e he))
  | encs env a n hr e =>
    obtain ⟨-, -, ⟨_, _, _, _, _, _, _, _, _, h3⟩, es, h4, h5⟩ := Simple.frame (table := table) (.encs e)
    rw [h4] at hk ⊢
    exact h.quiet hk (by rw [h3]) (by rw [h3]) hst (.inl (.inl (by rw [h3])))
      fun e he => simple_leds (h5 e he)
  | cut env a n hr e =>
    obtain ⟨-, -, ⟨_, _, _, _, _, _, _, _, _, h3⟩, es, h4, h5⟩ := Simple.frame (table := table) (.cut e)
    rw [h4] at hk ⊢
    exact h.quiet hk (by rw [h3]) (by rw [h3]) hst (.inl (.inl (by rw [h3])))
      fun e he => simple_leds (h5 e he)
  | led hr e => subst e; exact sendLed_lit hr h hk
  | setLed v e =>
    subst e
    have hv : leds (s.log ++ [.ledSet v]) = { leds s.log with set := v } := by
      rw [leds_append]; rfl
    refine ⟨hk, ?_, fun hr => ?_, ?_, ?_⟩
    · show v = (leds (s.log ++ [.ledSet v])).set; rw [hv]
    · show s.cl.led = (leds (s.log ++ [.ledSet v])).told.getD (-1); rw [hv]; exact h.fresh hr
    · show s.cl.closed = true ∨ s.cl.led = (leds (s.log ++ [.ledSet v])).told.getD (-1)
      rw [hv]; exact h.told
    · refine h.ok.append fun pre ch b post e => ?_
      have : Eff.send ch .led b ∈ [Eff.ledSet v] := by rw [e]; simp
      simp at this

end Verif.Server

namespace Verif.System

open Verif.Server

variable {table : List Nat}

/-- what offering a text to a client can add to its log -/
def CutEff (text : Bytes) (e : Eff) : Prop :=
  e = .offered text ∨ ∃ ch k b, e = .send ch k b ∧ (k = .clip ∨ k = .cutText)

theorem cut_adds (s : St) (text : Bytes) : ∃ es, (cutTextTo text s).log = s.log ++ es ∧
    ∀ e ∈ es, CutEff text e := by
  have hs : ∀ k b (t : St), (k = .clip ∨ k = .cutText) → (t.log = s.log ∨ t.log = s.log ++ [.offered text]) →
      ∃ es, (send k b t).log = s.log ++ es ∧ ∀ e ∈ es, CutEff text e := by
    intro k b t hk ht
    rw [send_log]
    rcases ht with ht | ht <;> rw [ht] <;> split
    · exact ⟨[], by simp, by simp⟩
    · refine ⟨_, rfl, fun e he => ?_⟩
      rw [List.mem_singleton.1 he]
      exact .inr ⟨_, _, _, rfl, hk⟩
    · exact ⟨[.offered text], by simp, fun e he => .inl (List.mem_singleton.1 he)⟩
    · refine ⟨[.offered text, _], by rw [List.append_assoc]; rfl, fun e he => ?_⟩
      rcases List.mem_cons.1 he with he | he
      · exact .inl he
      · rw [List.mem_singleton.1 he]
        exact .inr ⟨_, _, _, rfl, hk⟩
  unfold cutTextTo
  split
  · exact ⟨[], by simp, by simp⟩
  · have ht : (if s.cl.closed = true then s else emit (.offered text) s).log = s.log ∨
        (if s.cl.closed = true then s else emit (.offered text) s).log = s.log ++ [.offered text] := by
      split
      · exact .inl rfl
      · exact .inr rfl
    generalize (if s.cl.closed = true then s else emit (.offered text) s) = t at ht
    have h0 : ∃ es, t.log = s.log ++ es ∧ ∀ e ∈ es, CutEff text e := by
      rcases ht with ht | ht
      · exact ⟨[], by simp [ht], by simp⟩
      · exact ⟨_, ht, fun e he => .inl (List.mem_singleton.1 he)⟩
    unfold cutTextSend
    split
    · split
      · exact h0
      · split
        · exact hs _ _ _ (.inl rfl) ht
        · split
          · exact hs _ _ _ (.inl rfl) ht
          · exact h0
    · exact hs _ _ _ (.inr rfl) ht

theorem cut_entries {s : St} {text : Bytes} : ∃ es, (cutTextTo text s).log = s.log ++ es ∧
    ∀ e ∈ es, e.framing = false ∧ e.leds = false := by
  obtain ⟨es, h1, h2⟩ := cut_adds s text
  refine ⟨es, h1, fun e he => ?_⟩
  rcases h2 e he with rfl | ⟨_, _, _, rfl, rfl | rfl⟩ <;> exact ⟨rfl, rfl⟩

theorem framed_stays : Stays table (fun _ l => Framed l) :=
  ⟨fun _ _ hm _ h => micro_framed hm h, fun s text _ h => by
    obtain ⟨es, h1, h2⟩ := cut_entries (s := s) (text := text)
    exact h.off (s' := cutTextTo text s) ⟨es, h1, fun e he => (h2 e he).1⟩⟩

theorem lit_stays : Stays table Lit :=
  ⟨fun _ _ hm _ h => micro_lit hm h, fun s text _ h => by
    have hk := cutTextTo_kept text h.kept
    obtain ⟨es, h1, h2⟩ := cut_entries (s := s) (text := text)
    rw [h1] at hk ⊢
    exact h.quiet hk rfl rfl id (.inl (.inl rfl)) fun e he => (h2 e he).2⟩

theorem lit_start (srv : Srv) : Lit (start srv).cl (start srv).log := by
  refine ⟨⟨rfl, rfl, rfl, ?_⟩, rfl, fun _ => rfl, .inr rfl, ?_⟩
  · intro pre ch k b post e hk
    have : Eff.send ch k b ∈ [Eff.send .plain .version versionMsg] := by
      show _ ∈ (start srv).log
      rw [e]; simp
    simp only [List.mem_singleton, Eff.send.injEq] at this
    rcases hk with rfl | rfl <;> exact nomatch this.2.1
  · intro pre ch b post e
    have : Eff.send ch .led b ∈ [Eff.send .plain .version versionMsg] := by
      show _ ∈ (start srv).log
      rw [e]; simp
    simp only [List.mem_singleton, Eff.send.injEq] at this
    exact nomatch this.2.1

/-- C56, the part that holds: over all runs of a server, everything that begins a framebuffer update
announces what follows it: an update of the server's own is exactly as long as its count of
rectangles says, and a frame is preceded by a header whose 16 bit count is that of the encoder's
rectangles plus the pseudo-rectangles in between, with nothing else in between.

Missing: counts from 65536 on, see `c56_count_violated`; the rectangles of the encoder and of the
cursor (C41-C46, C50); LED updates for the VMware extension, see `c55_led_violated`. -/
theorem c56_count_partial {s0 s : Sys} {ops : List SysOp} (h0 : s0.peers = [])
    (e : sysRun table ops s0 = .ok s) : ∀ p ∈ s.peers, Framed p.log := by
  refine fun p hp => framed_stays.all (fun srv => ?_) h0 e hp
  exact .other (l := []) .nil rfl

/-- C55, the part that holds: over all runs of a server, an LED update is sent only to a client that
asked for it and only if it was not told this state last, and a client that knows the QEMU extension
gets a single rectangle with the state in one byte.

Missing: the form of the update for clients that only know the VMware extension, see
`c55_led_violated`. -/
theorem c55_led_partial {s0 s : Sys} {ops : List SysOp} (h0 : s0.peers = [])
    (e : sysRun table ops s0 = .ok s) : ∀ p ∈ s.peers, LedsOk p.log := by
  exact fun p hp => (lit_stays.all lit_start h0 e hp).ok

/-- the bytes of an LED update for a client that knows only the VMware extension end with three that
are not part of it -/
theorem c55_led_violated {s : St} (hq : -261 ∉ s.cl.encodings) (hv : 1464686184 ∈ s.cl.encodings)
    (hc : s.cl.closed = false) (hp : s.cl.pendingLed ≠ s.cl.led) :
    ∃ b rest, (sendLed s).1.log = s.log ++ [.send s.cl.chan .led b] ∧
      skipUpdate b = some rest ∧ rest.length = 3 := by
  unfold sendLed
  have h1 : hasEnc s.cl encQemuLed = false := by
    unfold hasEnc; rw [Bool.eq_false_iff, ne_eq, List.contains_iff_mem]; exact hq
  have h2 : hasEnc s.cl encVmwareLed = true := by
    unfold hasEnc; rw [List.contains_iff_mem]; exact hv
  rw [if_neg hp]
  simp only [h1, h2, Bool.not_false, Bool.not_true, Bool.and_false, Bool.false_eq_true, if_false]
  have h3 : ∀ a b c d : UInt8, skipUpdate (updateHead 1 ++ rectHead 0 0 0 0 encQemuLed ++ [a, b, c, d]) =
      some [b, c, d] := by
    intro a b c d
    have h0 : updateHead 1 ++ rectHead 0 0 0 0 encQemuLed ++ [a, b, c, d] =
        0 :: 0 :: 0 :: 1 :: (rectHead 0 0 0 0 encQemuLed ++ [a, b, c, d]) := rfl
    rw [h0]
    show (skipRect (rectHead 0 0 0 0 encQemuLed ++ [a, b, c, d])).bind (skipRects 0) = _
    rw [skipRect_head (b := [255, 255, 254, 251]) 0 0 0 0 _ (by decide) rfl (by decide)]
    rfl
  obtain ⟨a, b, c, d, h4⟩ : ∃ a b c d, be32i s.cl.pendingLed = [a, b, c, d] := ⟨_, _, _, _, rfl⟩
  rw [h4]
  refine ⟨_, _, ?_, h3 a b c d, rfl⟩
  show (send _ _ s).log = _
  rw [send_log, if_neg (by exact Bool.eq_false_iff.1 hc)]

/-- a client with the QEMU extension gets one rectangle, and no second one for the same state; one
with only the VMware extension gets three bytes that belong to nothing -/
example :
    sysLog (joins [0, -261] ++ [.client 0 (.setLed 2) demoEnv [],
        .client 0 (.readable (.data fullReq)) demoEnv [],
        .client 0 (.setLed 2) demoEnv []]) 4 =
      [.ledSet 2, .fbReq false 0 0 4 3,
        .send .plain .led [0, 0, 0, 1, 0, 0, 0, 0, 0, 0, 0, 0, 255, 255, 254, 251, 2], .ledSet 2] ∧
    sysLog (joins [0, 1464686184] ++ [.client 0 (.setLed 2) demoEnv [],
        .client 0 (.readable (.data fullReq)) demoEnv []]) 3 =
      [.ledSet 2, .fbReq false 0 0 4 3,
        .send .plain .led [0, 0, 0, 1, 0, 0, 0, 0, 0, 0, 0, 0, 255, 255, 254, 251, 0, 0, 0, 2]] := by
  constructor <;> decide +kernel

/-- the count of rectangles is cut to sixteen bits: 65536 rectangles are announced as none -/
theorem c56_count_violated : runCheck (enter [0] ++ [reads fullReq,
      (.encoded { demoFrame with nRects := 65536 }, cursorEnv, [])])
    (fun s => s.log.drop (s.log.length - 3) =
      [.encodeDone { demoFrame with nRects := 65536 }, .send .plain .updateHead [0, 0, 0, 0],
        .send .plain .frame [1]]) = true := by
  decide +kernel

end Verif.System

namespace Verif.Server

variable {table : List Nat}

theorem log_grows {lp} {s s' : St} (hm : Micro lp table s s') : ∃ es, s'.log = s.log ++ es := by
  rcases micro_keep hm with hh | hh
  · obtain ⟨-, -, -, es, h, -⟩ := hh.frame; exact ⟨es, h⟩
  · obtain ⟨es, h, -⟩ := hh.log; exact ⟨es, h⟩

/-- C63, the part that holds: a frame that an encoder finished for a client that is still there is
sent to it, after its header, unless the client changed its formats in the meantime and does not
know fences.

Missing: in that case the frame is dropped and the damage it was made for is forgotten, see
`c63_sent_violated`. -/
theorem c63_sent_partial {srv : Srv} {ops : List (Op × Env × List Read)} {s s' : St}
    (hr : run table ops (start srv) = .ok s) {f : Frame} {env : Env} {net : List Read}
    (hf : s.cl.freed = false) (hc : s.cl.closed = false) (he : s.cl.encoding = true)
    (hk : s.cl.formatsChanged = false ∨ -312 ∈ s.cl.encodings)
    (e : step table (.encoded f) env net s = .ok s') :
    ∃ n mid es, s'.log = s.log ++ .encodeDone f :: (.send s.cl.chan .updateHead ([0, 0] ++ be16 n) :: mid ++
      [.send s.cl.chan .frame f.payload]) ++ es := by
  have hb : Base s := (run_inv (I := fun _ => True) (fun _ _ _ _ _ => trivial) ops (start_base srv)
    trivial hr).1
  have hst : s.cl.st = .ready := Classical.byContradiction fun hn => by
    rw [(hb hn).encoding] at he; cases he
  unfold step event at e
  simp only [hf, he, Bool.false_eq_true, if_false, if_true] at e
  generalize ht : emit (.encodeDone f) (St.upd { s with net := net } fun k => { k with encoding := false }) = t at e
  have t1 : t.cl = { s.cl with encoding := false } := by rw [← ht]; rfl
  have t2 : t.log = s.log ++ [.encodeDone f] := by rw [← ht]; rfl
  unfold finishFb at e
  have hfc : (t.cl.formatsChanged && !hasEnc t.cl encFence) = false := by
    rw [t1]
    rcases hk with h | h
    · rw [show ({ s.cl with encoding := false } : Client).formatsChanged = s.cl.formatsChanged from rfl, h]; rfl
    · rw [show hasEnc { s.cl with encoding := false } encFence = true from by
        unfold hasEnc; rw [List.contains_iff_mem]; exact h]
      simp
  rw [if_neg (by rw [t1]; exact Bool.eq_false_iff.1 hc), hfc, if_neg (by simp)] at e
  rcases ite_cases e with ⟨-, e⟩ | ⟨-, e⟩
  · cases e
  have hc' : t.cl.closed = false := by rw [t1]; exact hc
  obtain ⟨mid, h1, h2, -⟩ := sendFrame_block f hc'
  generalize hL : t.log ++ _ = L at h1
  let I : St → Prop := fun u => ∃ es, u.log = L ++ es
  have hI : ∀ u u', Micro true table u u' → I u → I u' := by
    rintro u u' hm ⟨es, h⟩
    obtain ⟨es', h'⟩ := log_grows hm
    exact ⟨es ++ es', by rw [h', h, List.append_assoc]⟩
  have hm := micro_alive hI
  have hre := reenterTop_keeps hI (env := env)
  have h0 : Alive I (sendFrame f t) := by
    refine ⟨⟨[], by simp [h1]⟩, ?_⟩
    obtain ⟨-, -, ⟨_, _, _, g, -⟩, -⟩ := sendFrame_frame f t
    rw [g, t1]
    exact ⟨hf, hst⟩
  obtain ⟨u, hu, e⟩ := Outcome.bind_eq_ok.1 e
  have h3 : Alive I u := by
    split at hu
    · exact completeFb_inv (fun _ h => h.2.2) hm hre h0 hu
    · cases hu; exact hm _ _ (.writing _ h0.2.2) h0
  obtain ⟨v, hv, e⟩ := Outcome.bind_eq_ok.1 e
  obtain ⟨⟨es, h4⟩, -⟩ := ppf_inv (fun _ h => h.2.2) hm hre (sendPing_inv (fun _ h => h.2.2) hm h3 hv) e
  refine ⟨nRectsSent f t.cl % 65536, mid, es, ?_⟩
  rw [h4, ← hL, t2, t1]
  simp [updateHead]

/-- The frame that was being encoded while the client selected its encodings again is not sent, and
what it was made for is not remembered: with no further damage the client's request is never
answered. -/
theorem c63_sent_violated : runCheck (enter [0] ++ [reads fullReq,
      reads (Msg.setEncodings 0 [0, -223]).wire, (.encoded demoFrame, cursorEnv, [])])
    (fun s => s.log.getLast? = some (.encodeDone demoFrame) && s.cl.damage.isEmpty &&
      decide (s.cl.nPending = 1) && !s.cl.encoding && !s.cl.closed) = true := by
  decide +kernel

/-- a frame for a client that has changed its formats meanwhile, but knows fences, and knows the
display by another size -/
example : runCheck (enter [0, -223, -312] ++ [reads fullReq,
      reads (Msg.setEncodings 0 [0, -223, -312]).wire,
      (.encoded { demoFrame with w := 5 }, cursorEnv, [])])
    (fun s => (s.log.drop (s.log.length - 5)).take 4 =
      [.encodeDone { demoFrame with w := 5 }, .send .plain .updateHead [0, 0, 0, 2],
        .send .plain .resizeRect [0, 0, 0, 0, 0, 5, 0, 3, 255, 255, 255, 33],
        .send .plain .frame [1]]) = true := by
  decide +kernel

end Verif.Server
