import Verif.Lemmas.Sizes
import Verif.Props.Level

/-!
# C126: clients know the size of the picture
-/

namespace Verif.Sizes

open Verif.Server Verif.System Verif.Formats

variable {table : List Nat} {env : Env}

theorem view_snoc (l : List Eff) (e : Eff) : view (l ++ [e]) = (view l).see e := by
  unfold view
  rw [List.foldl_append]; rfl

/-- the views are the same, except for what the encoder made -/
structure View.Alike (v u : View) : Prop where
  encs : u.encs = v.encs
  w : u.w = v.w
  h : u.h = v.h
  again : u.again = v.again

theorem see_send {v : View} {ch k b} (h : loud k = false) : v.see (.send ch k b) = v := by
  cases k <;> first | rfl | cases h

theorem view_lt (l : List Eff) : (view l).w < 65536 ∧ (view l).h < 65536 := by
  have hr : ∀ a b : UInt8, rd16 a b < 65536 := fun a b => by
    unfold rd16; have := a.toNat_lt; have := b.toNat_lt; omega
  have key : ∀ (l : List Eff) (v : View), v.w < 65536 ∧ v.h < 65536 →
      (l.foldl View.see v).w < 65536 ∧ (l.foldl View.see v).h < 65536 := by
    intro l
    induction l with
    | nil => exact fun _ h => h
    | cons e l ih =>
      refine fun v h => ih _ ?_
      unfold View.see
      split <;> first | exact h | exact ⟨hr _ _, hr _ _⟩
  exact key l {} (by decide)

theorem view_dull {l es : List Eff} (h : ∀ e ∈ es, dull e = true) : (view l).Alike (view (l ++ es)) := by
  rw [show view (l ++ es) = es.foldl View.see (view l) from List.foldl_append]
  generalize view l = v
  induction es generalizing v with
  | nil => exact ⟨rfl, rfl, rfl, rfl⟩
  | cons e es ih =>
    rw [List.foldl_cons]
    have h1 := h e (by simp)
    have h2 := ih (fun e he => h e (by simp [he])) (v.see e)
    have h3 : v.Alike (v.see e) := by
      cases e with
      | send ch k b => rw [see_send (by simpa [dull] using h1)]; exact ⟨rfl, rfl, rfl, rfl⟩
      | _ => first | exact ⟨rfl, rfl, rfl, rfl⟩ | cases h1
    exact ⟨h2.1.trans h3.1, h2.2.trans h3.2, h2.3.trans h3.3, h2.4.trans h3.4⟩

/-- a client and the record of its connection -/
structure Sized (c : Client) (l : List Eff) : Prop where
  encs : (view l).encs = c.encodings
  early : c.st ≠ .ready → (view l).again = false
  known : c.st = .ready → c.closed = false →
    (c.knownW, c.knownH) = if (view l).again then (0, 0) else ((view l).w, (view l).h)
  rects : ∀ a ch b d, l = a ++ .send ch .resizeRect b :: d → Told (view a) b
  frames : ∀ a ch b d, l = a ++ .send ch .frame b :: d → Fitting (view a) b

/-- the record grows by things that are neither sizes nor frames -/
theorem Sized.grow {c c' : Client} {l es : List Eff} (h : Sized c l)
    (hr : ∀ ch b, .send ch .resizeRect b ∉ es) (hf : ∀ ch b, .send ch .frame b ∉ es)
    (h1 : (view (l ++ es)).encs = c'.encodings) (h2 : c'.st ≠ .ready → (view (l ++ es)).again = false)
    (h3 : c'.st = .ready → c'.closed = false → (c'.knownW, c'.knownH) =
      if (view (l ++ es)).again then (0, 0) else ((view (l ++ es)).w, (view (l ++ es)).h)) : Sized c' (l ++ es) := by
  refine ⟨h1, h2, h3, fun a ch b d hl => ?_, fun a ch b d hl => ?_⟩
  · rcases append_eq_cons hl with ⟨q, g1, rfl⟩ | ⟨q, -, g2⟩
    · exact h.rects a ch b q g1
    · exact absurd (by rw [g2]; simp) (hr ch b)
  · rcases append_eq_cons hl with ⟨q, g1, rfl⟩ | ⟨q, -, g2⟩
    · exact h.frames a ch b q g1
    · exact absurd (by rw [g2]; simp) (hf ch b)

theorem Sized.still {s s' : St} (h : Sized s.cl s.log) (hm : Still s s') : Sized s'.cl s'.log := by
  obtain ⟨h1, h2, h3, h4, -, h5, es, h6, h7⟩ := hm
  have hv := view_dull (l := s.log) h7
  rw [h6]
  refine h.grow (fun ch b hx => by cases h7 _ hx) (fun ch b hx => by cases h7 _ hx)
    (by rw [hv.encs, h4]; exact h.encs) (fun hn => by rw [hv.again]; exact h.early (h1 ▸ hn)) fun hr hc => ?_
  rw [hv.again, hv.w, hv.h, h2, h3]
  refine h.known (h1 ▸ hr) ?_
  cases hx : s.cl.closed with
  | false => rfl
  | true => rw [h5 hx] at hc; cases hc

theorem encs_sized {s s' : St} {a : Bytes} {n : Nat} (hr : s.cl.st = .ready) (h : Sized s.cl s.log)
    (e : onSetEncodings env s a = .ok (s', n)) : Sized s'.cl s'.log := by
  unfold onSetEncodings at e
  split at e
  · dsimp only at e
    split at e
    · cases e; exact h
    · generalize scanEncodings env.experimental _ [] 10 = res at e
      obtain ⟨es, q⟩ := res
      dsimp only at e
      obtain ⟨u, hu, e⟩ := Outcome.bind_eq_ok.1 e
      cases e
      have h0 : Sized { s.cl with encodings := es, quality := q, formatsChanged := true } (s.log ++ [.encodings es]) :=
        h.grow (by simp) (by simp) (by rw [view_snoc]; rfl) (fun hn => absurd hr hn)
          (by rw [view_snoc]; exact h.known)
      generalize hv : (emit (.encodings es)
        (s.upd fun k => { k with encodings := es, quality := q, formatsChanged := true })) = v at hu
      have h1 : Sized v.cl v.log := by rw [← hv]; exact h0
      clear hv h0
      have h2 : Still v (notifyCont v) := by
        unfold notifyCont
        split
        · exact (Still.upd _).trans (.send _ _ _)
        · exact .refl _
      generalize notifyCont v = w at h2 hu
      have h3 : Still w (if hasEnc w.cl encExtClipboard then sendClipCaps w else w) := by
        split
        · exact .send _ _ _
        · exact .refl _
      exact h1.still ((h2.trans h3).trans (sendPing_still hu))
  · cases e; exact h

theorem fbReqPre_known (inc : Bool) (r : Rect) (s : St) :
    ((fbReqPre inc r s).cl.knownW, (fbReqPre inc r s).cl.knownH) =
      if !inc && hasEnc s.cl encExtDesktopSize then (0, 0) else (s.cl.knownW, s.cl.knownH) := by
  unfold fbReqPre forgetSize
  dsimp only
  by_cases h : (!inc && hasEnc s.cl encExtDesktopSize) = true
  · rw [if_pos h, if_pos (by exact h)]; rfl
  · rw [if_neg h, if_neg (by exact h)]; rfl

theorem fbReq_sized {s : St} (inc : Bool) (r : Rect) (hr : s.cl.st = .ready) (h : Sized s.cl s.log) :
    Sized (fbReqPre inc r s).cl (fbReqPre inc r s).log := by
  have hE : hasEnc s.cl encExtDesktopSize = (view s.log).encs.contains (-308) := by rw [h.encs]; rfl
  have hl : (fbReqPre inc r s).log = s.log ++ [.fbReq inc r.x r.y r.w r.h] := (fbReqPre_frame inc r s).2.2.2
  rw [hl]
  refine h.grow (by simp) (by simp) ?_ (fun hn => absurd ?_ hn) fun _ hc => ?_
  · obtain ⟨-, -, ⟨_, _, h3⟩, -⟩ := fbReqPre_frame inc r s
    rw [view_snoc, h3]; exact h.encs
  · obtain ⟨-, -, ⟨_, _, h3⟩, -⟩ := fbReqPre_frame inc r s
    rw [h3]; exact hr
  · rw [view_snoc]
    show _ = if ((view s.log).again || (!inc && (view s.log).encs.contains (-308))) then _ else _
    rw [← hE]
    have hk : (fbReqPre inc r s).cl.closed = s.cl.closed := by
      obtain ⟨-, -, ⟨_, _, h3⟩, -⟩ := fbReqPre_frame inc r s
      rw [h3]
    have hk := h.known hr (hk ▸ hc)
    rw [fbReqPre_known, hk]
    cases (!inc && hasEnc s.cl encExtDesktopSize) <;> simp [View.see]

theorem rd_ofNat (n : Nat) : rd16 (UInt8.ofNat (n / 256)) (UInt8.ofNat n) = n % 65536 := by
  unfold rd16; simp only [toNat_ofNat8]; omega

theorem init_sized {s s' : St} {a : Bytes} {n : Nat} (hi : s.cl.st = .init) (h : Sized s.cl s.log)
    (e : onInit s a = .ok (s', n)) : Sized s'.cl s'.log := by
  unfold onInit at e
  split at e
  · cases e; exact h
  · dsimp only at e
    have h0 : Still s (if ‹UInt8› = 0 then emit .disconnectOthers s else s) := by
      split
      · exact .emit _
      · exact .refl _
    have g := h.still h0
    have hi' : (if ‹UInt8› = 0 then emit .disconnectOthers s else s).cl.st = .init := by rw [h0.st]; exact hi
    generalize (if ‹UInt8› = 0 then emit .disconnectOthers s else s) = t at e g hi'
    split at e
    · cases e
    · rename_i u hu
      cases e
      have ha := g.early (by rw [hi']; decide)
      unfold sendServerInit at hu
      split at hu
      · cases hu
      · rename_i fb _
        split at hu
        · cases hu
        · dsimp only at hu
          cases hu
          generalize (if _ = 24 then _ else _) = pf
          cases hc : t.cl.closed with
          | true =>
            simp only [emit, St.upd, send, hc, if_true]
            exact g.grow (by simp) (by simp) (by rw [view_snoc]; exact g.encs) (fun hn => absurd rfl hn) nofun
          | false =>
            simp only [emit, St.upd, send, hc, Bool.false_eq_true, if_false]
            rw [List.append_assoc]
            refine g.grow (by simp) (by simp) ?_ (fun hn => absurd rfl hn) fun _ _ => ?_
            · rw [← List.append_assoc, view_snoc, view_snoc]; exact g.encs
            · rw [← List.append_assoc, view_snoc, view_snoc]
              simp [View.see, be16, rd_ofNat, ha]

theorem sizeRect_eq {c : Client} {w h : Nat} (hs : supportsResizing c = true) : ∃ e, e ∈ c.encodings ∧
    (e = -308 ∨ e = -223 ∧ -308 ∉ c.encodings) ∧
    (if hasEnc c encExtDesktopSize then extDesktopSizeRect w h 0 0 else rectHead 0 0 w h encDesktopSize) =
      sizeRect e w h := by
  have hE : hasEnc c encExtDesktopSize = decide (-308 ∈ c.encodings) := by
    unfold hasEnc encExtDesktopSize; exact List.contains_eq_mem ..
  have hD : hasEnc c encDesktopSize = decide (-223 ∈ c.encodings) := by
    unfold hasEnc encDesktopSize; exact List.contains_eq_mem ..
  have h1 : be32i encExtDesktopSize = [0xff, 0xff, 0xfe, 0xcc] := by decide +kernel
  have h2 : be32i encDesktopSize = [0xff, 0xff, 0xff, 0x21] := by decide +kernel
  have h3 : be16 0 = [0, 0] := by decide +kernel
  have h4 : be32 0 = [0, 0, 0, 0] := by decide +kernel
  unfold supportsResizing at hs
  rw [hE, hD] at hs
  rw [hE]
  by_cases c1 : -308 ∈ c.encodings
  · exact ⟨-308, c1, .inl rfl, by simp [c1, extDesktopSizeRect, rectHead, sizeRect, h1, h3, h4]⟩
  · have c2 : -223 ∈ c.encodings := by simpa [c1] using hs
    exact ⟨-223, c2, .inr ⟨rfl, c1⟩, by simp [c1, rectHead, sizeRect, h2, h3]⟩

theorem made_send {l : List Eff} {ch k b} : (view (l ++ [.send ch k b])).made = (view l).made := by
  rw [view_snoc]
  cases k <;> first | rfl | (unfold View.see; split <;> first | rfl | simp_all)

theorem frame_sized {s : St} {f : Frame} (hr : s.cl.st = .ready) (h : Sized s.cl s.log)
    (hd : s.log.getLast? = some (.encodeDone f)) (hs : resized f s.cl = false ∨ supportsResizing s.cl = true) :
    Sized (sendFrame f s).cl (sendFrame f s).log := by
  have hm : (view s.log).made = some f := by
    obtain ⟨l, hl⟩ := List.getLast?_eq_some_iff.1 hd
    rw [hl, view_snoc]; rfl
  unfold sendFrame
  dsimp only
  have g0 := h.still (.send s .updateHead (updateHead (nRectsSent f s.cl % 65536)))
  have g1 : (view (send .updateHead (updateHead (nRectsSent f s.cl % 65536)) s).log).made = some f := by
    rw [send_log]
    split
    · rw [List.append_nil]; exact hm
    · rw [made_send]; exact hm
  have g2 : (send .updateHead (updateHead (nRectsSent f s.cl % 65536)) s).cl = s.cl := send_cl ..
  generalize send .updateHead (updateHead (nRectsSent f s.cl % 65536)) s = t at g0 g1 g2
  generalize hu : (if resized f s.cl = true then sendResizeRect f.w f.h t else t) = u
  have k : Sized u.cl u.log ∧ (view u.log).made = some f ∧ u.cl.st = .ready ∧ u.cl.closed = s.cl.closed ∧
      (s.cl.closed = false → ¬ (f.w = 0 ∧ f.h = 0) →
        (view u.log).w = f.w % 65536 ∧ (view u.log).h = f.h % 65536 ∧ (view u.log).again = false) := by
    rw [← g2] at hr hs hu ⊢
    have hk := g0.known hr
    by_cases hz : resized f t.cl = true
    · rw [if_pos hz] at hu
      obtain ⟨e, e1, e2, e3⟩ := sizeRect_eq (w := f.w) (h := f.h) (hs.resolve_left (by simp [hz]))
      subst hu
      have hsee : ∀ v : View, ∀ ch, v.see (.send ch .resizeRect (sizeRect e f.w f.h)) =
          { v with w := f.w % 65536, h := f.h % 65536, again := false } := by
        intro v ch
        simp [View.see, sizeRect, be16, rd_ofNat]
      unfold sendResizeRect
      dsimp only
      generalize hq : (t.upd fun k => { k with
        knownW := f.w % 65536, knownH := f.h % 65536,
        damage := k.damage ++ [{ x := 0, y := 0, w := f.w % 65536, h := f.h % 65536 }] }) = v
      have v1 : v.cl = { t.cl with
        knownW := f.w % 65536, knownH := f.h % 65536,
        damage := t.cl.damage ++ [{ x := 0, y := 0, w := f.w % 65536, h := f.h % 65536 }] } := by rw [← hq]; rfl
      have v2 : v.log = t.log := by rw [← hq]; rfl
      rw [show hasEnc v.cl encExtDesktopSize = hasEnc t.cl encExtDesktopSize by rw [v1]; rfl, e3, send_cl, send_log, v1,
        v2]
      clear hq
      dsimp only
      by_cases hc : t.cl.closed = true
      · rw [if_pos hc, List.append_nil]
        refine ⟨⟨g0.encs, fun hn => absurd hr hn, fun _ hn => ?_, g0.rects, g0.frames⟩, g1, hr, rfl, fun hn => ?_⟩
        · rw [show t.cl.closed = false from hn] at hc; cases hc
        · rw [hn] at hc; cases hc
      · rw [if_neg hc]
        refine ⟨⟨?_, fun hn => absurd hr hn, fun _ _ => ?_, fun a ch b d hl => ?_, fun a ch b d hl => ?_⟩, ?_, hr, rfl,
          fun _ _ => ?_⟩
        · rw [view_snoc, hsee]; exact g0.encs
        · rw [view_snoc, hsee]; simp
        · rcases append_eq_cons hl with ⟨q, k1, rfl⟩ | ⟨q, rfl, k2⟩
          · exact g0.rects a ch b q k1
          · cases q with
            | nil =>
              rw [List.nil_append, List.cons.injEq, Eff.send.injEq] at k2
              obtain ⟨⟨-, -, rfl⟩, rfl⟩ := k2
              rw [List.append_nil]
              refine ⟨f, e, g1, by rw [g0.encs]; exact e1, by rw [g0.encs]; exact e2, rfl, ?_⟩
              have hk := hk (Bool.eq_false_iff.2 hc)
              cases ha : (view t.log).again with
              | true => exact .inl rfl
              | false =>
                rw [ha] at hk
                simp only [Bool.false_eq_true, if_false, Prod.mk.injEq] at hk
                refine .inr ?_
                rw [← hk.1, ← hk.2]
                unfold resized at hz
                simp only [Bool.or_eq_true, decide_eq_true_eq] at hz
                exact hz.imp Ne.symm Ne.symm
            | cons y q => have := congrArg List.length k2; simp at this
        · rcases append_eq_cons hl with ⟨q, k1, rfl⟩ | ⟨q, -, k2⟩
          · exact g0.frames a ch b q k1
          · exact absurd (show Eff.send ch .frame b ∈ [Eff.send t.cl.chan .resizeRect (sizeRect e f.w f.h)] by
              rw [k2]; simp) (by simp)
        · rw [made_send]; exact g1
        · rw [view_snoc, hsee]; exact ⟨rfl, rfl, rfl⟩
    · rw [if_neg hz] at hu
      subst hu
      refine ⟨g0, g1, hr, rfl, fun hc hn => ?_⟩
      have hk := hk hc
      unfold resized at hz
      simp only [Bool.or_eq_true, decide_eq_true_eq, not_or, Decidable.not_not] at hz
      cases ha : (view t.log).again with
      | true =>
        rw [ha] at hk
        simp only [if_true, Prod.mk.injEq] at hk
        exact absurd ⟨by rw [← hz.1]; exact hk.1, by rw [← hz.2]; exact hk.2⟩ hn
      | false =>
        rw [ha] at hk
        simp only [Bool.false_eq_true, if_false, Prod.mk.injEq] at hk
        have := view_lt t.log
        refine ⟨?_, ?_, rfl⟩
        · rw [← hk.1, ← hz.1, hk.1, Nat.mod_eq_of_lt this.1]
        · rw [← hk.2, ← hz.2, hk.2, Nat.mod_eq_of_lt this.2]
  clear hu
  obtain ⟨k1, k2, k3, k4, k5⟩ := k
  have w1 : Sized (sendPts f.pts u).cl (sendPts f.pts u).log := by
    unfold sendPts
    split
    · exact k1
    · split
      · rw [send_cl, send_log]
        split
        · rw [List.append_nil]; exact k1
        · refine k1.grow (by simp) (by simp) ?_ ?_ ?_ <;> rw [view_snoc]
          · exact k1.encs
          · exact k1.early
          · exact k1.known
      · exact k1
  have w2 : (sendPts f.pts u).cl = u.cl := (sendPts_frame f.pts u).2.2.1
  have w3 : view (sendPts f.pts u).log = view u.log := by
    unfold sendPts
    split
    · rfl
    · split
      · rw [send_log]
        split
        · rw [List.append_nil]
        · rw [view_snoc]; rfl
      · rfl
  generalize sendPts f.pts u = w at w1 w2 w3
  rw [send_cl, send_log]
  split
  · rw [List.append_nil]; exact w1
  · next hc =>
    have hcs : s.cl.closed = false := by rw [← k4, ← w2]; exact Bool.eq_false_iff.2 hc
    refine ⟨by rw [view_snoc]; exact w1.encs, fun hn => absurd (by rw [w2]; exact k3) hn,
      fun h1 h2 => by rw [view_snoc]; exact w1.known h1 h2, fun a ch b d hl => ?_, fun a ch b d hl => ?_⟩
    · rcases append_eq_cons hl with ⟨q, j1, rfl⟩ | ⟨q, -, j2⟩
      · exact w1.rects a ch b q j1
      · exact absurd (show Eff.send ch .resizeRect b ∈ [Eff.send w.cl.chan .frame f.payload] by rw [j2]; simp) (by simp)
    · rcases append_eq_cons hl with ⟨q, j1, rfl⟩ | ⟨q, rfl, j2⟩
      · exact w1.frames a ch b q j1
      · cases q with
        | nil =>
          rw [List.nil_append, List.cons.injEq, Eff.send.injEq] at j2
          obtain ⟨⟨-, -, rfl⟩, rfl⟩ := j2
          rw [List.append_nil, w3]
          exact ⟨f, k2, rfl, k5 hcs⟩
        | cons y q => have := congrArg List.length j2; simp at this

theorem cursor_sized {s : St} (h : Sized s.cl s.log) : Sized (sendCursor env s).cl (sendCursor env s).log := by
  obtain ⟨-, -, ⟨_, h3⟩, h4⟩ := sendCursor_frame env s
  rw [h3]
  rcases h4 with h4 | ⟨-, b, h4⟩
  · rw [h4]; exact ⟨h.encs, h.early, h.known, h.rects, h.frames⟩
  · rw [h4]
    refine h.grow (by simp) (by simp) ?_ ?_ ?_ <;> rw [view_snoc]
    · exact h.encs
    · exact h.early
    · exact h.known

theorem stage_still {fb : Fb} {s s' : St} (e : stageFrame env fb s = .ok s') : Still s s' := by
  unfold stageFrame at e
  rcases ite_cases e with ⟨-, e⟩ | ⟨-, e⟩
  · cases e; exact .refl _
  rcases ite_cases e with ⟨-, e⟩ | ⟨-, e⟩
  · cases e; exact .refl _
  cases he : ensureEncoder env fb s with
  | mk t b =>
  obtain ⟨n, en, i, k, m, hf⟩ := ensureEncoder_frame env fb s
  rw [he] at hf e
  dsimp only at hf
  subst hf
  cases b with
  | false =>
    dsimp only at e
    split at e
    · cases e
    · cases e
      exact ⟨rfl, rfl, rfl, rfl, rfl, id, [], by simp, by simp⟩
  | true =>
    dsimp only at e
    split at e
    · cases e
    · split at e
      · cases e
        split <;> exact ⟨rfl, rfl, rfl, rfl, rfl, id, [_], rfl, by simp [dull]⟩
      · cases e
        exact ⟨rfl, rfl, rfl, rfl, rfl, id, [_], rfl, by simp [dull]⟩

theorem ext_still (s : St) : Still s (sendExtSupport (s.upd fun k => { k with extNotified := true })).1 := by
  refine .trans (t := s.upd fun k => { k with extNotified := true }) (.upd s) ?_
  generalize (s.upd fun k => { k with extNotified := true }) = t
  unfold sendExtSupport
  dsimp only
  generalize (if hasEnc t.cl encQemuKey = true then 1 else 0) + (if hasEnc t.cl encNtp = true then 1 else 0) = n
  by_cases hn : n = 0
  · rw [if_pos hn]; exact .refl _
  · rw [if_neg hn]; exact .send _ _ _

theorem hs_sized {s s' : St} {r : St → Outcome St} {a : Bytes} {n : Nat} (h1 : s.cl.st ≠ .ready)
    (e : tryRead env table r s a = .ok (s', n)) (h : Sized s.cl s.log) : Sized s'.cl s'.log := by
  by_cases hi : s.cl.st = .init
  · unfold tryRead at e
    rw [hi] at e
    exact init_sized hi h e
  · have hr : s'.cl.st ≠ .ready := fun hr => hi (hs_new h1 e hr).1
    have hf := hs_frame h1 e
    obtain ⟨_, _, _, _, _, _, _, _, _, _, _, h3⟩ := hf.cl
    obtain ⟨es, h4, h5⟩ := hf.log
    have hd : ∀ e ∈ es, dull e = true := by
      intro e he
      cases h5 e he with
      | send ch k m hk =>
        cases k <;> first | rfl | (exfalso; revert hk hi; cases s.cl.st <;> simp [hsKind])
      | _ => rfl
    have hv := view_dull (l := s.log) hd
    rw [h4]
    refine h.grow (fun ch b hx => by cases hd _ hx) (fun ch b hx => by cases hd _ hx) ?_
      (fun _ => by rw [hv.again]; exact h.early h1) fun h2 => absurd h2 hr
    rw [hv.encs, h3]; exact h.encs

theorem micro_sized {lp s s'} (hm : Micro lp table s s') (h : Sized s.cl s.log) : Sized s'.cl s'.log := by
  cases hm with
  | fenceOut => exact h.still (.send _ _ _)
  | pfFire => exact h.still ((Still.upd _).trans (.send _ _ _))
  | ext hr hx => exact h.still (ext_still s)
  | cursor env hr => exact cursor_sized h
  | led hr => exact h.still (sendLed_still s)
  | frame env fb hr e => exact h.still (stage_still e)
  | sendFrame f hr hd hs hf => exact frame_sized hr h hd hs
  | hs env r a h1 h2 => exact hs_sized h1 h2 h
  | simple env a h1 h2 =>
    rcases simple_still h2 with e | e
    · exact encs_sized h1 h e
    · exact h.still e
  | fbReq inc r hr => exact fbReq_sized inc r hr h
  | contOn => exact h.still ((Still.upd _).trans (.emit _))
  | contOff => exact h.still ((Still.upd _).trans (.send _ _ _))
  | fenceReq flags payload h1 hp h2 => exact h.still (fenceReq_still h2)
  | consume => exact h.still ((Still.upd _).trans (.emit _))
  | bigCut env c d hr hc h1 h2 => exact h.still (bigCutText_still h2)
  | remoteClosed => exact h.still ((streamClose_still s).trans (deferClose_still _))
  | flushed => exact h.still (streamClose_still s)
  | free hl h1 => exact h.still (freeClient_still s)
  | idle hl h1 h2 => exact h.still ((Still.upd s).trans (freeClient_still _))
  | encoded f hr he => exact h.still ((Still.upd _).trans (.emit _))
  | setLed v => exact h.still ((Still.upd _).trans (.emit _))
  | damage r => exact h.still ((Still.upd _).trans (.emit _))
  | net => exact h.still (.world rfl rfl)
  | display => exact h.still (.world rfl rfl)
  | setCursor => exact h.still (.world rfl rfl)
  | _ => exact h.still (.upd _)

theorem sized_stays : Stays table Sized :=
  ⟨fun _ _ hm _ h => micro_sized hm h, fun s text _ h => by
    rw [← cutTextTo_cl text s]
    exact h.still (cutTextTo_still text s)⟩

theorem sized_all {s0 s : Sys} {ops : List SysOp} (h0 : s0.peers = []) (e : sysRun table ops s0 = .ok s)
    {p : Peer} (hp : p ∈ s.peers) : Sized p.cl p.log := by
  refine sized_stays.all (fun srv => ?_) h0 e hp
  have hn : ∀ x, x ∈ (start srv).log → x = .send .plain .version versionMsg := fun x hx => by simpa [start] using hx
  refine ⟨rfl, fun _ => rfl, fun hr => (by cases hr), fun a ch b d hl => ?_, fun a ch b d hl => ?_⟩
  · have := hn (.send ch .resizeRect b) (by rw [hl]; simp)
    cases this
  · have := hn (.send ch .frame b) (by rw [hl]; simp)
    cases this

/-- **C126**: every frame that is sent is what the client's encoder made last, and of the size that the client was told
last. If the client has asked to be told again, it has been told since. Sizes are those of the protocol, of sixteen bits;
an empty frame, without width and without height, is an exception. -/
theorem c126_frames {s0 s : Sys} {ops : List SysOp} (h0 : s0.peers = []) (e : sysRun table ops s0 = .ok s)
    {p : Peer} (hp : p ∈ s.peers) {a d : List Eff} {ch : Chan} {b : Bytes}
    (hl : p.log = a ++ .send ch .frame b :: d) : Fitting (view a) b :=
  (sized_all h0 e hp).frames a ch b d hl

/-- **C126**: a client is told a size only in an encoding that it named last, as the size of the frame that follows,
and only if that is another size than the one it was told last, or if it has asked. -/
theorem c126_told {s0 s : Sys} {ops : List SysOp} (h0 : s0.peers = []) (e : sysRun table ops s0 = .ok s)
    {p : Peer} (hp : p ∈ s.peers) {a d : List Eff} {ch : Chan} {b : Bytes}
    (hl : p.log = a ++ .send ch .resizeRect b :: d) : Told (view a) b :=
  (sized_all h0 e hp).rects a ch b d hl

/-- **C126**: a client that has named one of the two encodings stays, whatever the size of a frame is. (The stream takes
the frame into its queue; no fence waits for it.) What is done with other clients is `c60_resize_violated`. -/
theorem c126_kept {s : St} {f : Frame} {net : List Read} (hf : s.cl.freed = false) (hc : s.cl.closed = false)
    (he : s.cl.encoding = true) (hq : env.sentAtOnce = false) (hp : s.cl.pfN = 0) (hb : s.cl.blocked = false)
    (hn : -223 ∈ s.cl.encodings ∨ -308 ∈ s.cl.encodings) (hk : s.cl.formatsChanged = false ∨ -312 ∈ s.cl.encodings) :
    ∃ s', step table (.encoded f) env net s = .ok s' ∧ s'.cl.closed = false := by
  have hS : ∀ c : Client, c.encodings = s.cl.encodings → supportsResizing c = true := fun c h => by
    unfold supportsResizing hasEnc encDesktopSize encExtDesktopSize
    rw [h, List.contains_eq_mem, List.contains_eq_mem]
    simpa using hn
  have hF : ∀ c : Client, c.encodings = s.cl.encodings → (c.formatsChanged = s.cl.formatsChanged) →
      (c.formatsChanged && !hasEnc c encFence) = false := fun c h1 h2 => by
    unfold hasEnc encFence
    rw [h1, h2, List.contains_eq_mem]
    rcases hk with hk | hk <;> simp [hk]
  unfold step event
  rw [if_neg (by simpa using hf)]
  dsimp only
  rw [if_pos he]
  generalize ht : emit (.encodeDone f) (St.upd { s with net := net } fun k => { k with encoding := false }) = t
  have t1 : t.cl = { s.cl with encoding := false } := by rw [← ht]; rfl
  unfold finishFb
  rw [if_neg (by rw [t1]; simpa using hc), hF t.cl (by rw [t1]) (by rw [t1]), if_neg Bool.false_ne_true,
    hS t.cl (by rw [t1]), if_neg (by simp)]
  dsimp only
  rw [if_neg (by simp [hq])]
  obtain ⟨-, -, ⟨kw, kh, dm, h3, -⟩, -⟩ := sendFrame_frame f t
  generalize sendFrame f t = u at h3
  have u1 : u.cl = { s.cl with encoding := false, knownW := kw, knownH := kh, damage := dm } := by rw [h3, t1]
  clear h3 ht t1
  rw [Outcome.bind_ok]
  generalize hv : (u.upd fun k => { k with writing := true }) = v
  have v1 : v.cl.closed = false ∧ v.cl.pfN = 0 ∧ v.cl.blocked = false := by rw [← hv]; simp [St.upd, u1, hc, hp, hb]
  have key : ∃ w, sendPing env f.payload.length v = .ok w ∧ w.cl.closed = false ∧ w.cl.pfN = 0 ∧
      w.cl.blocked = false := by
    unfold sendPing
    split
    · exact ⟨v, rfl, v1⟩
    · dsimp only
      unfold sendFence
      rw [if_neg (by simp [be32])]
      exact ⟨_, rfl, by rw [send_cl]; exact v1⟩
  obtain ⟨w, w1, w2, w3, w4⟩ := key
  rw [w1, Outcome.bind_ok]
  refine ⟨w, ?_, w2⟩
  unfold processPendingFence
  rw [if_pos w3, w4]; rfl

/-- the sizes and frames of a record -/
def shown (l : List Eff) : List Bytes :=
  l.filterMap fun e => match e with
    | .send _ .serverInit b => some (b.take 4)
    | .send _ .resizeRect b => some b
    | .send _ .frame b => some b
    | _ => none

/-- one more frame, of some width, for a client that asks for it in one way or the other -/
def more (inc : UInt8) (w : Nat) : List (Op × Env × List Read) :=
  [(.damage [⟨0, 0, 4, 3⟩], cursorEnv, []), reads (Msg.fbRequest inc ⟨0, 0, 4, 3⟩).wire,
    (.encoded { demoFrame with w := w }, cursorEnv, []), (.written, cursorEnv, [])]

/-- A client with -308 is told the size with the first frame, as it has asked for the whole picture, then when it changes,
and when it asks again. -/
example : runCheck (enter [-223, -308] ++ more 0 4 ++ more 1 4 ++ more 1 5 ++ more 1 5 ++ more 0 5)
    (fun s => shown s.log == [[0, 4, 0, 3], sizeRect (-308) 4 3, [1], [1], sizeRect (-308) 5 3, [1], [1],
      sizeRect (-308) 5 3, [1]]) = true := by decide +kernel

/-- A client with -223 only is told when it changes. -/
example : runCheck (enter [-223] ++ more 0 4 ++ more 1 4 ++ more 1 5 ++ more 0 5)
    (fun s => shown s.log == [[0, 4, 0, 3], [1], [1], sizeRect (-223) 5 3, [1], [1]]) = true := by decide +kernel

end Verif.Sizes
