import Verif.Lemmas.Formats
import Verif.Props.Wire

/-!
# C106: frames are in the format and the encoding that their client wants
-/

namespace Verif.Formats

open Verif.Server Verif.System

variable {table : List Nat} {env : Env}

theorem mem_hasEnc {c : Client} (h : hasEnc c encFence = true) : -312 ∈ c.encodings := by
  simpa [hasEnc, encFence] using h

theorem sendFrame_tuned {f : Frame} {s : St} (hr : s.cl.st = .ready) (h : Tuned s.cl s.log)
    (hd : s.log.getLast? = some (.encodeDone f)) (hf : s.cl.formatsChanged = false ∨ hasEnc s.cl encFence = true) :
    Tuned (sendFrame f s).cl (sendFrame f s).log := by
  have hq : -312 ∈ (asked s.log).encs ∨ s.cl.closed = true ∨
      (air s.log).done ≠ [] ∧ ∀ j ∈ (air s.log).done, Suits (asked s.log) j.1 j.2 := by
    rcases hf with hf | hf
    · right
      rcases h.fmt hr with hc | hp
      · exact .inl hc
      obtain ⟨h1, h2⟩ := h.landed ⟨f, hd⟩
      refine .inr ⟨h1, fun j hj => ?_⟩
      obtain ⟨h3, h4⟩ := h2 hf j hj
      exact ⟨by rw [h3]; exact hp, by rw [h.encs]; exact h4⟩
    · exact .inl (by rw [h.encs]; exact mem_hasEnc hf)
  have h1 : ∀ w h t, Steady t (sendResizeRect w h t) := fun w h t =>
    (Steady.upd t).trans (.send _ .resizeRect _)
  have h2 : ∀ p t, Steady t (sendPts p t) := by
    intro p t
    unfold sendPts
    split
    · exact .refl _
    · split
      · exact .send _ .ptsRect _
      · exact .refl _
  have h3 : ∃ u, Steady s u ∧ u.cl.closed = s.cl.closed ∧ sendFrame f s = Server.send .frame f.payload u := by
    refine ⟨_, ?_, ?_, rfl⟩
    · have h3 : Steady s (Server.send .updateHead (updateHead (nRectsSent f s.cl % 65536)) s) := .send s .updateHead _
      generalize Server.send .updateHead (updateHead (nRectsSent f s.cl % 65536)) s = t at h3
      refine .trans ?_ (h2 _ _)
      split
      · exact h3.trans (h1 _ _ _)
      · exact h3
    · have h4 : ∀ p t, (sendPts p t).cl = t.cl := fun p t => by
        unfold sendPts
        split
        · rfl
        · split <;> simp
      rw [h4]
      split
      · unfold sendResizeRect
        simp
      · simp
  obtain ⟨u, hu, hcl, he⟩ := h3
  have ht := h.steady hu
  obtain ⟨es, hl, hdull⟩ := hu.log
  rw [he, send_cl, send_log]
  split
  · rw [List.append_nil]; exact ht
  · rename_i hc
    have ha : asked (u.log ++ [.send u.cl.chan .frame f.payload]) = asked u.log := by rw [asked_append]; rfl
    have hj := air_other (l := u.log) (es := [.send u.cl.chan .frame f.payload]) (by simp)
    refine ⟨by rw [ha]; exact ht.encs, by rw [ha]; exact ht.early, fun hn => absurd (hu.st.trans hr) hn, by rw [ha]; exact ht.fmt,
      by rw [ha]; exact ht.same, by rw [hj]; exact ht.job, fun ⟨g, h5⟩ => by simp at h5, ht.ok.append ?_ ?_⟩
    · intro pre e j g q post hp
      have : Eff.encode e j g q ∈ [Eff.send u.cl.chan .frame f.payload] := by rw [hp]; simp
      simp at this
    · intro pre ch b post hp
      cases pre with
      | cons y pre =>
        rw [List.cons_append, List.cons.injEq] at hp
        have := congrArg List.length hp.2
        simp at this
      | nil =>
        rw [List.append_nil, hl, asked_dull hdull, air_dull hdull]
        rcases hq with h | h | h
        · exact .inl h
        · exact absurd (hcl.trans h) hc
        · exact .inr h

theorem hs_dull {b : CState} {e : Eff} (hb : b ≠ .init) (h : HsEff b e) : dull e = true := by
  cases h with
  | send ch k m hk => cases k <;> first | rfl | (exfalso; revert hk hb; cases b <;> simp [hsKind])
  | _ => rfl

theorem hs_tuned {r s a s' n} (hst : s.cl.st ≠ .ready) (e : tryRead env table r s a = .ok (s', n))
    (h : Tuned s.cl s.log) : Tuned s'.cl s'.log := by
  by_cases hi : s.cl.st = .init
  · unfold tryRead at e
    rw [hi] at e
    dsimp only at e
    unfold onInit at e
    split at e
    · cases e; exact h
    · rename_i shared _
      dsimp only at e
      have h0 : Tuned (if shared = 0 then emit .disconnectOthers s else s).cl
          (if shared = 0 then emit .disconnectOthers s else s).log := by
        split
        · exact h.steady (.emit _)
        · exact h
      have h9 : (if shared = 0 then emit .disconnectOthers s else s).cl.st ≠ .ready := by
        split <;> exact hst
      generalize (if shared = 0 then emit .disconnectOthers s else s) = t at e h0 h9
      split at e
      · cases e
      · rename_i u hu
        cases e
        unfold sendServerInit at hu
        split at hu
        · cases hu
        · rename_i fb _
          split at hu
          · cases hu
          · rename_i f0 _
            dsimp only at hu
            generalize (if f0.bpp = 24 then { f0 with bpp := 32 } else f0) = f1 at hu
            cases hu
            have hn := h0.early h9
            refine Tuned.steady (s := (Server.send .serverInit (be16 fb.w ++ be16 fb.h ++ pixfmtBytes f1 ++
              be32 t.srv.name.length ++ t.srv.name) (t.upd fun k => { k with pix := f1 })).upd fun k =>
                { k with st := .ready }) ?_ 
              ⟨rfl, rfl, rfl, rfl, rfl, rfl, .inl rfl, [.newClient], rfl, by simp [dull]⟩
            have key : ∀ (c : Client) (l : List Eff), c.st = .ready → c.encodings = t.cl.encodings →
                c.encoding = t.cl.encoding → c.pix = f1 → (∀ f, .encodeDone f ∉ l) → (asked l).encs = (asked t.log).encs →
                (c.closed = true ∨ (asked l).fmt = some (describe f1)) →
                (∀ g, (asked l).fmt = some g → g = describe f1) → FormatsOk l → Tuned c l := by
              intro c l c1 c2 c3 c4 g1 g2 g3 g4 g5
              refine ⟨by rw [g2, c2]; exact h0.encs, fun hn => absurd c1 hn, fun hn => absurd c1 hn, fun _ => c4 ▸ g3,
                c4 ▸ g4, fun g6 => ?_, fun ⟨f, g6⟩ => absurd (List.mem_of_getLast? g6) (g1 f), g5⟩
              rw [c3, (h0.idle h9).1] at g6; cases g6
            show Tuned _ (Server.send .serverInit (be16 fb.w ++ be16 fb.h ++ pixfmtBytes f1 ++
                be32 t.srv.name.length ++ t.srv.name) (t.upd fun k => { k with pix := f1 })).log
            have hcl : ((Server.send .serverInit (be16 fb.w ++ be16 fb.h ++ pixfmtBytes f1 ++
              be32 t.srv.name.length ++ t.srv.name) (t.upd fun k => { k with pix := f1 })).upd fun k =>
                { k with st := .ready }).cl = { t.cl with pix := f1, st := .ready } := by
              simp [St.upd]
            have hlog : (Server.send .serverInit (be16 fb.w ++ be16 fb.h ++ pixfmtBytes f1 ++
                be32 t.srv.name.length ++ t.srv.name) (t.upd fun k => { k with pix := f1 })).log =
                t.log ++ if t.cl.closed = true then [] else [.send t.cl.chan .serverInit (be16 fb.w ++ be16 fb.h ++
                  pixfmtBytes f1 ++ be32 t.srv.name.length ++ t.srv.name)] := by rw [send_log]; rfl
            rw [hcl, hlog]
            split
            · rename_i hc
              rw [List.append_nil]
              exact key _ _ rfl rfl rfl rfl (h0.idle h9).2 rfl (.inl hc)
                (fun g hg => absurd (hn.symm.trans hg) (by simp)) h0.ok
            · have ha : asked (t.log ++ [.send t.cl.chan .serverInit (be16 fb.w ++ be16 fb.h ++ pixfmtBytes f1 ++
                  be32 t.srv.name.length ++ t.srv.name)]) = { asked t.log with fmt := some (describe f1) } := by
                rw [asked_append, describe_eq]
                rfl
              refine key _ _ rfl rfl rfl rfl ?_ ?_ (.inr ?_) ?_ (h0.ok.rest ?_)
              · intro f hf
                rcases List.mem_append.1 hf with hf | hf
                · exact (h0.idle h9).2 f hf
                · simp at hf
              · rw [ha]
              · exact congrArg Asked.fmt ha
              · intro g hg
                exact Option.some.inj (hg.symm.trans (congrArg Asked.fmt ha))
              · intro x hx
                rw [List.mem_singleton.1 hx]
                exact ⟨nofun, fun ch b hb => by injection hb with _ hb; cases hb⟩
  · have hf := hs_frame hst e
    obtain ⟨es, h1, h2⟩ := hf.log
    obtain ⟨_, _, _, _, _, _, _, _, _, _, _, h3⟩ := hf.cl
    have hd : ∀ e ∈ es, dull e = true := fun e he => hs_dull hi (h2 e he)
    have ha := asked_dull (l := s.log) hd
    have hne : s'.cl.st ≠ .ready := fun h => hi (hs_new hst e h).1
    have hnone := h.early hst
    rw [h1]
    have hno : ∀ f, .encodeDone f ∉ s.log ++ es := by
      intro f hf
      rcases List.mem_append.1 hf with hf | hf
      · exact (h.idle hst).2 f hf
      · exact absurd (hd _ hf) (by simp [dull])
    refine ⟨by rw [ha, h3]; exact h.encs, fun _ => by rw [ha]; exact hnone,
      fun _ => ⟨by rw [h3]; exact (h.idle hst).1, hno⟩, fun hr => absurd hr hne,
      fun g hg => absurd (((congrArg Asked.fmt ha).trans hnone).symm.trans hg) (by simp), fun g6 => ?_,
      fun ⟨f, g6⟩ => absurd (List.mem_of_getLast? g6) (hno f), h.ok.dull hd⟩
    rw [h3] at g6
    exact absurd (h.idle hst).1 (by simp [show s.cl.encoding = true from g6])



theorem micro_tuned {lp s s'} (hm : Micro lp table s s') (h : Single s.log → Tuned s.cl s.log) (hone : Single s'.log) :
    Tuned s'.cl s'.log := by
  have h := h (by obtain ⟨es, he⟩ := log_grows hm; rw [he] at hone; exact hone.left)
  cases hm with
  | fenceOut => exact h.steady (.send _ _ _)
  | pfFire => exact h.steady ((Steady.upd _).trans (.send _ _ _))
  | ext => exact h.steady ((Steady.upd _).trans (sendExtSupport_steady _))
  | cursor env => exact h.steady (sendCursor_steady env s)
  | led hr => exact h.steady (sendLed_steady s)
  | frame env fb hr e => exact stageFrame_tuned hr h e hone
  | sendFrame f hr hd _ hf => exact sendFrame_tuned hr h hd hf
  | hs env r a h1 h2 => exact hs_tuned h1 h2 h
  | simple env a h1 h2 => exact simple_tuned h1 h h2
  | fbReq inc r => exact h.steady (fbReqPre_steady inc r s)
  | contOn => exact h.steady ((Steady.upd _).trans (.emit _))
  | contOff => exact h.steady ((Steady.upd _).trans (.send _ _ _))
  | fenceReq flags payload h1 hp h2 => exact h.steady (fenceReq_steady h2)
  | consume => exact h.steady ((Steady.upd _).trans (.emit _))
  | bigCut env c d hr hc h1 h2 => exact h.steady (bigCutText_steady h2)
  | remoteClosed => exact h.steady ((streamClose_steady s).trans (deferClose_steady _))
  | flushed => exact h.steady (streamClose_steady s)
  | free hl h1 => exact h.steady (freeClient_steady s)
  | idle hl h1 h2 => exact h.steady ((Steady.upd s).trans (freeClient_steady _))
  | encoded f hr he =>
    have ha : asked (s.log ++ [.encodeDone f]) = asked s.log := by rw [asked_append]; rfl
    have hj : air (s.log ++ [.encodeDone f]) = ⟨[], (air s.log).fly⟩ := by rw [air_append]; rfl
    show Tuned { s.cl with encoding := false } (s.log ++ [.encodeDone f])
    refine ⟨by rw [ha]; exact h.encs, fun hn => absurd hr hn, fun hn => absurd hr hn, by rw [ha]; exact h.fmt,
      by rw [ha]; exact h.same, nofun, fun _ => by rw [hj]; exact h.job he, h.ok.rest ?_⟩
    · intro x hx
      rw [List.mem_singleton.1 hx]
      exact ⟨nofun, nofun⟩
  | setLed v => exact h.steady ((Steady.upd _).trans (.emit _))
  | damage r => exact h.steady ((Steady.upd _).trans (.emit _))
  | net => exact h.steady (.world rfl rfl)
  | display => exact h.steady (.world rfl rfl)
  | setCursor => exact h.steady (.world rfl rfl)
  | _ => exact h.steady (.upd _)

theorem start_tuned (srv : Srv) : Tuned (start srv).cl (start srv).log := by
  refine ⟨rfl, fun _ => rfl, fun _ => ⟨rfl, by simp [start]⟩, nofun, nofun, nofun, fun ⟨f, h⟩ => by simp [start] at h, ?_⟩
  · refine FormatsOk.dull (l := []) ⟨fun pre e j f q post h => ?_, fun pre ch b post h => ?_⟩ (by simp [dull])
    · simp at h
    · simp at h

theorem cutTextTo_steady (text : Bytes) (s : St) : Steady s (cutTextTo text s) := by
  unfold cutTextTo
  split
  · exact .refl s
  · refine .trans (t := if s.cl.closed then s else Server.emit (.offered text) s) ?_ ?_
    · split
      · exact .refl s
      · exact .emit s
    · generalize (if s.cl.closed then s else Server.emit (.offered text) s) = t
      unfold cutTextSend
      split
      · split
        · exact .refl t
        · split
          · exact .send _ _ _
          · split
            · exact .send _ _ _
            · exact .refl t
      · exact .send _ _ _

theorem tuned_stays : Stays table fun c l => Single l → Tuned c l :=
  ⟨fun _ _ hm _ h h1 => micro_tuned hm h h1, fun s text _ h h1 => by
    have hs := cutTextTo_steady text s
    obtain ⟨es, h2, -⟩ := hs.log
    rw [← cutTextTo_cl text s]
    rw [h2] at h1
    exact (h h1.left).steady hs⟩

/-- **C106** (part): over all runs of a server, every frame that begins is in the pixel format that its client was
told or asked for last, and in an encoding from its current list, or raw.  A frame that is sent is still so at that
time, however often the client changed its mind while it was encoded, unless the client has fences to tell which
frames came before the change.

What is missing: frames that are handed to the encoder while it has another one (`Single`).  They make the server
forget a change that the client made in the meantime: see `c106_stale_violated`. -/
theorem c106_formats_partial {s0 s : Sys} {ops : List SysOp} (h0 : s0.peers = [])
    (e : sysRun table ops s0 = .ok s) : ∀ p ∈ s.peers, Single p.log → FormatsOk p.log :=
  fun _ hp h1 => (tuned_stays.all (fun srv _ => start_tuned srv) h0 e hp h1).ok

theorem fly_split (l : List Eff) : (air l).fly ≠ [] →
    ∃ a e j f q b, l = a ++ .encode e j f q :: b ∧ ∀ g, .encodeDone g ∉ b := by
  suffices h : ∀ r : List Eff, (air r.reverse).fly ≠ [] →
      ∃ a e j f q b, r.reverse = a ++ .encode e j f q :: b ∧ ∀ g, .encodeDone g ∉ b by
    simpa using h l.reverse
  intro r
  induction r with
  | nil => intro h; exact absurd rfl h
  | cons x r ih =>
    rw [List.reverse_cons, air_append]
    generalize r.reverse = m at ih ⊢
    intro h
    have key : (air m).fly ≠ [] → (∀ g, x ≠ .encodeDone g) →
        ∃ a e j f q b, m ++ [x] = a ++ .encode e j f q :: b ∧ ∀ g, .encodeDone g ∉ b := by
      intro h1 h2
      obtain ⟨a, e, j, f, q, b, h3, h4⟩ := ih h1
      refine ⟨a, e, j, f, q, b ++ [x], by rw [h3]; simp, fun g hg => ?_⟩
      rcases List.mem_append.1 hg with hg | hg
      · exact h4 g hg
      · exact h2 g (List.mem_singleton.1 hg).symm
    cases x with
    | encode e j f q => exact ⟨m, e, j, f, q, [], rfl, by simp⟩
    | encodeDone g => exact absurd rfl h
    | _ => exact key h nofun

/-- **C106**, where `Single` holds: in every run in which nested reads find nothing (by C23) -/
theorem c106_single {srv : Srv} {ops : List (Op × Env × List Read)} {s : St} (hq : ∀ o ∈ ops, o.2.2 = [])
    (e : run table ops (start srv) = .ok s) : Single s.log := by
  have key : ∀ pre x post, s.log = pre ++ x :: post → ((∃ e d f q, x = .encode e d f q) ∨ x = .encodeFail) →
      (air pre).fly = [] := by
    intro pre x post hl hx
    refine Decidable.byContradiction fun hne => ?_
    obtain ⟨a, e1, j1, f1, q1, b, h1, h2⟩ := fly_split pre hne
    obtain ⟨g, hg⟩ := c23_one_frame_partial hq e (a := a) (b := b) (c := post) (by rw [hl, h1]) hx
    exact h2 g hg
  exact ⟨fun pre e j f q post hl => key _ _ _ hl (.inl ⟨e, j, f, q, rfl⟩), fun pre post hl => key _ _ _ hl (.inr rfl)⟩

/-- **C106**, what clients ask for: SetPixelFormat of a ready client sets the format, or the one of the colour map
that it is sent if it does not want true colours.  SetEncodings sets the list: nothing is in it that the client
did not name, and with up to 32 encodings none of raw, Tight, ZRLE, H.264 and fences is left out. -/
theorem c106_asked {s : St} {p : UInt8} (hr : s.cl.st = .ready) :
    (∀ {f : PixFmt} {r rest}, f.Fits → ∃ s', tryRead env table r s ((Msg.setPixelFormat p f).wire ++ rest) = .ok (s', 20) ∧
      asked s'.log = { asked s.log with
        fmt := some (describe (if f.trueColour = 0 then ⟨8, 8, 0, 1, 7, 7, 3, 5, 2, 0⟩ else f)) }) ∧
    (∀ {es : List Int} {r rest s' n}, (Msg.setEncodings p es).Fits →
      tryRead env table r s ((Msg.setEncodings p es).wire ++ rest) = .ok (s', n) →
      (asked s'.log).fmt = (asked s.log).fmt ∧ (∀ e ∈ (asked s'.log).encs, e ∈ es) ∧
      (es.length ≤ 32 → ∀ e ∈ es, e ∈ [0, 7, 16, 50, -312] → e ∈ (asked s'.log).encs)) := by
  refine ⟨fun {f r rest} hf => ?_, fun {es r rest s' n} hf e => ?_⟩
  · by_cases ht : f.trueColour = 0
    · refine ⟨_, msg_pixmap hr ht rest, ?_⟩
      rw [if_pos ht]
      have h1 := (Steady.send (emit (.pixFmt cookedFmt) (s.upd fun k => { k with pix := cookedFmt }))
        .colourMap rgb332Map).log
      obtain ⟨es, h2, h3⟩ := h1
      rw [St.upd_log, h2, asked_dull h3]
      show asked (s.log ++ [.pixFmt cookedFmt]) = _
      rw [asked_append]
      rfl
    · refine ⟨_, msg_pixfmt hr hf ht rest, ?_⟩
      rw [if_neg ht]
      show asked (s.log ++ [.pixFmt f]) = _
      rw [asked_append]
      rfl
  · rw [msg_setEncodings hr hf.1] at e
    have hsc := scan_encodings (x := env.experimental) es hf.2 [] 10 (by simp)
    generalize scanEncodings env.experimental (es.flatMap wire32) [] 10 = sc at e hsc
    obtain ⟨encs, q⟩ := sc
    dsimp only at e hsc
    obtain ⟨t, ht, e⟩ := Outcome.bind_eq_ok.1 e
    cases e
    have h2 : Steady (emit (.encodings encs)
        (s.upd fun k => { k with encodings := encs, quality := q, formatsChanged := true }))
        (notifyCont (emit (.encodings encs)
          (s.upd fun k => { k with encodings := encs, quality := q, formatsChanged := true }))) := by
      unfold notifyCont
      split
      · exact (Steady.upd _).trans (.send _ .endOfCont _)
      · exact .refl _
    have h3 : Steady (emit (.encodings encs)
        (s.upd fun k => { k with encodings := encs, quality := q, formatsChanged := true })) s' := by
      refine h2.trans (.trans ?_ (sendPing_steady ht))
      split
      · exact .send _ .clip _
      · exact .refl _
    obtain ⟨ds, h4, h5⟩ := h3.log
    have ha : asked s'.log = { asked s.log with encs := encs } := by
      rw [h4, asked_dull h5]
      show asked (s.log ++ [.encodings encs]) = _
      rw [asked_append]
      rfl
    rw [ha]
    refine ⟨rfl, fun x hx => ?_, fun hl x hx hk => ?_⟩
    · rw [hsc, List.nil_append] at hx
      exact (List.mem_filter.1 (List.mem_of_mem_take hx)).1
    · show x ∈ encs
      rw [hsc, List.nil_append, List.take_of_length_le]
      · refine List.mem_filter.2 ⟨hx, ?_⟩
        revert hk
        generalize env.experimental = b
        revert b x
        simp only [List.mem_cons, List.not_mem_nil, or_false]
        rintro x - b (rfl | rfl | rfl | rfl | rfl) <;> cases b <;> rfl
      · exact Nat.le_trans (List.length_filter_le _ _) hl

/-- `Single`, checked: `a` is what came before -/
def singleB : Air → List Eff → Bool
  | _, [] => true
  | a, x :: l => (match x with | .encode .. | .encodeFail => a.fly.isEmpty | _ => true) && singleB (a.note x) l

theorem single_of {l : List Eff} (h : singleB {} l = true) : Single l := by
  have key : ∀ (l : List Eff) (a : Air), singleB a l = true → ∀ pre x post, l = pre ++ x :: post →
      singleB (pre.foldl Air.note a) (x :: post) = true := by
    intro l
    induction l with
    | nil => intro a _ pre x post h; simp at h
    | cons y l ih =>
      intro a h pre x post hl
      cases pre with
      | nil => rw [List.nil_append] at hl; exact hl ▸ h
      | cons z pre =>
        rw [List.cons_append, List.cons.injEq] at hl
        obtain ⟨rfl, hl⟩ := hl
        exact ih _ (by unfold singleB at h; exact (Bool.and_eq_true _ _ ▸ h).2) pre x post hl
  have key := fun pre x post hl => (Bool.and_eq_true _ _ ▸ (key l {} h pre x post hl)).1
  exact ⟨fun pre e j f q post hl => List.isEmpty_iff.1 (key pre _ post hl),
    fun pre post hl => List.isEmpty_iff.1 (key pre _ post hl)⟩

/-! ## A change of mind -/

/-- 16 bits for each pixel -/
def sixteen : PixFmt := ⟨16, 16, 0, 1, 31, 63, 31, 11, 5, 0⟩

/-- the frames that were begun and those that were sent -/
def frames (l : List Eff) : List (Option (Int × PixFmt)) := l.filterMap fun e => match e with
  | .encode e _ f _ => some (some (e, f))
  | .send _ .frame _ => some none
  | _ => none

/-- A client asks for a frame in ZRLE, and while it is encoded for another pixel format and for Tight: the
frame is thrown away, and made and sent again in the new format and encoding.  (Only since there is new damage: the
damage of the frame that is thrown away is forgotten, see C97.) -/
example : runCheck (enter [16] ++ [reads fullReq, reads (Msg.setPixelFormat 0 sixteen).wire,
      reads (Msg.setEncodings 0 [7]).wire, (.damage [⟨0, 0, 4, 3⟩], cursorEnv, []),
      (.encoded demoFrame, cursorEnv, []), (.encoded demoFrame, cursorEnv, [])])
    (fun s => frames s.log == [some (16, ⟨32, 24, 0, 1, 255, 255, 255, 16, 8, 0⟩), some (7, sixteen), none] &&
      singleB {} s.log) = true := by decide +kernel

/-- one that has fences is sent the frame as it is; the next one is as it wants it -/
example : runCheck (enter [16, -312] ++ [reads fullReq, reads (Msg.setPixelFormat 0 sixteen).wire,
      (.encoded demoFrame, cursorEnv, []), (.written, cursorEnv, []), reads fullReq])
    (fun s => frames s.log == [some (16, ⟨32, 24, 0, 1, 255, 255, 255, 16, 8, 0⟩), none, some (16, sixteen)] &&
      singleB {} s.log) = true := by decide +kernel

/-- C106 is false with two frames at the encoder: a client without fences asks for a frame, for another pixel format
and for a frame again, all inside the answer to one of its own fences.  The outer call, which found no frame at the
encoder before, begins a second one and takes note of the change.  The frame that is finished first is sent, though it
may be the one in the format from before. -/
theorem c106_stale_violated : ∃ s pre ch b, run [] (enter [0, -239] ++ [reads fullReq,
      (.encoded demoFrame, cursorEnv, []), reads (Msg.fence 0 2147483649 []).wire,
      reads (fullReq ++ fullReq), (.cursor, cursorEnv, []),
      (.written, cursorEnv, [.data (fullReq ++ (Msg.setPixelFormat 0 sixteen).wire ++ fullReq)]),
      (.encoded demoFrame, cursorEnv, [])]) (start demoSrv) = .ok s ∧
    s.log = pre ++ [.send ch .frame b] ∧ -312 ∉ (asked pre).encs ∧ (asked pre).fmt = some (describe sixteen) ∧
    (air pre).done = [(0, demoFmt), (0, sixteen)] ∧ ¬ Suits (asked pre) 0 demoFmt := by
  obtain ⟨s, h1, h2⟩ := runCheck_iff.1 (show runCheck (enter [0, -239] ++ [reads fullReq,
      (.encoded demoFrame, cursorEnv, []), reads (Msg.fence 0 2147483649 []).wire,
      reads (fullReq ++ fullReq), (.cursor, cursorEnv, []),
      (.written, cursorEnv, [.data (fullReq ++ (Msg.setPixelFormat 0 sixteen).wire ++ fullReq)]),
      (.encoded demoFrame, cursorEnv, [])])
      (fun s => decide (s.log.getLast? = some (.send .plain .frame [1]) ∧ -312 ∉ (asked s.log.dropLast).encs ∧
        (asked s.log.dropLast).fmt = some (describe sixteen) ∧
        (air s.log.dropLast).done = [(0, demoFmt), (0, sixteen)] ∧ ¬ Suits (asked s.log.dropLast) 0 demoFmt)) = true
      from by decide +kernel)
  obtain ⟨h2, h3⟩ := of_decide_eq_true h2
  refine ⟨s, s.log.dropLast, .plain, [1], h1, ?_, h3⟩
  obtain ⟨ys, h4⟩ := List.getLast?_eq_some_iff.1 h2
  rw [h4, List.dropLast_concat]

end Verif.Formats
