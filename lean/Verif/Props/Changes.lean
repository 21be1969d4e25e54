import Verif.Lemmas.Changes
import Verif.Props.Formats

/-!
# C98: a client can read everything it is sent, in whatever formats it asked for
-/

namespace Verif.Changes

open Verif.Server Verif.System Verif.Formats Verif.Wire

variable {sizes : Bytes → Sizes} {table : List Nat} {env : Env}

/-- the client has read all so far -/
structure Heard (sizes : Bytes → Sizes) (l : List Eff) (t : Talk) : Prop where
  fmt : (asked l).fmt = some t.now.fmt
  init : ∃ i, readInit t.init = some (i, []) ∧ (t.parts.head?.map Part.fmt) = some i.fmt
  parts : ∀ p ∈ t.parts, ∃ ms, Reads (sizes p.fmt) p.bytes ms

/-- the record of a client whose session can be read so far -/
structure Told (sizes : Bytes → Sizes) (c : Client) (l : List Eff) : Prop where
  lit : Lit c l
  before : c.st ≠ .ready → talkOf l = none
  ok : Fair sizes l → Timely l → ∀ t, talkOf l = some t → Heard sizes l t

theorem head_now {x y : Part} {past : List Part} (h : x.fmt = y.fmt) :
    (past ++ [x]).head?.map Part.fmt = (past ++ [y]).head?.map Part.fmt := by
  cases past with
  | nil => simp [h]
  | cons z past => rfl

theorem Heard.more {l es : List Eff} {t : Talk} (h : Heard sizes l t) (hf : ∀ e ∈ es, flat e = true)
    (hr : ∃ ms, Reads (sizes t.now.fmt) (sent es) ms) :
    Heard sizes (l ++ es) { t with now := { t.now with bytes := t.now.bytes ++ sent es } } := by
  obtain ⟨ms, hr⟩ := hr
  refine ⟨by rw [asked_flat hf]; exact h.fmt, ?_, fun p hp => ?_⟩
  · obtain ⟨i, h1, h2⟩ := h.init
    exact ⟨i, h1, h2 ▸ head_now rfl⟩
  · rcases List.mem_append.1 hp with hp | hp
    · exact h.parts p (List.mem_append_left _ hp)
    · rw [List.mem_singleton.1 hp]
      obtain ⟨ns, h1⟩ := h.parts t.now (List.mem_append_right _ (List.mem_singleton.2 rfl))
      exact ⟨_, h1.append hr⟩

theorem Fair.local {l es : List Eff} {t : Talk} (h : Fair sizes (l ++ es)) (hf : ∀ e ∈ es, flat e = true)
    (ht : (asked l).fmt = some t.now.fmt) : Local (sizes t.now.fmt) l es := by
  refine ⟨fun ch b hb => ?_, h.leds, fun ch k b hb => h.short ch k b (List.mem_append_right _ hb)⟩
  obtain ⟨a, c, rfl⟩ := List.append_of_mem hb
  refine h.cursors (l ++ a) ch b c _ (by simp) ?_
  rw [asked_flat fun e he => hf e (List.mem_append_left _ he)]
  exact ht

/-- messages of one format -/
theorem step_adds {s s' : St} (ha : ∀ z, Adds z s s') (hf : ∃ es, s'.log = s.log ++ es ∧ ∀ e ∈ es, flat e = true)
    (h : Fair sizes s.log → Timely s.log → ∀ t, talkOf s.log = some t → Heard sizes s.log t) :
    Fair sizes s'.log → Timely s'.log → ∀ t, talkOf s'.log = some t → Heard sizes s'.log t := by
  obtain ⟨es, h1, h2⟩ := hf
  intro g1 g2 t' ht'
  rw [h1] at g1 g2 ht' ⊢
  cases ht : talkOf s.log with
  | none => rw [talk_none ht fun e he => flat_init (h2 e he)] at ht'; cases ht'
  | some t =>
    rw [talk_some ht h2] at ht'
    cases ht'
    have h3 := h g1.mono g2.mono t ht
    obtain ⟨fs, k1, -, k2⟩ := ha (sizes t.now.fmt)
    obtain rfl : es = fs := List.append_cancel_left (h1.symm.trans k1)
    obtain ⟨ms, k3, -⟩ := k2 (g1.local h2 h3.fmt)
    exact h3.more h2 ⟨ms, k3⟩

theorem flat_steady {s s' : St} (h : Steady s s') : ∃ es, s'.log = s.log ++ es ∧ ∀ e ∈ es, flat e = true := by
  obtain ⟨es, h1, h2⟩ := h.log
  exact ⟨es, h1, fun e he => flat_dull (h2 e he)⟩

theorem encs_flat {s s' : St} {a : Bytes} {n : Nat} (e : onSetEncodings env s a = .ok (s', n)) :
    ∃ es, s'.log = s.log ++ es ∧ ∀ e ∈ es, flat e = true := by
  unfold onSetEncodings at e
  split at e
  · dsimp only at e
    split at e
    · cases e; exact ⟨[], by simp, by simp⟩
    · generalize scanEncodings env.experimental _ [] 10 = res at e
      obtain ⟨encs, q⟩ := res
      dsimp only at e
      obtain ⟨t, ht, e⟩ := Outcome.bind_eq_ok.1 e
      cases e
      have h2 : Steady (emit (.encodings encs)
          (s.upd fun k => { k with encodings := encs, quality := q, formatsChanged := true })) s' := by
        refine .trans ?_ (sendPing_steady ht)
        refine .trans (t := notifyCont (emit (.encodings encs)
            (s.upd fun k => { k with encodings := encs, quality := q, formatsChanged := true }))) ?_ ?_
        · unfold notifyCont
          split
          · exact (Steady.upd _).trans (.send _ .endOfCont _)
          · exact .refl _
        · split
          · exact .send _ .clip _
          · exact .refl _
      obtain ⟨es, h3, h4⟩ := flat_steady h2
      refine ⟨.encodings encs :: es, by rw [h3]; simp [emit, St.upd], fun x hx => ?_⟩
      rcases List.mem_cons.1 hx with rfl | hx
      · rfl
      · exact h4 x hx
  · cases e; exact ⟨[], by simp, by simp⟩

/-- the format changes -/
theorem pix_told {s s' : St} {a : Bytes} {n : Nat} (e : onSetPixelFormat s a = .ok (s', n))
    (h : Fair sizes s.log → Timely s.log → ∀ t, talkOf s.log = some t → Heard sizes s.log t) :
    Fair sizes s'.log → Timely s'.log → ∀ t, talkOf s'.log = some t → Heard sizes s'.log t := by
  have key : ∀ (f : PixFmt) (u : St), u.log = s.log ++ [.pixFmt f] →
      Fair sizes u.log → Timely u.log → ∀ t, talkOf u.log = some t → Heard sizes u.log t := by
    intro f u hu g1 g2 t' ht'
    rw [hu] at g1 g2 ht' ⊢
    cases ht : talkOf s.log with
    | none => rw [talk_none ht (by simp [isInit])] at ht'; cases ht'
    | some t =>
      rw [talkOf_append, ht] at ht'
      cases ht'
      have h3 := h g1.mono g2.mono t ht
      refine ⟨by rw [asked_append]; rfl, ?_, fun p hp => ?_⟩
      · obtain ⟨i, h4, h5⟩ := h3.init
        refine ⟨i, h4, h5 ▸ ?_⟩
        show ((t.past ++ [t.now]) ++ [_]).head?.map _ = _
        unfold Talk.parts
        cases t.past <;> rfl
      · rcases List.mem_append.1 hp with hp | hp
        · exact h3.parts p hp
        · rw [List.mem_singleton.1 hp]
          exact ⟨[], .nil⟩
  unfold onSetPixelFormat at e
  split at e
  · cases e
    split
    · exact key _ _ rfl
    · refine step_adds (s := emit (.pixFmt cookedFmt) (s.upd fun k => { k with pix := cookedFmt })) (fun z => ?_) ?_
        (key cookedFmt _ rfl)
      · obtain ⟨d, hd⟩ := read_colourMap (z := z)
        exact Adds.trans (.send _ .colourMap _ (by decide) fun _ => ⟨_, hd, fun _ _ _ => rfl⟩) (.same rfl)
      · exact flat_steady (s' := Server.send .colourMap rgb332Map
          (emit (.pixFmt cookedFmt) (s.upd fun k => { k with pix := cookedFmt }))) (.send _ _ _)
  · cases e; exact h

/-- everything of a frame is in its update, and the pixels come last -/
theorem sendFrame_last (f : Frame) (s : St) : ∃ u, Steady s u ∧ u.cl.closed = s.cl.closed ∧
    sendFrame f s = Server.send .frame f.payload u := by
  have h1 : ∀ w h t, Steady t (sendResizeRect w h t) := fun w h t =>
    (Steady.upd t).trans (.send _ .resizeRect _)
  have h2 : ∀ p t, Steady t (sendPts p t) := by
    intro p t
    unfold sendPts
    split
    · exact .refl _
    · split
      · exact .send _ .ptsRect _
      · exact .refl _
  refine ⟨_, ?_, ?_, rfl⟩
  · have h3 : Steady s (Server.send .updateHead (updateHead (nRectsSent f s.cl % 65536)) s) := .send s .updateHead _
    generalize Server.send .updateHead (updateHead (nRectsSent f s.cl % 65536)) s = t at h3
    refine .trans ?_ (h2 _ _)
    split
    · exact h3.trans (h1 _ _ _)
    · exact h3
  · have h4 : ∀ p t, (sendPts p t).cl = t.cl := fun p t => by
      unfold sendPts
      split
      · rfl
      · split <;> simp
    rw [h4]
    split
    · unfold sendResizeRect
      simp
    · simp

theorem frame_told {f : Frame} {s : St} (hd : s.log.getLast? = some (.encodeDone f))
    (h : Fair sizes s.log → Timely s.log → ∀ t, talkOf s.log = some t → Heard sizes s.log t) :
    Fair sizes (sendFrame f s).log → Timely (sendFrame f s).log → ∀ t, talkOf (sendFrame f s).log = some t →
      Heard sizes (sendFrame f s).log t := by
  obtain ⟨u, hu, hc, he⟩ := sendFrame_last f s
  obtain ⟨es, h1, h2⟩ := hu.log
  have hlog : (sendFrame f s).log = s.log ++ (es ++ if u.cl.closed then [] else [.send u.cl.chan .frame f.payload]) := by
    rw [he, send_log, h1, List.append_assoc]
  cases hcl : s.cl.closed with
  | true =>
    have : (sendFrame f s).log = s.log := by
      obtain ⟨es, h1, h2⟩ := (sendFrame_frame f s).2.2.2
      cases es with
      | nil => simpa using h1
      | cons e es =>
        have := (h2 e (by simp)).1
        rw [hcl] at this; cases this
    rw [this]; exact h
  | false =>
    rw [hc, hcl, if_neg (by simp)] at hlog
    intro g1 g2 t' ht'
    have hflat : ∀ e ∈ es ++ [.send u.cl.chan .frame f.payload], flat e = true := by
      intro e he
      rcases List.mem_append.1 he with he | he
      · exact flat_dull (h2 e he)
      · rw [List.mem_singleton.1 he]; rfl
    have g2' := g2 (s.log ++ es) u.cl.chan f.payload [] (by rw [hlog]; simp)
    rw [asked_dull h2, air_dull h2] at g2'
    cases ht : talkOf s.log with
    | none => rw [hlog, talk_none ht fun e he => flat_init (hflat e he)] at ht'; cases ht'
    | some t =>
      rw [hlog] at g1 g2
      have h3 := h g1.mono g2.mono t ht
      obtain ⟨ys, hy⟩ := List.getLast?_eq_some_iff.1 hd
      obtain ⟨n1, ⟨e, g⟩, hj, qs, n2⟩ := g1.frames ys f (es ++ [.send u.cl.chan .frame f.payload]) (by rw [hy]; simp)
      have k2 := g2' (e, g) (by rw [hy, air_append]; exact hj)
      have hg : describe g = t.now.fmt := Option.some.inj (k2.symm.trans h3.fmt)
      dsimp only at n2
      obtain ⟨fs, m1, -, m2⟩ := sendFrame_reads (z := sizes (describe g)) f hcl
      obtain rfl : es ++ [.send u.cl.chan .frame f.payload] = fs := List.append_cancel_left (hlog.symm.trans m1)
      obtain ⟨pre, m3, -⟩ := m2 qs n1 n2
      rw [hlog, talk_some ht hflat] at ht'
      cases ht'
      rw [hlog]
      exact h3.more hflat ⟨_, by rw [← hg]; exact .one m3⟩

theorem hs_told {r s a s' n} (hst : s.cl.st ≠ .ready) (e : tryRead env table r s a = .ok (s', n))
    (h : talkOf s.log = none) : (s'.cl.st ≠ .ready → talkOf s'.log = none) ∧
      ∀ t, talkOf s'.log = some t → ∃ b, session s'.log = some b ∧ t = ⟨b, [], (b.drop 4).take 16, []⟩ ∧
        (asked s'.log).fmt = some ((b.drop 4).take 16) := by
  by_cases hi : s.cl.st = .init
  · unfold tryRead at e
    rw [hi] at e
    dsimp only at e
    unfold onInit at e
    split at e
    · cases e
      exact ⟨fun _ => h, fun t ht => by rw [h] at ht; cases ht⟩
    · rename_i shared _
      dsimp only at e
      have h0 : talkOf (if shared = 0 then emit .disconnectOthers s else s).log = none := by
        split
        · exact talk_none (es := [.disconnectOthers]) h (by simp [isInit])
        · exact h
      generalize (if shared = 0 then emit .disconnectOthers s else s) = t at e h0
      split at e
      · cases e
      · rename_i u hu
        cases e
        refine ⟨fun hr => absurd rfl hr, ?_⟩
        unfold sendServerInit at hu
        split at hu
        · cases hu
        · rename_i fb _
          split at hu
          · cases hu
          · rename_i f0 _
            dsimp only at hu
            generalize (if f0.bpp = 24 then { f0 with bpp := 32 } else f0) = f1 at hu
            cases hu
            intro v hv
            change talkOf ((Server.send _ _ (t.upd _)).log ++ [.newClient]) = _ at hv
            show ∃ b, session ((Server.send _ _ (t.upd _)).log ++ [.newClient]) = some b ∧ _ ∧
              (asked ((Server.send _ _ (t.upd _)).log ++ [.newClient])).fmt = _
            rw [send_log] at hv ⊢
            split at hv
            · rw [List.append_nil] at hv
              exact nomatch (talk_none (es := [.newClient]) h0 (by simp [isInit])).symm.trans hv
            · rename_i hc
              rw [if_neg hc]
              have hs : session t.log = none := by rw [session_talk, h0]; rfl
              have e1 := talkOf_append t.log ([.send t.cl.chan .serverInit (be16 fb.w ++ be16 fb.h ++ pixfmtBytes f1 ++
                be32 t.srv.name.length ++ t.srv.name)] ++ [.newClient])
              rw [h0] at e1
              change talkOf (t.log ++ [_] ++ [.newClient]) = _ at hv
              rw [List.append_assoc] at hv
              have e2 := e1.symm.trans hv
              cases e2
              refine ⟨_, ?_, rfl, ?_⟩
              · show session (t.log ++ [_] ++ [.newClient]) = _
                rw [List.append_assoc, session_none hs]
                exact congrArg some (List.append_nil _)
              · show (asked (t.log ++ [_] ++ [.newClient])).fmt = _
                rw [asked_append, asked_append]
                rfl
  · obtain ⟨es, h1, h2⟩ := (hs_frame hst e).log
    have : talkOf s'.log = none := by
      rw [h1]
      exact talk_none h fun e he => flat_init (flat_dull (hs_dull hi (h2 e he)))
    exact ⟨fun _ => this, fun t ht => by rw [this] at ht; cases ht⟩

theorem micro_flat {lp s s'} (hm : Micro lp table s s') : (∃ es, s'.log = s.log ++ es ∧ ∀ e ∈ es, flat e = true) ∨
    (∃ f, s.log.getLast? = some (.encodeDone f) ∧ s' = sendFrame f s ∧ s.cl.st = .ready) ∨
    (s.cl.st ≠ .ready ∧ ∃ env r a n, tryRead env table r s a = .ok (s', n)) ∨
    (∃ a n, onSetPixelFormat s a = .ok (s', n) ∧ s.cl.st = .ready) := by
  cases hm with
  | fenceOut => exact .inl (flat_steady (.send _ _ _))
  | pfFire => exact .inl (flat_steady ((Steady.upd _).trans (.send _ _ _)))
  | ext => exact .inl (flat_steady ((Steady.upd _).trans (sendExtSupport_steady _)))
  | cursor env => exact .inl (flat_steady (sendCursor_steady env s))
  | led hr => exact .inl (flat_steady (sendLed_steady s))
  | frame env fb hr e =>
    obtain ⟨-, -, -, h4⟩ := stageFrame_frame e
    rcases h4 with h4 | ⟨_, _, _, _, h4⟩ | h4
    · exact .inl ⟨[], by simp [h4], by simp⟩
    · exact .inl ⟨_, h4, by simp [flat]⟩
    · exact .inl ⟨_, h4, by simp [flat]⟩
  | sendFrame f hr hd _ hf => exact .inr (.inl ⟨f, hd, rfl, hr⟩)
  | hs env r a h1 h2 => exact .inr (.inr (.inl ⟨h1, env, r, a, _, h2⟩))
  | simple env a h1 h2 =>
    rcases simple_cases h2 with e | e | e
    · exact .inr (.inr (.inr ⟨_, _, e, h1⟩))
    · exact .inl (encs_flat e)
    · exact .inl (flat_steady e)
  | fbReq inc r => exact .inl (flat_steady (fbReqPre_steady inc r s))
  | contOn => exact .inl (flat_steady ((Steady.upd _).trans (.emit _)))
  | contOff => exact .inl (flat_steady ((Steady.upd _).trans (.send _ _ _)))
  | fenceReq flags payload h1 hp h2 => exact .inl (flat_steady (fenceReq_steady h2))
  | consume => exact .inl (flat_steady ((Steady.upd _).trans (.emit _)))
  | bigCut env c d hr hc h1 h2 => exact .inl (flat_steady (bigCutText_steady h2))
  | remoteClosed => exact .inl (flat_steady ((streamClose_steady s).trans (deferClose_steady _)))
  | flushed => exact .inl (flat_steady (streamClose_steady s))
  | free hl h1 => exact .inl (flat_steady (freeClient_steady s))
  | idle hl h1 h2 => exact .inl (flat_steady ((Steady.upd s).trans (freeClient_steady _)))
  | encoded f hr he => exact .inl ⟨[.encodeDone f], rfl, by simp [flat]⟩
  | setLed v => exact .inl (flat_steady ((Steady.upd _).trans (.emit _)))
  | damage r => exact .inl (flat_steady ((Steady.upd _).trans (.emit _)))
  | net => exact .inl (flat_steady (.world rfl rfl))
  | display => exact .inl (flat_steady (.world rfl rfl))
  | setCursor => exact .inl (flat_steady (.world rfl rfl))
  | _ => exact .inl (flat_steady (.upd _))

theorem micro_told {lp s s'} (hm : Micro lp table s s') (h : Told sizes s.cl s.log) : Told sizes s'.cl s'.log := by
  have hst : s'.cl.st ≠ .ready → s.cl.st ≠ .ready := fun h1 h2 => h1 (micro_ready hm h2)
  refine ⟨micro_lit hm h.lit, fun hr => ?_, ?_⟩
  · have hn := h.before (hst hr)
    rcases micro_flat hm with ⟨es, h1, h2⟩ | ⟨f, -, -, h2⟩ | ⟨h1, env, r, a, n, h2⟩ | ⟨a, n, -, h2⟩
    · rw [h1]; exact talk_none hn fun e he => flat_init (h2 e he)
    · exact absurd h2 (hst hr)
    · exact (hs_told h1 h2 hn).1 hr
    · exact absurd h2 (hst hr)
  · have hsr : s.cl.st ≠ .ready → (∃ env r a n, tryRead env table r s a = .ok (s', n)) →
        Fair sizes s'.log → Timely s'.log → ∀ t, talkOf s'.log = some t → Heard sizes s'.log t := by
      rintro h1 ⟨env, r, a, n, h2⟩ g1 g2 t ht
      obtain ⟨b, k1, rfl, k2⟩ := (hs_told h1 h2 (h.before h1)).2 t ht
      have hs : session s.log = none := by rw [session_talk, h.before h1]; rfl
      obtain ⟨i, hi⟩ := (hs_sync h1 h2 hs).1 b k1 g1.short
      have hi := hi []
      rw [List.append_nil] at hi
      refine ⟨k2, ⟨i, hi, ?_⟩, fun p hp => ?_⟩
      · rw [readInit_fmt hi]; rfl
      · rw [List.mem_singleton.1 hp]
        exact ⟨[], .nil⟩
    rcases micro_flat hm with hf | ⟨f, hd, rfl, -⟩ | ⟨h1, h2⟩ | ⟨a, n, h1, -⟩
    · by_cases hall : ∀ z, Adds z s s'
      · exact step_adds hall hf h.ok
      · obtain ⟨z, hz⟩ := Classical.not_forall.1 hall
        rcases micro_adds (z := z) hm h.lit.kept with ha | ⟨f, hd, -, rfl⟩ | ⟨h1, h2⟩
        · exact absurd ha hz
        · exact frame_told hd h.ok
        · exact hsr h1 h2
    · exact frame_told hd h.ok
    · exact hsr h1 h2
    · exact pix_told h1 h.ok

theorem told_stays : Stays table (Told sizes) :=
  ⟨fun _ _ hm _ h => micro_told hm h, fun s text hb h => by
    have hf := flat_steady (cutTextTo_steady text s)
    refine ⟨(lit_stays (table := table)).cut s text hb h.lit, fun hr => ?_,
      step_adds (fun z => cutTextTo_adds text s) hf h.ok⟩
    obtain ⟨es, h1, h2⟩ := hf
    rw [h1]
    exact talk_none (h.before hr) fun e he => flat_init (h2 e he)⟩

/-- **C98**, with changes of the pixel format (part): over all runs of a server, a client whose session has begun can
read everything it was sent: ServerInit, and from there on message after message, with the sizes of the pixel format
that the server has been using since it read the client's last SetPixelFormat.

What is missing: see `Fair` for what is asked of encoders, cursors and the client itself.  `Timely` holds of
clients without fences, see below. -/
theorem c98_changes_partial {s0 s : Sys} {ops : List SysOp} (h0 : s0.peers = [])
    (e : sysRun table ops s0 = .ok s) : ∀ p ∈ s.peers, ∀ b, session p.log = some b → Fair sizes p.log → Timely p.log →
      ∃ t, talkOf p.log = some t ∧ t.all = b ∧ t.Legible sizes := by
  intro p hp b hb hf ht
  have h : Told sizes p.cl p.log :=
    told_stays.all (fun srv => ⟨lit_start srv, fun _ => rfl, fun _ _ t ht => nomatch ht⟩) h0 e hp
  rw [session_talk] at hb
  obtain ⟨t, h1, h2⟩ := Option.map_eq_some_iff.1 hb
  refine ⟨t, h1, h2, ?_⟩
  have h3 := h.ok hf ht t h1
  exact ⟨h3.init, fun p hp => by
    obtain ⟨ms, h4⟩ := h3.parts p hp
    exact ⟨ms, h4.readMsgs (Nat.le_refl _)⟩⟩

/-- clients that never ask for fences are sent no frame in a format of the past -/
theorem timely_unfenced {l : List Eff} (h : FormatsOk l) (he : ∀ es, .encodings es ∈ l → -312 ∉ es) : Timely l := by
  intro pre ch b post hl
  rcases h.sent pre ch b post hl with h | ⟨-, h1⟩
  · have h3 : ∀ (l pre : List Eff), ((asked pre).encs = [] ∨ .encodings (asked pre).encs ∈ pre) →
        (asked (pre ++ l)).encs = [] ∨ .encodings (asked (pre ++ l)).encs ∈ pre ++ l := by
      intro l
      induction l with
      | nil => intro pre h; rwa [List.append_nil]
      | cons x l ih =>
        intro pre h
        have := ih (pre ++ [x]) ?_
        · rwa [List.append_assoc] at this
        · rw [asked_append, List.foldl_cons, List.foldl_nil]
          have hk : (asked pre).encs = [] ∨ .encodings (asked pre).encs ∈ pre ++ [x] :=
            h.imp id (List.mem_append_left _)
          cases x with
          | encodings es => exact .inr (List.mem_append_right _ (List.mem_singleton.2 rfl))
          | send ch k b => cases k <;> exact hk
          | _ => exact hk
    have h3 := h3 pre [] (.inl rfl)
    rw [List.nil_append] at h3
    rcases h3 with h4 | h4
    · rw [h4] at h; cases h
    · exact absurd h (he _ (by rw [hl]; exact List.mem_append_left _ h4))
  · exact fun j hj => (h1 j hj).1

/-- **C98**, clients that never ask for fences: the server sends them no frame in a format of the past, so they can
read everything. -/
theorem c98_unfenced_partial {s0 s : Sys} {ops : List SysOp} (h0 : s0.peers = [])
    (e : sysRun table ops s0 = .ok s) : ∀ p ∈ s.peers, ∀ b, session p.log = some b → Fair sizes p.log →
      Single p.log → (∀ es, .encodings es ∈ p.log → -312 ∉ es) →
      ∃ t, talkOf p.log = some t ∧ t.all = b ∧ t.Legible sizes :=
  fun p hp b hb hf hn he =>
    c98_changes_partial h0 e p hp b hb hf (timely_unfenced (c106_formats_partial h0 e p hp hn) he)

/-! ## A session in two formats -/

/-- `Fair`, checked: `pre` is what came before -/
def fairB (sizes : Bytes → Sizes) : List Eff → List Eff → Bool
  | _, [] => true
  | pre, x :: l =>
    (match x with
      | .encodeDone f => decide (f.nRects + 2 < 65536) && (air pre).fly.any fun j =>
          match readRects (sizes (describe j.2)) f.nRects f.payload with
          | some (_, []) => true
          | _ => false
      | .send _ k b => decide (b.length < 2147483648) &&
        match k, b, (asked pre).fmt with
        | .cursor, 0 :: 0 :: 0 :: 1 :: b, some g => match readRect (sizes g) b with
          | some (q, []) => decide (q.enc = -239)
          | _ => false
        | _, _, _ => true
      | .encodings es => !es.contains 1464686184 || es.contains (-261)
      | _ => true) && fairB sizes (pre ++ [x]) l

theorem fair_of {l : List Eff} (h : fairB sizes [] l = true) : Fair sizes l := by
  have key : ∀ (l pre : List Eff), fairB sizes pre l = true → ∀ a x b, l = a ++ x :: b →
      fairB sizes (pre ++ a) (x :: b) = true := by
    intro l
    induction l with
    | nil => intro pre _ a x b h; simp at h
    | cons y l ih =>
      intro pre h a x b hl
      cases a with
      | nil => rw [List.append_nil]; rw [List.nil_append] at hl; exact hl ▸ h
      | cons y' a =>
        rw [List.cons_append, List.cons.injEq] at hl
        obtain ⟨rfl, hl⟩ := hl
        have := ih (pre ++ [y]) (by unfold fairB at h; exact (Bool.and_eq_true _ _ ▸ h).2) a x b hl
        rwa [List.append_assoc] at this
  have key := fun a x b hl => (Bool.and_eq_true _ _ ▸ (key l [] h a x b hl)).1
  simp only [List.nil_append] at key
  refine ⟨fun pre f post hl => ?_, fun pre ch b post g hl hg => ?_, fun es he hv => ?_, fun ch k b hb => ?_⟩
  · have := key pre _ post hl
    simp only [Bool.and_eq_true, decide_eq_true_eq, List.any_eq_true] at this
    refine ⟨this.1, ?_⟩
    obtain ⟨j, hj, this⟩ := this.2
    refine ⟨j, hj, ?_⟩
    split at this
    · rename_i qs hq; exact ⟨qs, hq⟩
    · cases this
  · have := key pre _ post hl
    simp only [hg, Bool.and_eq_true, decide_eq_true_eq, List.cons_append, List.nil_append] at this
    have := this.2
    split at this
    · rename_i q hq; exact ⟨q, hq, of_decide_eq_true this⟩
    · cases this
  · obtain ⟨a, b, hl⟩ := List.append_of_mem he
    have := key a _ b hl
    simp only [Bool.or_eq_true, Bool.not_eq_true', Bool.eq_false_iff, List.contains_iff_mem, ne_eq] at this
    exact this.resolve_left (absurd hv)
  · obtain ⟨a, c, hl⟩ := List.append_of_mem hb
    have := key a _ c hl
    simp only [Bool.and_eq_true, decide_eq_true_eq] at this
    exact this.1

/-- the sizes of raw pixels -/
def rawSizes (f : Bytes) : Sizes := ⟨(f.headD 0).toNat / 8, (f.headD 0).toNat / 8⟩

/-- the dot in 16 bits -/
def dot16 : Frame := { dotFrame with payload := rectHead 1 2 1 1 0 ++ [7, 6] }

/-- A client has a dot in 32 bits for a pixel, asks again, and then for 16 bits before the frame is ready.  It is thrown
away; the next one is in 16 bits. -/
def twoTalk : List SysOp :=
  joins [0, -223] ++ [says fullReq, .client 0 (.encoded dotFrame) richEnv [], .client 0 .written richEnv [], says fullReq,
    says (Msg.setPixelFormat 0 sixteen).wire, .damage [⟨0, 0, 4, 3⟩] (fun _ => (richEnv, [])),
    .client 0 (.encoded dotFrame) richEnv [], .client 0 (.encoded dot16) richEnv []]

/-- the conditions hold, and this is what the client reads -/
example : fairB rawSizes [] (firstLog twoTalk) = true ∧ Single (firstLog twoTalk) ∧
    (firstLog twoTalk).all (fun | .encodings es => !es.contains (-312) | _ => true) = true ∧
    (talkOf (firstLog twoTalk)).map (fun t => t.parts.map fun p => readMsgs (rawSizes p.fmt) 9 p.bytes) =
      some [some [.update [⟨1, 2, 1, 1, 0, [9, 8, 7, 6]⟩]], some [.update [⟨1, 2, 1, 1, 0, [7, 6]⟩]]] := by
  refine ⟨by decide +kernel, single_of (by decide +kernel), by decide +kernel, by decide +kernel⟩

end Verif.Changes
