import Verif.Spec.Decode
import Verif.Props.Streams
import Verif.Props.WireEnc

/-!
# C99: the client decodes the application's picture
-/

namespace Verif.Wire

open Verif.Server

variable {z : Sizes} {table : List Nat} {α : Type} {dec : Decoder α} {c : Pic α}

/-- effects that mean nothing to the viewer -/
def soft : Eff → Bool
  | .send _ .resizeRect _ | .send _ .frame _ | .encode .. | .encodeDone _ => false
  | _ => true

theorem soft_plain {e : Eff} (h : e.plain = true) : soft e = true := by
  cases e with
  | send ch k b => cases k <;> first | rfl | cases h
  | encode => cases h
  | encodeDone => cases h
  | _ => rfl

theorem see_soft {e : Eff} (h : soft e = true) (v : Viewer α) : v.see c e = v := by
  cases e with
  | send ch k b => cases k <;> first | rfl | cases h
  | encode => cases h
  | encodeDone => cases h
  | _ => rfl

theorem see_softs {es : List Eff} (h : ∀ e ∈ es, soft e = true) (v : Viewer α) : es.foldl (Viewer.see c) v = v := by
  induction es generalizing v with
  | nil => rfl
  | cons e es ih =>
    rw [List.foldl_cons, see_soft (h e (by simp))]
    exact ih (fun e he => h e (by simp [he])) v

/-- what a step means to the viewer -/
inductive Seen (s s' : St) : Prop where
  | soft (es) (h : s'.log = s.log ++ es) (hs : ∀ e ∈ es, soft e = true) (he : s'.cl.encoding = s.cl.encoding)
  | encode (en j f q) (h : s'.log = s.log ++ [.encode en j f q]) (hr : s.cl.st = .ready) (he : s'.cl.encoding = true)
  | done (f) (h : s'.log = s.log ++ [.encodeDone f]) (h1 : s.cl.encoding = true) (he : s'.cl.encoding = false)
  | frame (f) (hr : s.cl.st = .ready) (h : s.log.getLast? = some (.encodeDone f)) (e : s' = sendFrame f s)

theorem streamClose_seen (s : St) : (streamClose s).cl.encoding = s.cl.encoding ∧
    ∃ es, (streamClose s).log = s.log ++ es ∧ ∀ e ∈ es, soft e = true := by
  unfold streamClose
  split
  · exact ⟨rfl, [], by simp, by simp⟩
  · dsimp only
    split
    · exact ⟨rfl, [.deferClose], rfl, by simp [soft]⟩
    · exact ⟨rfl, [], by simp, by simp⟩

theorem stageFrame_seen {env fb s s'} (hr : s.cl.st = .ready) (e : stageFrame env fb s = .ok s') : Seen s s' := by
  unfold stageFrame at e
  rcases ite_cases e with ⟨-, e⟩ | ⟨-, e⟩
  · cases e; exact .soft [] (by simp) (by simp) rfl
  rcases ite_cases e with ⟨-, e⟩ | ⟨-, e⟩
  · cases e; exact .soft [] (by simp) (by simp) rfl
  obtain ⟨n, en, ni, nk, nm, hf⟩ := ensureEncoder_frame env fb s
  generalize ensureEncoder env fb s = res at e hf
  obtain ⟨t, b⟩ := res
  dsimp only at hf
  subst hf
  cases b
  · dsimp only at e
    rcases ite_cases e with ⟨-, e⟩ | ⟨-, e⟩
    · cases e
    cases e; exact .soft [] (by simp) (by simp) rfl
  · dsimp only at e
    rcases ite_cases e with ⟨-, e⟩ | ⟨-, e⟩
    · cases e
    rcases ite_cases e with ⟨-, e⟩ | ⟨-, e⟩
    · injection e with e
      have hl : ∃ en j f q, s'.log = s.log ++ [.encode en j f q] := by
        rw [← e]
        split <;> exact ⟨_, _, _, _, rfl⟩
      obtain ⟨en, j, f, q, hl⟩ := hl
      refine .encode en j f q hl hr ?_
      rw [← e]
      split <;> rfl
    · cases e
      exact .soft [.encodeFail] rfl (by simp [soft]) rfl

theorem micro_seen {lp s s'} (hm : Micro lp table s s') : Seen s s' := by
  have one : ∀ {t u : St} {e : Eff}, u.log = t.log ++ [e] → soft e = true → u.cl.encoding = t.cl.encoding → Seen t u :=
    fun h he => .soft _ h (by simpa using he)
  have send : ∀ (k b) {t u : St}, (∀ ch, soft (.send ch k b) = true) → u.log = t.log → u.cl.encoding = t.cl.encoding →
      Seen t (Server.send k b u) := by
    intro k b t u hk h1 h2
    by_cases hc : u.cl.closed = true
    · exact .soft [] (by rw [send_log, if_pos hc, List.append_nil, h1, List.append_nil]) (by simp) (by simpa using h2)
    · exact .soft [.send u.cl.chan k b] (by rw [send_log, if_neg hc, h1]) (by simpa using hk _) (by simpa using h2)
  have free : ∀ {t u : St}, u.log = t.log → u.cl.encoding = t.cl.encoding → Seen t (freeClient u) := by
    intro t u h1 h2
    obtain ⟨h3, h4, -, -⟩ := freeClient_frame u
    obtain ⟨h5, es, h6, h7⟩ := streamClose_seen u
    exact .soft es (by rw [h4, h6, h1]) h7 (by rw [h3]; exact h5.trans h2)
  have plain : ∀ {t u : St}, (∃ es, u.log = t.log ++ es ∧ ∀ e ∈ es, e.plain = true) →
      u.cl.encoding = t.cl.encoding → Seen t u := by
    rintro t u ⟨es, h1, h2⟩ h3
    exact .soft es h1 (fun e he => soft_plain (h2 e he)) h3
  have opt : ∀ {t u : St} {cond : Prop} {k}, (u.log = t.log ∨ cond ∧ ∃ b, u.log = t.log ++ [.send t.cl.chan k b]) →
      (∀ ch b, soft (.send ch k b) = true) → u.cl.encoding = t.cl.encoding → Seen t u := by
    rintro t u cond k (h | ⟨-, b, h⟩) hk he
    · exact .soft [] (by simp [h]) (by simp) he
    · exact one h (hk _ _) he
  cases hm with
  | fenceOut => exact send _ _ (fun _ => rfl) rfl rfl
  | pfFire => exact send _ _ (fun _ => rfl) rfl rfl
  | ext =>
    obtain ⟨-, -, h3, h4⟩ := sendExtSupport_frame (s.upd fun k => { k with extNotified := true })
    rcases h4 with h4 | ⟨-, b, h4⟩
    · exact .soft [] (by rw [h4]; simp) (by simp) (by rw [h3]; rfl)
    · exact one h4 rfl (by rw [h3]; rfl)
  | cursor env =>
    obtain ⟨-, -, ⟨_, h3⟩, h4⟩ := sendCursor_frame env s
    rcases h4 with h4 | ⟨-, b, h4⟩
    · exact .soft [] (by rw [h4]; simp) (by simp) (by rw [h3])
    · exact one h4 rfl (by rw [h3])
  | led =>
    obtain ⟨-, -, ⟨_, h3⟩, h4⟩ := sendLed_frame s
    rcases h4 with h4 | ⟨-, b, h4⟩
    · exact .soft [] (by rw [h4]; simp) (by simp) (by rw [h3])
    · exact one h4 rfl (by rw [h3])
  | frame env fb hr e => exact stageFrame_seen hr e
  | sendFrame f hr hd => exact .frame f hr hd rfl
  | hs env r a h1 h2 =>
    obtain ⟨-, -, ⟨_, _, _, _, _, _, _, _, _, _, _, h3⟩, es, h4, h5⟩ := hs_frame h1 h2
    exact plain ⟨es, h4, fun e he => (h5 e he).plain⟩ (by rw [h3])
  | simple env a h1 h2 =>
    obtain ⟨-, -, ⟨_, _, _, _, _, _, _, _, _, h3⟩, es, h4, h5⟩ := h2.frame
    exact plain ⟨es, h4, fun e he => (h5 e he).plain⟩ (by rw [h3])
  | fbReq inc r hr =>
    obtain ⟨-, -, ⟨kw, kh, h3⟩, h4⟩ := fbReqPre_frame inc r s
    exact one h4 rfl (by rw [h3])
  | contOn => exact one rfl rfl rfl
  | contOff => exact send _ _ (fun _ => rfl) rfl rfl
  | fenceReq flags payload h1 hp h2 =>
    obtain ⟨-, -, ⟨_, _, _, _, _, h3⟩, h4⟩ := fenceSeen_frame h2
    rcases h4 with h4 | h4 | ⟨-, b, h4⟩ <;> exact plain ⟨_, h4, by simp [Eff.plain]⟩ (by rw [h3])
  | consume => exact one rfl rfl rfl
  | bigCut env c d hr hc h1 h2 =>
    obtain ⟨-, -, ⟨_, _, _, _, _, _, _, _, _, h3⟩, es, h4, h5⟩ := bigCutText_frame h2
    exact plain ⟨es, h4, fun e he => (h5 e he).plain⟩ (by rw [h3])
  | remoteClosed =>
    unfold remoteClosed deferClose
    obtain ⟨h5, es, h6, h7⟩ := streamClose_seen s
    refine .soft (es ++ [.deferClose]) (by show (streamClose s).log ++ _ = _; rw [h6, List.append_assoc]) ?_ h5
    intro e he
    rcases List.mem_append.1 he with he | he
    · exact h7 e he
    · rw [List.mem_singleton.1 he]; rfl
  | flushed =>
    obtain ⟨h5, es, h6, h7⟩ := streamClose_seen s
    exact .soft es h6 h7 h5
  | free hl h1 => exact free rfl rfl
  | idle hl h1 h2 => exact free rfl rfl
  | encoded f hr he => exact .done f rfl he rfl
  | setLed => exact one rfl rfl rfl
  | damage r => exact one rfl rfl rfl
  | _ => exact .soft [] (by simp [St.upd]) (by simp) rfl

/-! ## Frames -/

/-- what the viewer makes of a frame that is sent -/
theorem sendFrame_see (f : Frame) {s : St} (hc : s.cl.closed = false) {es : List Eff}
    (h : (sendFrame f s).log = s.log ++ es) (v : Viewer α) :
    es.foldl (Viewer.see c) v = { v with
      screen := paint v.frame (if resized f s.cl then fun _ _ => none else v.screen), frame := none, done := false } ∧
    ∃ ch b, es.getLast? = some (.send ch .frame b) := by
  have hp : ∀ t : St, t.cl.closed = false → ∃ mid, (sendPts f.pts t).log = t.log ++ mid ∧
      (∀ e ∈ mid, soft e = true) ∧ (sendPts f.pts t).cl = t.cl := by
    intro t ht
    refine (fun ⟨mid, h1, h2⟩ => ⟨mid, h1, h2, (sendPts_frame f.pts t).2.2.1⟩ :
      (∃ mid, (sendPts f.pts t).log = t.log ++ mid ∧ ∀ e ∈ mid, soft e = true) → _) ?_
    unfold sendPts
    split
    · exact ⟨[], by simp, by simp⟩
    · split
      · rw [send_log, if_neg (by exact Bool.eq_false_iff.1 ht)]
        exact ⟨_, rfl, by simp [soft]⟩
      · exact ⟨[], by simp, by simp⟩
  unfold sendFrame at h
  dsimp only at h
  generalize hu : Server.send .updateHead (updateHead (nRectsSent f s.cl % 65536)) s = u at h
  have u1 : u.cl = s.cl := by rw [← hu]; simp
  have u2 : u.log = s.log ++ [.send s.cl.chan .updateHead (updateHead (nRectsSent f s.cl % 65536))] := by
    rw [← hu, send_log, if_neg (by exact Bool.eq_false_iff.1 hc)]
  clear hu
  generalize updateHead (nRectsSent f s.cl % 65536) = hd at u2
  by_cases hz : resized f s.cl = true
  · rw [if_pos hz] at h ⊢
    obtain ⟨-, -, g3, -⟩ := sendResizeRect_frame f.w f.h u
    have g4 : ∃ m, (sendResizeRect f.w f.h u).log = u.log ++ [.send s.cl.chan .resizeRect m] := by
      unfold sendResizeRect
      dsimp only
      rw [send_log, if_neg (by
        show ¬ u.cl.closed = true
        rw [u1]; exact Bool.eq_false_iff.1 hc)]
      exact ⟨_, by rw [← u1]; rfl⟩
    obtain ⟨m, g4⟩ := g4
    generalize sendResizeRect f.w f.h u = t at g3 g4 h
    have c1 : t.cl.closed = false := by rw [g3, u1]; exact hc
    obtain ⟨mid, m1, m2, m3⟩ := hp t c1
    generalize sendPts f.pts t = w at m1 m3 h
    rw [send_log, if_neg (by rw [m3]; exact Bool.eq_false_iff.1 c1), m1, g4, u2] at h
    simp only [List.append_assoc] at h
    have h := List.append_cancel_left h
    rw [← h]
    refine ⟨?_, w.cl.chan, f.payload, by simp only [← List.append_assoc]; rw [List.getLast?_concat]⟩
    rw [List.foldl_append, List.foldl_append, List.foldl_append, see_softs m2]
    rfl
  · rw [if_neg hz] at h ⊢
    obtain ⟨mid, m1, m2, m3⟩ := hp u (by rw [u1]; exact hc)
    generalize sendPts f.pts u = w at m1 m3 h
    rw [send_log, if_neg (by rw [m3, u1]; exact Bool.eq_false_iff.1 hc), m1, u2] at h
    simp only [List.append_assoc] at h
    have h := List.append_cancel_left h
    rw [← h]
    refine ⟨?_, w.cl.chan, f.payload, by simp only [← List.append_assoc]; rw [List.getLast?_concat]⟩
    rw [List.foldl_append, List.foldl_append, see_softs m2]
    rfl

/-! ## The invariant -/

theorem makers_append (l es : List Eff) : makers z (l ++ es) = es.foldl (Makers.see z) (makers z l) := by
  unfold makers
  rw [List.foldl_append]

theorem makers_softs {es : List Eff} (h : ∀ e ∈ es, soft e = true) (m : Makers) : es.foldl (Makers.see z) m = m := by
  induction es generalizing m with
  | nil => rfl
  | cons e es ih =>
    have : m.see z e = m := by
      have := h e (by simp)
      cases e with
      | encode => cases this
      | encodeDone => cases this
      | _ => rfl
    rw [List.foldl_cons, this]
    exact ih (fun e he => h e (by simp [he])) m

/-- the encoder at work is the one that was last used for its encoding -/
theorem makers_cur (l : List Eff) : ∀ {e i}, (makers z l).cur = some (e, i) → lastJob e l = some i := by
  induction l using snoc_induction with
  | h0 => exact nofun
  | h1 l x ih =>
    intro e i h
    rw [makers_append] at h
    by_cases hx : ∃ a b c d, x = .encode a b c d
    · obtain ⟨a, b, c, d, rfl⟩ := hx
      cases h
      rw [lastJob_encode, if_pos rfl]
    · have hc : x.calm := fun a b c d h => hx ⟨a, b, c, d, h⟩
      rw [lastJob_calm (by simpa using hc)]
      apply ih
      cases x with
      | encode a b c d => exact absurd rfl (hc a b c d)
      | encodeDone f =>
        rw [List.foldl_cons, List.foldl_nil] at h
        unfold Makers.see at h
        dsimp only at h
        split at h
        · exact h
        · exact h
      | _ => exact h

/-- an encoder that was not used made nothing -/
theorem makers_made (l : List Eff) : ∀ {i}, (∀ e j p q, .encode e j p q ∈ l → j.id ≠ i) → (makers z l).made i = [] := by
  induction l using snoc_induction with
  | h0 => exact fun _ => rfl
  | h1 l x ih =>
    intro i h
    have h0 := ih (i := i) fun e j p q hm => h e j p q (by simp [hm])
    rw [makers_append]
    cases x with
    | encodeDone f =>
      rw [List.foldl_cons, List.foldl_nil]
      unfold Makers.see
      dsimp only
      split
      · rename_i e i' hc
        dsimp only
        split
        · next he =>
          obtain ⟨j, p, q, h1, h2⟩ := lastJob_some (makers_cur l hc)
          exact absurd (h2.trans he.symm) (h e j p q (by simp [h1]))
        · exact h0
      · exact h0
    | _ => exact h0

/-- the client has decoded what the encoders made -/
def Hist (sc : Canvas α) (m : Makers) (l : List Eff) : Prop :=
  ∀ e, (lastJob e l = none → sc.of e = []) ∧
    ∀ i, lastJob e l = some i → ∃ before, sc.of e = before ++ m.made i ∧ (e = 16 ∨ e = 7 → before = [])

/-- What the client has decoded is what the viewer has painted; `m` are the encoders, before the frame that
was made and not sent yet. -/
structure Match (z : Sizes) (dec : Decoder α) (v : Viewer α) (m : Makers) (s : St) : Prop where
  early : s.cl.st ≠ .ready → v.screen = (fun _ _ => none) ∧ session s.log = none ∧ ∀ e, lastJob e s.log = none
  sync : ∀ b, session s.log = some b → Readable z s.log → ∃ d r i ms, b = d ++ r ∧
    (∀ q, readInit (d ++ q) = some (i, q)) ∧ Reads z r ms ∧
    (v.lost = false → (∀ px py, (canvas dec ms).pix px py = v.screen px py) ∧ Hist (canvas dec ms) m s.log)
  calm : v.lost = false → v.done = false → m = makers z s.log
  busy : v.lost = false → s.cl.encoding = true → v.frame.isSome = true ∧ v.done = false ∧ m.cur.isSome = true
  idle : v.lost = false → v.done = true → v.frame.isSome = true
  last : v.lost = false → ∀ f, s.log.getLast? = some (.encodeDone f) → s.cl.encoding = false ∧
    m.see z (.encodeDone f) = makers z s.log ∧
    ∃ r k e i, v.frame = some (r, k) ∧ m.cur = some (e, i) ∧ lastJob e s.log = some i ∧
      ∀ before, (e = 16 ∨ e = 7 → before = []) → Draws z dec e (before ++ m.made i) f r k

theorem faith_append {v : Viewer α} {m : Makers} {es fs : List Eff} (h : Faith z dec c v m (es ++ fs)) :
    Faith z dec c v m es ∧ Faith z dec c (es.foldl (Viewer.see c) v) (es.foldl (Makers.see z) m) fs := by
  induction es generalizing v m with
  | nil => exact ⟨trivial, h⟩
  | cons e es ih =>
    obtain ⟨h1, h2⟩ := h
    obtain ⟨h3, h4⟩ := ih h2
    exact ⟨⟨h1, h3⟩, h4⟩

theorem lost_mono {es : List Eff} {v : Viewer α} (h : (es.foldl (Viewer.see c) v).lost = false) : v.lost = false := by
  induction es generalizing v with
  | nil => exact h
  | cons e es ih =>
    have := ih h
    cases e with
    | send ch k b => cases k <;> exact this
    | encode en j f q =>
      have : (v.lost || v.frame.isSome) = false := this
      simp only [Bool.or_eq_false_iff] at this
      exact this.1
    | _ => exact this

theorem canvas_quiet {dec : Decoder α} {ms ns : List SMsg} (h : ∀ m ∈ ns, Quiet m) :
    canvas dec (ms ++ ns) = canvas dec ms := by
  unfold canvas
  rw [List.foldl_append]
  generalize List.foldl (draw dec) {} ms = sc
  induction ns with
  | nil => rfl
  | cons m ns ih =>
    rw [List.foldl_cons, h m (by simp) α dec sc]
    exact ih fun m hm => h m (by simp [hm])

theorem last_append {l es : List Eff} {f : Frame} (h : (l ++ es).getLast? = some (.encodeDone f))
    (hs : ∀ e ∈ es, e ≠ .encodeDone f) : es = [] ∧ l.getLast? = some (.encodeDone f) := by
  cases hn : es.getLast? with
  | none =>
    have := List.getLast?_eq_none_iff.1 hn
    subst this
    exact ⟨rfl, by simpa using h⟩
  | some e =>
    rw [List.getLast?_append, hn] at h
    injection h with h
    exact absurd h (hs e (List.mem_of_getLast? hn))

theorem calm_soft {e : Eff} (h : soft e = true) : e.calm := by
  rintro a b c d rfl
  cases h

/-- the client's reading goes on -/
theorem sync_adds {v v' : Viewer α} {m m' : Makers} {s s' : St} (h : Match z dec v m s) (ha : Adds z s s')
    (hv : v'.screen = v.screen) (hl : v'.lost = false → v.lost = false)
    (hm : v'.lost = false → ∀ sc : Canvas α, Hist sc m s.log → Hist sc m' s'.log) :
    ∀ b, session s'.log = some b → Readable z s'.log → ∃ d r i ms, b = d ++ r ∧
      (∀ q, readInit (d ++ q) = some (i, q)) ∧ Reads z r ms ∧
      (v'.lost = false → (∀ px py, (canvas dec ms).pix px py = v'.screen px py) ∧ Hist (canvas dec ms) m' s'.log) := by
  obtain ⟨es, h1, h2, h3⟩ := ha
  intro b hb hr
  rw [h1] at hb
  cases hs : session s.log with
  | none => rw [session_none hs, session_noInit h2] at hb; cases hb
  | some c =>
    rw [session_some hs] at hb
    cases hb
    obtain ⟨d, r, i, ms, e1, e2, e3, e4⟩ := h.sync c hs (by rw [h1] at hr; exact hr.mono)
    obtain ⟨ns, e5, e6⟩ := h3 (by rw [h1] at hr; exact hr.local)
    refine ⟨d, r ++ sent es, i, ms ++ ns, by rw [e1, List.append_assoc], e2, e3.append e5, fun hl' => ?_⟩
    obtain ⟨e7, e8⟩ := e4 (hl hl')
    rw [canvas_quiet e6]
    exact ⟨fun px py => by rw [e7, hv], hm hl' _ e8⟩

/-- rectangles of one encoding are added to what was decoded in it -/
theorem draw_past {dec : Decoder α} {e : Int} (he : isPixels e = true) : ∀ (qs : List RectMsg) (sc : Canvas α),
    (∀ q ∈ qs, q.enc = e) → (qs.foldl (draw1 dec) sc).past = sc.past ++ qs
  | [], sc, _ => by simp
  | q :: qs, sc, h => by
    rw [List.foldl_cons, draw_past he qs _ fun q hq => h q (by simp [hq])]
    have hq : isPixels q.enc = true := by rw [h q (by simp)]; exact he
    unfold draw1
    rw [if_pos hq]
    simp

theorem see_done {m : Makers} {f : Frame} {e : Int} {i : Nat} (h : m.cur = some (e, i)) (i' : Nat) :
    (m.see z (.encodeDone f)).made i' = if i' = i then m.made i ++ rectsOf z f else m.made i' := by
  unfold Makers.see
  rw [h]

/-- a frame is sent -/
theorem match_frame {f : Frame} {s : St} (hr : s.cl.st = .ready) (hd : s.log.getLast? = some (.encodeDone f))
    (hk : EncOk s) {v : Viewer α} {m : Makers} (h : Match z dec v m s) {es : List Eff}
    (he : (sendFrame f s).log = s.log ++ es) :
    ∃ m', Match z dec (es.foldl (Viewer.see c) v) m' (sendFrame f s) := by
  obtain ⟨-, -, ⟨kw, kh, dm, h3, -⟩, fs, h5, h5'⟩ := sendFrame_frame f s
  have c1 : (sendFrame f s).cl.st = .ready := by rw [h3]; exact hr
  have c2 : (sendFrame f s).cl.encoding = s.cl.encoding := by rw [h3]
  have hsend : ∀ e ∈ es, ∃ ch k b, e = .send ch k b := by
    have : fs = es := List.append_cancel_left (h5.symm.trans he)
    subst this
    intro e he
    obtain ⟨-, k, b, -, h⟩ := h5' e he
    exact ⟨_, k, b, h⟩
  have hcalm : ∀ e ∈ es, e.calm := by
    intro e he
    obtain ⟨ch, k, b, rfl⟩ := hsend e he
    exact nofun
  have hmk : makers z (s.log ++ es) = makers z s.log := by
    rw [makers_append]
    generalize makers z s.log = m
    clear h5 h5' he hcalm
    induction es generalizing m with
    | nil => rfl
    | cons e es ih =>
      obtain ⟨ch, k, b, rfl⟩ := hsend e (by simp)
      exact ih (fun e he => hsend e (by simp [he])) m
  by_cases hc : s.cl.closed = true
  · have hn : es = [] := by
      have : fs = es := List.append_cancel_left (h5.symm.trans he)
      subst this
      cases fs with
      | nil => rfl
      | cons e fs =>
        have := (h5' e (by simp)).1
        rw [hc] at this; cases this
    subst hn
    rw [List.append_nil] at he
    exact ⟨m, fun h => absurd c1 h, by rw [he]; exact h.sync, by rw [he]; exact h.calm, by rw [c2]; exact h.busy,
      h.idle, by rw [he, c2]; exact h.last⟩
  · have hc : s.cl.closed = false := by simpa using hc
    obtain ⟨g1, ch, b', g2⟩ := sendFrame_see (c := c) f hc he v
    obtain ⟨fs, e1, e2, e3⟩ := sendFrame_reads (z := z) f hc
    have : fs = es := List.append_cancel_left (e1.symm.trans he)
    subst this
    rw [g1]
    refine ⟨makers z s.log, fun h => absurd c1 h, ?_, fun _ _ => by rw [he, hmk], fun hl he => ?_, nofun, fun hl g hg => ?_⟩
    · intro b hb hr
      rw [he] at hb
      cases hs : session s.log with
      | none => rw [session_none hs, session_noInit e2] at hb; cases hb
      | some c =>
        rw [session_some hs] at hb
        cases hb
        have hr' : Readable z s.log := by rw [e1] at hr; exact hr.mono
        obtain ⟨d, r, i, ms, a1, a2, a3, a4⟩ := h.sync c hs hr'
        obtain ⟨b1, qs, b2⟩ := hr'.frames f (List.mem_of_getLast? hd)
        obtain ⟨pre, c3, c4⟩ := e3 qs b1 b2
        refine ⟨d, r ++ sent fs, i, ms ++ [.update (pre ++ qs)], by rw [a1, List.append_assoc], a2,
          a3.append (.one c3), fun hl => ?_⟩
        obtain ⟨-, hsee, r', k, en, id, d1, d4, d5, dr⟩ := h.last hl f hd
        obtain ⟨a4, a5⟩ := a4 hl
        obtain ⟨before, a6, a7⟩ := (a5 en).2 id d5
        obtain ⟨dp, qs', d2, d3, d6⟩ := dr before a7
        rw [b2] at d2
        cases d2
        have hcv : canvas dec (ms ++ [.update (pre ++ qs)]) = qs.foldl (draw1 dec)
            (if resized f s.cl then { canvas dec ms with pix := fun _ _ => none } else canvas dec ms) := by
          unfold canvas
          rw [List.foldl_append, List.foldl_cons, List.foldl_nil]
          show (pre ++ qs).foldl (draw1 dec) (canvas dec ms) = _
          rw [List.foldl_append, c4]
          rfl
        have hof : ∀ e, (if resized f s.cl then { canvas dec ms with pix := fun _ _ => none } else canvas dec ms).of e =
            (canvas dec ms).of e := by
          intro e; split <;> rfl
        have hpast : ∀ e, (canvas dec (ms ++ [.update (pre ++ qs)])).of e =
            (canvas dec ms).of e ++ qs.filter (·.enc == e) := by
          intro e
          rw [hcv]
          unfold Canvas.of
          rw [draw_past dp qs _ d3, List.filter_append]
          congr 1
          exact hof e
        refine ⟨fun px py => ?_, fun e => ?_⟩
        · show _ = paint v.frame (if resized f s.cl then fun _ _ => none else v.screen) px py
          rw [hcv, d6 _ (by rw [hof, a6]) px py, d1]
          have : ∀ sc sc' : Nat → Nat → Option α, sc = sc' → paint (some (r', k)) sc px py = paint (some (r', k)) sc' px py := by
            rintro _ _ rfl; rfl
          apply this
          split
          · rfl
          · funext px py; exact a4 px py
        · rw [hpast, he, lastJob_calm hcalm, ← hsee]
          by_cases hen : e = en
          · subst hen
            have hq : qs.filter (·.enc == e) = qs := by
              rw [List.filter_eq_self]
              intro q hq
              rw [d3 q hq]; exact beq_self_eq_true _
            refine ⟨fun h => (by rw [d5] at h; cases h), fun i hi => ?_⟩
            rw [d5] at hi
            cases hi
            refine ⟨before, ?_, a7⟩
            rw [a6, hq, see_done d4, if_pos rfl, List.append_assoc]
            unfold rectsOf
            rw [b2]
          · have hq : qs.filter (·.enc == e) = [] := by
              rw [List.filter_eq_nil_iff]
              intro q hq
              rw [d3 q hq]
              simpa using Ne.symm hen
            rw [hq, List.append_nil]
            refine ⟨(a5 e).1, fun i hi => ?_⟩
            obtain ⟨before', b3, b4⟩ := (a5 e).2 i hi
            refine ⟨before', ?_, b4⟩
            rw [b3, see_done d4, if_neg]
            rintro rfl
            obtain ⟨j, p, q, j1, j2⟩ := lastJob_some hi
            obtain ⟨j', p', q', j3, j4⟩ := lastJob_some d5
            exact hen (hk.one _ _ _ _ _ _ _ _ j1 j3 (j2.trans j4.symm))
    · obtain ⟨a1, -⟩ := h.last hl f hd
      rw [c2, a1] at he
      cases he
    · rw [he, List.getLast?_append, g2] at hg
      cases hg

theorem isKept_or {e : Int} : isKept e = true ↔ e = 16 ∨ e = 7 := by
  unfold isKept encZrle encTight
  simp

theorem match_step {lp s s'} (hm : Micro lp table s s') (hk : Kept s.cl s.log) (hen : EncOk s) {v : Viewer α}
    {m : Makers} (h : Match z dec v m s) {es : List Eff} (he : s'.log = s.log ++ es)
    (hf : Faith z dec c v (makers z s.log) es) :
    ∃ m', Match z dec (es.foldl (Viewer.see c) v) m' s' := by
  have hst : s'.cl.st ≠ .ready → s.cl.st ≠ .ready := fun h1 h2 => h1 (micro_ready hm h2)
  have hlost : (es.foldl (Viewer.see c) v).lost = false → v.lost = false := lost_mono
  have hen' := micro_enc hm hen
  rcases micro_adds (z := z) hm hk with ha | ⟨f, hd, h4, rfl⟩ | ⟨h4, env, r, a, n, h5⟩
  · cases micro_seen hm with
    | soft fs h1 h2 h3 =>
      have : fs = es := List.append_cancel_left (h1.symm.trans he)
      subst this
      rw [see_softs h2]
      have hmk : makers z s'.log = makers z s.log := by rw [h1, makers_append, makers_softs h2]
      have hlj : ∀ e, lastJob e s'.log = lastJob e s.log := fun e => by
        rw [h1, lastJob_calm fun e he => calm_soft (h2 e he)]
      refine ⟨m, fun hr => ⟨(h.early (hst hr)).1, adds_noInit ha (h.early (hst hr)).2.1, fun e => by
          rw [hlj]; exact (h.early (hst hr)).2.2 e⟩,
        sync_adds h ha rfl id fun _ sc hh e => by rw [hlj]; exact hh e, by rw [hmk]; exact h.calm,
        fun hl he => h.busy hl (h3 ▸ he), h.idle, fun hl f hd => ?_⟩
      rw [h1] at hd
      obtain ⟨h4, h5⟩ := last_append hd (fun e he h => by rw [h] at he; exact nomatch h2 _ he)
      obtain ⟨a1, a2, r, k, e, i, a3, a4, a5, a6⟩ := h.last hl f h5
      exact ⟨h3.trans a1, by rw [hmk]; exact a2, r, k, e, i, a3, a4, by rw [hlj]; exact a5, a6⟩
    | encode en j f q h1 h2 h3 =>
      have : [.encode en j f q] = es := List.append_cancel_left (h1.symm.trans he)
      subst this
      have hr := micro_ready hm h2
      have hmk : makers z s'.log = (makers z s.log).see z (.encode en j f q) := by rw [h1, makers_append]; rfl
      have hfr : (v.see c (.encode en j f q)).lost = false → v.frame = none ∧ v.lost = false := by
        intro hl
        have : (v.lost || v.frame.isSome) = false := hl
        simp only [Bool.or_eq_false_iff] at this
        exact ⟨by simpa using this.2, this.1⟩
      have hdn : (v.see c (.encode en j f q)).lost = false → v.done = false ∧ m = makers z s.log := by
        intro hl
        obtain ⟨a1, a2⟩ := hfr hl
        have : v.done = false := by
          cases hd : v.done with
          | false => rfl
          | true =>
            have := h.idle a2 hd
            rw [a1] at this
            cases this
        exact ⟨this, h.calm a2 this⟩
      refine ⟨makers z s'.log, fun h => absurd hr h, sync_adds h ha rfl hlost ?_, fun _ _ => rfl, fun hl _ => ⟨rfl, ?_, ?_⟩,
        fun _ _ => rfl, fun hl f hd => ?_⟩
      · intro hl sc hh e
        rw [hmk, (hdn hl).2.symm, h1, lastJob_encode]
        split
        · next hee =>
          subst hee
          refine ⟨nofun, fun i hi => ?_⟩
          cases hi
          show ∃ before, sc.of en = before ++ m.made j.id ∧ _
          rcases hen'.chain s.log [] en j f q h1 with hc | hc
          · rw [(hdn hl).2, makers_made s.log hc]
            refine ⟨sc.of en, (List.append_nil _).symm, fun hkk => ?_⟩
            cases hj : lastJob en s.log with
            | none => exact (hh en).1 hj
            | some i =>
              obtain ⟨j', p', q', b1, b2⟩ := lastJob_some hj
              have k1 := hen'.keep en j' p' q' (by rw [h1]; simp [b1]) (isKept_or.2 hkk)
              have k2 := hen'.keep en j f q (by rw [h1]; simp) (isKept_or.2 hkk)
              rw [k1] at k2
              injection k2 with k2
              exact absurd k2 (hc _ _ _ _ b1)
          · exact (hh en).2 _ hc
        · exact hh e
      · exact (hdn hl).1
      · rw [hmk]; rfl
      · rw [h1, List.getLast?_concat] at hd
        cases hd
    | done f h1 h2 h3 =>
      have : [.encodeDone f] = es := List.append_cancel_left (h1.symm.trans he)
      subst this
      have hlj : ∀ e, lastJob e s'.log = lastJob e s.log := fun e => by
        rw [h1, lastJob_calm (by simp [Eff.calm])]
      refine ⟨m, fun hr => ⟨(h.early (hst hr)).1, adds_noInit ha (h.early (hst hr)).2.1, fun e => by
          rw [hlj]; exact (h.early (hst hr)).2.2 e⟩,
        sync_adds h ha rfl hlost fun _ sc hh e => by rw [hlj]; exact hh e, nofun,
        fun hl he => (by rw [h3] at he; cases he), fun hl _ => ?_, fun hl g hd => ⟨h3, ?_⟩⟩
      · show (v.frame.map _).isSome = true
        rw [Option.isSome_map]
        exact (h.busy hl h2).1
      rw [h1, List.getLast?_concat] at hd
      cases hd
      obtain ⟨hb, hd, hc⟩ := h.busy hl h2
      have hmk := h.calm hl hd
      refine ⟨by rw [h1, makers_append, ← hmk]; rfl, ?_⟩
      obtain ⟨⟨r, k⟩, hv⟩ := Option.isSome_iff_exists.1 hb
      obtain ⟨⟨e, i⟩, hcur⟩ := Option.isSome_iff_exists.1 hc
      refine ⟨r ++ v.wide f, k, e, i, ?_, hcur, ?_, fun before hbf => ?_⟩
      · show v.frame.map _ = _
        rw [hv]; rfl
      · rw [hlj]
        rw [hmk] at hcur
        exact makers_cur _ hcur
      · rw [hmk] at hcur ⊢
        exact hf.1 f r k e i before rfl hv hcur hbf
    | frame f hr h1 h2 =>
      subst h2
      exact match_frame hr h1 hen h he
  · exact match_frame h4 hd hen h he
  · obtain ⟨-, -, ⟨_, _, _, _, _, _, _, _, _, _, _, h3⟩, fs, h6, h7⟩ := hs_frame h4 h5
    have : fs = es := List.append_cancel_left (h6.symm.trans he)
    subst this
    have h7 : ∀ e ∈ fs, soft e = true := fun e he => soft_plain (h7 e he).plain
    rw [see_softs h7]
    have hmk : makers z s'.log = makers z s.log := by rw [h6, makers_append, makers_softs h7]
    have hlj : ∀ e, lastJob e s'.log = lastJob e s.log := fun e => by
      rw [h6, lastJob_calm fun e he => calm_soft (h7 e he)]
    obtain ⟨g1, g2, g5⟩ := h.early h4
    obtain ⟨g3, g4⟩ := hs_sync h4 h5 g2
    refine ⟨m, fun hr => ⟨g1, g4 hr, fun e => by rw [hlj]; exact g5 e⟩, fun b hb hr => ?_, by rw [hmk]; exact h.calm,
      fun hl he => h.busy hl (by rw [h3] at he; exact he), h.idle, fun hl f hd => ?_⟩
    · obtain ⟨i, hi⟩ := g3 b hb hr.short
      refine ⟨b, [], i, [], (List.append_nil b).symm, hi, .nil, fun _ => ⟨fun px py => ?_, fun e => ⟨fun _ => rfl, ?_⟩⟩⟩
      · rw [g1]
        rfl
      · intro i' hi'
        rw [hlj, g5] at hi'
        cases hi'
    · rw [h6] at hd
      obtain ⟨h8, h9⟩ := last_append hd (fun e he h => by rw [h] at he; exact nomatch h7 _ he)
      obtain ⟨a1, a2, r, k, e, i, a3, a4, a5, a6⟩ := h.last hl f h9
      exact ⟨(by rw [h3]; exact a1), by rw [hmk]; exact a2, r, k, e, i, a3, a4, by rw [hlj]; exact a5, a6⟩

/-! ## Runs -/

theorem Match.settle {v : Viewer α} {m : Makers} {s : St} (h : Match z dec v m s) : Match z dec v.settle m s := by
  have hl : v.settle.lost = false → v.lost = false ∧ v.done = false := by
    show (v.lost || v.done) = false → _
    simp only [Bool.or_eq_false_iff]
    exact id
  refine ⟨h.early, fun b hb hr => ?_, fun h1 _ => h.calm (hl h1).1 (hl h1).2, fun h1 => h.busy (hl h1).1,
    fun h1 => h.idle (hl h1).1, fun h1 => h.last (hl h1).1⟩
  obtain ⟨d, r, i, ms, a1, a2, a3, a4⟩ := h.sync b hb hr
  exact ⟨d, r, i, ms, a1, a2, a3, fun h1 => a4 (hl h1).1⟩

theorem step_match {v : Viewer α} {o : Op} {env : Env} {net : List Read} {s s' : St} {m : Makers} (hb : Base s)
    (hl : Lit s.cl s.log) (hk : EncOk s) (h : Match z dec v m s) (e : step table o env net s = .ok s')
    (hf : Faith z dec c v (makers z s.log) (s'.log.drop s.log.length)) :
    Base s' ∧ Lit s'.cl s'.log ∧ EncOk s' ∧
      ∃ m', Match z dec ((s'.log.drop s.log.length).foldl (Viewer.see c) v) m' s' := by
  have key : ∀ t t', Micro true table t t' → Base t →
      (Lit t.cl t.log ∧ EncOk t ∧ ∃ es, t.log = s.log ++ es ∧
        (Faith z dec c v (makers z s.log) es → ∃ m, Match z dec (es.foldl (Viewer.see c) v) m t)) →
      (Lit t'.cl t'.log ∧ EncOk t' ∧ ∃ es, t'.log = s.log ++ es ∧
        (Faith z dec c v (makers z s.log) es → ∃ m, Match z dec (es.foldl (Viewer.see c) v) m t')) := by
    rintro t t' hm - ⟨h1, hk, es, h2, h3⟩
    refine ⟨micro_lit hm h1, micro_enc hm hk, ?_⟩
    have hg : ∃ fs, t'.log = t.log ++ fs := by
      cases micro_seen hm with
      | soft fs h => exact ⟨fs, h⟩
      | encode _ _ _ _ h => exact ⟨_, h⟩
      | done _ h => exact ⟨_, h⟩
      | frame f _ _ h =>
        subst h
        obtain ⟨-, -, -, fs, h5, -⟩ := sendFrame_frame f t
        exact ⟨fs, h5⟩
    obtain ⟨fs, hg⟩ := hg
    refine ⟨es ++ fs, by rw [hg, h2, List.append_assoc], fun hf => ?_⟩
    obtain ⟨f1, f2⟩ := faith_append hf
    rw [List.foldl_append]
    obtain ⟨m, h3⟩ := h3 f1
    rw [← makers_append, ← h2] at f2
    exact match_step hm h1.kept hk h3 hg f2
  obtain ⟨g1, g2, g5, es, g3, g4⟩ := step_inv key hb ⟨hl, hk, [], by simp, fun _ => ⟨m, h⟩⟩ e
  refine ⟨g1, g2, g5, ?_⟩
  rw [g3, List.drop_left] at hf ⊢
  exact g4 hf

theorem watch_match : ∀ (ops : List ((Server.Op × Env × List Read) × Pic α)) {s s' : St} {v v' : Viewer α} {m : Makers},
    Base s → Lit s.cl s.log → EncOk s → Match z dec v m s → Faithful z dec table ops s v →
    watch table ops s v = .ok (s', v') → (ops ≠ [] → v'.lost = false → v'.done = false) ∧ ∃ m', Match z dec v' m' s'
  | [], s, s', v, v', m, _, _, _, h, _, e => by
    cases e; exact ⟨fun h => absurd rfl h, m, h⟩
  | ((o, env, net), c) :: ops, s, s', v, v', m, hb, hl, hk, h, hf, e => by
    obtain ⟨t, ht, e'⟩ := Outcome.bind_eq_ok.1 e
    obtain ⟨f1, f2⟩ := hf t ht
    obtain ⟨g1, g2, g4, m', g3⟩ := step_match hb hl hk h ht f1
    obtain ⟨w1, w2⟩ := watch_match ops g1 g2 g4 g3.settle f2 e'
    refine ⟨fun _ hlo => ?_, w2⟩
    cases ops with
    | cons o ops => exact w1 nofun hlo
    | nil =>
      cases e'
      have : (_ || _) = false := hlo
      simp only [Bool.or_eq_false_iff] at this
      exact this.2

theorem start_match (srv : Srv) (w : Frame → Region) : Match z dec { wide := w } {} (start srv) :=
  ⟨fun _ => ⟨rfl, rfl, fun _ => rfl⟩, (fun _ hb => nomatch hb), (fun _ _ => rfl), (fun _ he => nomatch he),
    (fun _ h => nomatch h), (fun _ _ hd => nomatch hd)⟩

/-- C99, the part that holds: a client that knows nothing but the bytes it is sent, and draws what it
decodes, has the same pixels on its screen as the viewer of C97 that looks into the server. -/
theorem c99_decoded_partial {srv : Srv} {ops : List ((Server.Op × Env × List Read) × Pic α)} {s : St} {v : Viewer α}
    {w : Frame → Region} (e : watch table ops (start srv) { wide := w } = .ok (s, v))
    (hf : Faithful z dec table ops (start srv) { wide := w })
    (hr : Readable z s.log) (hl : v.lost = false) {b : Bytes} (hb : session s.log = some b) :
    ∃ i ms, readSession z b = some (i, ms) ∧ ∀ px py, (canvas dec ms).pix px py = v.screen px py := by
  obtain ⟨-, m, h⟩ := watch_match ops (start_base srv) (System.lit_start srv) (start_enc srv) (start_match srv w) hf e
  obtain ⟨d, r, i, ms, h1, h2, h3, h4⟩ := h.sync b hb hr
  refine ⟨i, ms, ?_, (h4 hl).1⟩
  unfold readSession
  rw [h1, h2]
  dsimp only
  rw [h3.readMsgs (Nat.le_refl _)]
  rfl

/-- C99: together with C97, every pixel the client has decoded has the colour that the application
displays, unless it is in damage that is still to be sent; and every pixel that it has asked for is there. -/
theorem c99_shown_partial {srv : Srv} {ops : List ((Server.Op × Env × List Read) × Pic α)} {c₀ : Pic α} {s : St}
    {v : Viewer α} {px py : Nat} {w : Frame → Region}
    (e : watch table ops (start srv) { wide := w } = .ok (s, v)) (hh : Honest c₀ ops)
    (hfa : Faithful z dec table ops (start srv) { wide := w }) (hre : Readable z s.log)
    (hc : s.cl.closed = false) (hf : s.cl.freed = false) (hl : v.lost = false) (hok : .encodeFail ∉ s.log)
    (hin : Fits s.log px py) (he : s.cl.encoding = false) (hd : ¬ s.cl.damage.Has px py) {b : Bytes}
    (hb : session s.log = some b) :
    ∃ i ms, readSession z b = some (i, ms) ∧
      (∀ a, (canvas dec ms).pix px py = some a → a = final c₀ ops px py) ∧
      (Asked s.log px py → (canvas dec ms).pix px py = some (final c₀ ops px py)) := by
  obtain ⟨i, ms, h1, h2⟩ := c99_decoded_partial e hfa hre hl hb
  obtain ⟨h3, h4⟩ := c97_shown_partial e hh hc hf hl hok hin he hd
  refine ⟨i, ms, h1, fun a ha => ?_, fun ha => ?_⟩
  · rw [h2] at ha
    exact h3 _ ha
  · rw [h2]; exact h4 ha

/-- C100, in runs like those of C99 in which no frame is lost: the client has been sent all ZRLE rectangles that its
ZRLE encoder made, in order; so it has all of the compressed stream.  The same holds for Tight. -/
theorem c100_complete_partial {srv : Srv} {ops : List ((Server.Op × Env × List Read) × Pic α)} {s : St} {v : Viewer α}
    {w : Frame → Region} (e : watch table ops (start srv) { wide := w } = .ok (s, v))
    (hf : Faithful z dec table ops (start srv) { wide := w })
    (hr : Readable z s.log) (hl : v.lost = false) {b : Bytes} (hb : session s.log = some b)
    {en : Int} {j : Job} {p : PixFmt} {q : Int} (hj : .encode en j p q ∈ s.log) (hen : en = 16 ∨ en = 7) :
    ∃ i ms, readSession z b = some (i, ms) ∧ (canvas dec ms).of en = (makers z s.log).made j.id := by
  obtain ⟨hdone, m, h⟩ := watch_match ops (start_base srv) (System.lit_start srv) (start_enc srv) (start_match srv w) hf e
  have hk := (run_inv (fun _ _ hm _ => micro_enc hm) _ (start_base srv) (start_enc srv) (watch_run ops e)).2
  obtain ⟨d, r, i, ms, h1, h2, h3, h4⟩ := h.sync b hb hr
  have hne : ops ≠ [] := by
    rintro rfl
    cases e
    cases hb
  have hm := h.calm hl (hdone hne hl)
  refine ⟨i, ms, ?_, ?_⟩
  · unfold readSession
    rw [h1, h2]
    dsimp only
    rw [h3.readMsgs (Nat.le_refl _)]
    rfl
  · obtain ⟨-, h5⟩ := (h4 hl).2 en
    cases hlj : lastJob en s.log with
    | none => exact absurd hj (lastJob_none hlj _ _ _)
    | some i =>
      obtain ⟨before, h6, h7⟩ := h5 i hlj
      obtain ⟨j', p', q', k1, k2⟩ := lastJob_some hlj
      have k3 := hk.keep _ _ _ _ hj (isKept_or.2 hen)
      rw [hk.keep _ _ _ _ k1 (isKept_or.2 hen)] at k3
      injection k3 with k3
      rw [h6, h7 hen, List.nil_append, ← hm, ← k3, k2]

/-! ## The raw encoder -/

open Verif.Enc Verif.Pixels Verif.Vec

theorem drop_flatMap {β γ : Type} {f : β → List γ} {k : Nat} (hf : ∀ a, (f a).length = k) :
    ∀ (n : Nat) {l : List β} {a : β}, l[n]? = some a → ∃ rest, (l.flatMap f).drop (n * k) = f a ++ rest
  | _, [], _, h => by simp at h
  | 0, b :: l, a, h => by
    have : b = a := by simpa using h
    subst this
    exact ⟨l.flatMap f, by simp⟩
  | n + 1, b :: l, a, h => by
    obtain ⟨rest, hr⟩ := drop_flatMap hf n (l := l) (a := a) (by simpa using h)
    refine ⟨rest, ?_⟩
    rw [List.flatMap_cons, Nat.add_mul, Nat.one_mul, Nat.add_comm, ← List.drop_drop, ← hf b, List.drop_left, hf b]
    exact hr

/-- the bytes of a pixel in a rectangle -/
theorem cell_bytes {pix : Nat × Nat → Bytes} {k : Nat} (hp : ∀ a, (pix a).length = k) {b : Box} {i j : Nat}
    (hi : i < b.w) (hj : j < b.h) :
    ((b.cells.flatMap pix).drop ((j * b.w + i) * k)).take k = pix (b.x1 + i, b.y1 + j) := by
  have h1 : b.cells.flatMap pix = (List.range b.h).flatMap fun j => (List.range b.w).flatMap fun i =>
      pix (b.x1 + i, b.y1 + j) := by
    unfold Box.cells
    rw [List.flatMap_assoc]
    simp only [List.flatMap_map]
  have h2 : ∀ j, ((List.range b.w).flatMap fun i => pix (b.x1 + i, b.y1 + j)).length = b.w * k := by
    intro j
    rw [flatMap_length (fun a => hp _), List.length_range]
  obtain ⟨r1, e1⟩ := drop_flatMap h2 j (l := List.range b.h) (a := j) (by simp [hj])
  obtain ⟨r2, e2⟩ := drop_flatMap (f := fun i => pix (b.x1 + i, b.y1 + j)) (k := k) (fun a => hp _) i
    (l := List.range b.w) (a := i) (by simp [hi])
  have h3 : (j * b.w + i) * k = j * (b.w * k) + i * k := by rw [Nat.add_mul, Nat.mul_assoc]
  rw [h1, h3, ← List.drop_drop, e1, List.drop_append_of_le_length (by
    rw [h2]; exact Nat.mul_le_mul_right k (Nat.le_of_lt hi)), e2, List.append_assoc, ← hp (b.x1 + i, b.y1 + j),
    List.take_left]

/-- the rectangles that were drawn last are on the screen -/
theorem draw_rects {e : Int} (he : isPixels e = true) {px py : Nat} : ∀ (qs : List RectMsg) (sc : Canvas α),
    (∀ q ∈ qs, q.enc = e) →
    (qs.foldl (draw1 dec) sc).pix px py = sc.pix px py ∧ (∀ q ∈ qs, ¬ q.Has px py) ∨
    ∃ a q b, qs = a ++ q :: b ∧ q.Has px py ∧ (qs.foldl (draw1 dec) sc).pix px py = some (dec (sc.of e ++ a) q px py)
  | [], sc, _ => .inl ⟨rfl, by simp⟩
  | q :: qs, sc, h => by
    rw [List.foldl_cons]
    have hq : isPixels q.enc = true := by rw [h q (by simp)]; exact he
    rcases draw_rects he qs (draw1 dec sc q) (fun q hq => h q (by simp [hq])) with ⟨h1, h2⟩ | ⟨a, q', b, h1, h2, h3⟩
    · rw [h1]
      unfold draw1
      rw [if_pos hq]
      by_cases hqq : q.Has px py
      · refine .inr ⟨[], q, qs, rfl, hqq, ?_⟩
        rw [List.append_nil, ← h q (by simp)]
        exact if_pos hqq
      · refine .inl ⟨if_neg hqq, fun q' hq' => ?_⟩
        rcases List.mem_cons.1 hq' with rfl | hq'
        · exact hqq
        · exact h2 q' hq'
    · refine .inr ⟨q :: a, q', b, by rw [h1]; rfl, h2, ?_⟩
      rw [h3]
      have : (draw1 dec sc q).of e = sc.of e ++ [q] := by
        unfold draw1 Canvas.of
        rw [if_pos hq]
        dsimp only
        rw [List.filter_append]
        congr 1
        simp [h q (by simp)]
      rw [this, List.append_assoc]
      rfl

/-- A frame draws a picture if each of its rectangles has the right pixels, in the region, and
the region is covered. -/
theorem draws_of {f : Frame} {r : Region} {k : Pic α} {e : Int} {past qs : List RectMsg} (he : isPixels e = true)
    (h1 : readRects z f.nRects f.payload = some (qs, [])) (h0 : ∀ q ∈ qs, q.enc = e)
    (h2 : ∀ a q b, qs = a ++ q :: b → ∀ px py, q.Has px py → r.Has px py ∧ dec (past ++ a) q px py = k px py)
    (h3 : ∀ px py, r.Has px py → ∃ q ∈ qs, q.Has px py) : Draws z dec e past f r k := by
  refine ⟨he, qs, h1, h0, fun sc hs px py => ?_⟩
  unfold paint
  dsimp only
  rcases draw_rects (dec := dec) he (px := px) (py := py) qs sc h0 with ⟨g1, g2⟩ | ⟨a, q, b, g1, g2, g3⟩
  · rw [g1, if_neg]
    intro hr
    obtain ⟨q, a1, a2⟩ := h3 px py hr
    exact g2 q a1 a2
  · obtain ⟨a1, a2⟩ := h2 a q b g1 px py g2
    rw [g3, if_pos a1, hs, a2]

/-- C99, the raw encoder: what it writes for a region of a framebuffer draws the framebuffer's colours in that
region and nothing else, if the region has less than 65536 rectangles. -/
theorem c99_raw_partial {m0 : Heap} {m : Nat → Heap} (hm0 : Plenty m0) (hm : ∀ i, Plenty (m i))
    {fb : Enc.Fb} (hf : fb.Ok) (hp : Plain fb.f) (hw : fb.width < 65536) (hh : fb.height < 65536)
    {dst : PixFmt} {l : Pixels.Layout} (hd : Sane dst l) (hz : z.pixel = dst.bpp / 8)
    {bs : List Box} (hb : ∀ b ∈ bs, b.In fb) (hn : bs.length < 65536) {r : Region}
    (hreg : ∀ px py, r.Has px py ↔ ∃ b ∈ bs, b.has px py) :
    ∃ p n, rawWork m0 m 0 0 dst fb bs = .ok (p, n) ∧
      ∀ (f : Frame) past, f.payload = p → f.nRects = n →
        Draws z (rawDec z.pixel (pixVal dst l)) 0 past f r (fbPic fb l) := by
  obtain ⟨pix, h1, rects, h2, -, h4, -, h3⟩ := c46_raw_partial hm0 hm (xpos := 0) (ypos := 0) hf hp hd hb
  have h4 := h4 hn
  subst h4
  have hl : ∀ a, (pix a).length = z.pixel := fun a => by rw [hz]; exact (h1 a.1 a.2).1
  refine ⟨_, _, h3, fun f past e1 e2 => draws_of rfl (by
    rw [e1, e2]
    exact read_raws hl fun b hb => small_in (by omega) (by omega) (h2 b hb)) (fun q hq => ?_)
    (fun a q b hq px py hh => ?_) fun px py hr => ?_⟩
  · obtain ⟨b, b1, rfl⟩ := List.mem_map.1 hq
    rfl
  · obtain ⟨b, b1, rfl⟩ := List.mem_map.1 (show q ∈ _ from by rw [hq]; simp)
    have hb : b.has px py := by
      unfold RectMsg.Has Box.w Box.h at hh
      dsimp only at hh
      exact ⟨by omega, by omega, by omega, by omega⟩
    refine ⟨(hreg px py).2 ⟨b, b1, hb⟩, ?_⟩
    obtain ⟨a1, a2, a3, a4⟩ := hb
    have hi : px - b.x1 < b.w := by unfold Box.w; omega
    have hj : py - b.y1 < b.h := by unfold Box.h; omega
    have := cell_bytes hl hi hj
    rw [show b.x1 + (px - b.x1) = px by omega, show b.y1 + (py - b.y1) = py by omega] at this
    unfold rawDec
    dsimp only
    rw [Nat.zero_add, Nat.zero_add, this]
    funext ch
    exact (h1 px py).2.1 ch
  · obtain ⟨b, b1, a1, a2, a3, a4⟩ := (hreg px py).1 hr
    refine ⟨_, List.mem_map.2 ⟨b, b1, rfl⟩, ?_⟩
    unfold RectMsg.Has Box.w Box.h
    dsimp only
    exact ⟨by omega, by omega, by omega, by omega⟩

/-- two boxes of a framebuffer of three by two pixels, in 16 bits -/
example := c99_raw_partial (z := ⟨2, 2⟩) (m0 := fun _ => some fun _ => 0) (m := fun _ _ => some fun _ => 0) (fun _ => rfl)
  (fun _ _ => rfl) demoFb_ok (by decide) (by decide) (by decide) sane565 (by decide)
  (bs := [⟨0, 0, 2, 1⟩, ⟨2, 0, 3, 2⟩]) (by decide) (by decide) (r := [⟨0, 0, 2, 1⟩, ⟨2, 0, 1, 2⟩]) (by
    intro px py
    simp only [Region.Has, Box.has, List.mem_cons, List.not_mem_nil, or_false, exists_eq_or_imp, exists_eq_left])

/-! ## A session -/

/-- `Draws` for a raw frame, checked pixel by pixel -/
def drawsB [DecidableEq α] (z : Sizes) (val : Bytes → α) (f : Frame) (r : Region) (k : Pic α) : Bool :=
  match readRects z f.nRects f.payload with
  | some (qs, []) =>
    (qs.all fun q => decide (q.enc = 0) && (List.range q.w).all fun i => (List.range q.h).all fun j =>
      decide (r.Has (q.x + i) (q.y + j)) &&
        decide (rawDec z.pixel val [] q (q.x + i) (q.y + j) = k (q.x + i) (q.y + j))) &&
    r.all fun p => (List.range p.w).all fun i => (List.range p.h).all fun j => qs.any fun q =>
      decide (q.x ≤ p.x + i) && decide (p.x + i < q.x + q.w) && decide (q.y ≤ p.y + j) && decide (p.y + j < q.y + q.h)
  | _ => false

theorem draws_check [DecidableEq α] {val : Bytes → α} {f : Frame} {r : Region} {k : Pic α} {past : List RectMsg}
    (h : drawsB z val f r k = true) : Draws z (rawDec z.pixel val) 0 past f r k := by
  unfold drawsB at h
  split at h
  · rename_i qs hq
    simp only [Bool.and_eq_true, List.all_eq_true, List.any_eq_true, List.mem_range, decide_eq_true_eq] at h
    refine draws_of rfl hq (fun q hm => (h.1 q hm).1) (fun a q b hm px py => ?_) fun px py hr => ?_
    · obtain ⟨-, h2⟩ := h.1 q (by rw [hm]; simp)
      rintro ⟨a1, a2, a3, a4⟩
      have := h2 (px - q.x) (by omega) (py - q.y) (by omega)
      rwa [show q.x + (px - q.x) = px by omega, show q.y + (py - q.y) = py by omega] at this
    · obtain ⟨p, hp, a1, a2, a3, a4⟩ := hr
      obtain ⟨q, b1, ⟨⟨b2, b3⟩, b4⟩, b5⟩ := h.2 p hp (px - p.x) (by omega) (py - p.y) (by omega)
      exact ⟨q, b1, by omega, by omega, by omega, by omega⟩
  · cases h

def faithB [DecidableEq α] (z : Sizes) (val : Bytes → α) (c : Pic α) : Viewer α → Makers → List Eff → Bool
  | _, _, [] => true
  | v, m, e :: es => (match e, v.frame, m.cur with
      | .encodeDone f, some (r, k), some (e, _) => e == 0 && drawsB z val f (r ++ v.wide f) k
      | _, _, _ => true) && faithB z val c (v.see c e) (m.see z e) es

theorem faith_check [DecidableEq α] {val : Bytes → α} : ∀ {v : Viewer α} {m : Makers} {es : List Eff},
    faithB z val c v m es = true → Faith z (rawDec z.pixel val) c v m es
  | _, _, [], _ => trivial
  | v, m, e :: es, h => by
    unfold faithB at h
    simp only [Bool.and_eq_true] at h
    refine ⟨fun f r k en i before he hv hc _ => ?_, faith_check h.2⟩
    have := h.1
    rw [he, hv, hc] at this
    simp only [Bool.and_eq_true, beq_iff_eq] at this
    rw [this.1]
    exact draws_check this.2

def faithfulB [DecidableEq α] (z : Sizes) (val : Bytes → α) (table : List Nat) :
    List ((Server.Op × Env × List Read) × Pic α) → St → Viewer α → Bool
  | [], _, _ => true
  | ((o, env, net), c) :: ops, s, v =>
    match step table o env net s with
    | .ok s' => faithB z val c v (makers z s.log) (s'.log.drop s.log.length) &&
      faithfulB z val table ops s' ((s'.log.drop s.log.length).foldl (Viewer.see c) v).settle
    | _ => true

theorem faithful_check [DecidableEq α] {val : Bytes → α} :
    ∀ {ops : List ((Server.Op × Env × List Read) × Pic α)} {s : St} {v : Viewer α},
    faithfulB z val table ops s v = true → Faithful z (rawDec z.pixel val) table ops s v
  | [], _, _, _ => trivial
  | ((o, env, net), c) :: ops, s, v, h => by
    intro s' hs
    unfold faithfulB at h
    rw [hs] at h
    simp only [Bool.and_eq_true] at h
    exact ⟨faith_check h.1, faithful_check h.2⟩

/-- a black picture, and one with a dot; both in bytes -/
def black : Pic Bytes := fun _ _ => [0, 0, 0, 0]
def withDot : Pic Bytes := fun px py => if px = 1 ∧ py = 2 then [9, 8, 7, 6] else [0, 0, 0, 0]

/-- the whole screen in raw encoding -/
def blackFrame : Frame := { demoFrame with nRects := 1, payload := Server.rectHead 0 0 4 3 0 ++ List.replicate 48 0 }

/-- a client enters and asks for the screen; while the frame is in the encoder, the application puts a dot
in it; the client asks for more, gets the dot, and asks again -/
def dotSession : List ((Server.Op × Env × List Read) × Pic Bytes) :=
  (enter [0] ++ [reads fullReq]).map (·, black) ++
  [((.damage [⟨1, 2, 1, 1⟩], cursorEnv, []), withDot), ((.encoded blackFrame, cursorEnv, []), withDot),
   (reads (Msg.fbRequest 1 ⟨0, 0, 4, 3⟩).wire, withDot), ((.written, cursorEnv, []), withDot),
   ((.encoded dotFrame, cursorEnv, []), withDot), ((.written, cursorEnv, []), withDot),
   (reads (Msg.fbRequest 1 ⟨0, 0, 4, 3⟩).wire, withDot)]

/-- the session meets the conditions of the theorems above, and the client has decoded the dot -/
theorem dot_faithful : Faithful four (rawDec 4 id) [] dotSession (start demoSrv) {} :=
  faithful_check (by decide +kernel)

theorem black_honest : Honest black dotSession := by
  unfold dotSession
  refine honest_same ⟨fun px py hn => ?_, ?_⟩
  · refine ⟨_, rfl, _, List.mem_singleton.2 rfl, ?_⟩
    unfold withDot black at hn
    split at hn
    · dsimp only; omega
    · exact absurd rfl hn
  · exact honest_same (ops := [(.encoded blackFrame, cursorEnv, []), reads (Msg.fbRequest 1 ⟨0, 0, 4, 3⟩).wire,
      (.written, cursorEnv, []), (.encoded dotFrame, cursorEnv, []), (.written, cursorEnv, []),
      reads (Msg.fbRequest 1 ⟨0, 0, 4, 3⟩).wire]) (rest := []) trivial

example : (match watch [] dotSession (start demoSrv) {} with
    | .ok (s, v) => readableB four s.log && !s.cl.closed && !s.cl.freed && !v.lost && !s.log.contains .encodeFail &&
      !s.cl.encoding && decide (¬ s.cl.damage.Has 1 2) && decide (Fits s.log 1 2) && decide (Asked s.log 1 2) &&
      ((session s.log).bind (readSession four)).any fun q =>
        (canvas (rawDec 4 id) q.2).pix 1 2 == some [9, 8, 7, 6] && (canvas (rawDec 4 id) q.2).pix 3 0 == some [0, 0, 0, 0] && (canvas (rawDec 4 id) q.2).pix 4 0 == none
    | _ => false) = true := by decide +kernel

/-- what the client has at the place of the dot, and at a place where nothing happened, by the theorem -/
example {s : St} {v : Viewer Bytes} (e : watch [] dotSession (start demoSrv) {} = .ok (s, v)) :
    ∃ b i ms, session s.log = some b ∧ readSession four b = some (i, ms) ∧
      (canvas (rawDec 4 id) ms).pix 1 2 = some [9, 8, 7, 6] ∧ (canvas (rawDec 4 id) ms).pix 3 0 = some [0, 0, 0, 0] := by
  have h : (match watch [] dotSession (start demoSrv) {} with
    | .ok (s, v) => readableB four s.log && !s.cl.closed && !s.cl.freed && !v.lost && !s.log.contains .encodeFail &&
      !s.cl.encoding && (session s.log).isSome && decide (¬ s.cl.damage.Has 1 2) && decide (Fits s.log 1 2) &&
      decide (Asked s.log 1 2) && decide (¬ s.cl.damage.Has 3 0) && decide (Fits s.log 3 0) && decide (Asked s.log 3 0)
    | _ => false) = true := by decide +kernel
  rw [e] at h
  simp only [Bool.and_eq_true, Bool.not_eq_true', decide_eq_true_eq] at h
  obtain ⟨⟨⟨⟨⟨⟨⟨⟨⟨⟨⟨⟨h1, h2⟩, h3⟩, h4⟩, h5⟩, h6⟩, h7⟩, h8⟩, h9⟩, h10⟩, h11⟩, h12⟩, h13⟩ := h
  obtain ⟨b, hb⟩ := Option.isSome_iff_exists.1 h7
  have h5 : Eff.encodeFail ∉ s.log := fun hm => by simp [hm] at h5
  obtain ⟨i, ms, g1, -, g2⟩ := c99_shown_partial e black_honest dot_faithful (readable_of h1) h2 h3 h4 h5 h9 h6 h8 hb
  obtain ⟨i', ms', g1', -, g2'⟩ := c99_shown_partial e black_honest dot_faithful (readable_of h1) h2 h3 h4 h5 h12 h6 h11 hb
  cases g1.symm.trans g1'
  exact ⟨b, i, ms, hb, g1, g2 h10, g2' h13⟩

/-! ## Gaps in a compressed stream -/

/-- a ZRLE rectangle with some compressed data -/
def zrleFrame (data : Bytes) : Frame :=
  { demoFrame with nRects := 1, payload := Server.rectHead 0 0 4 3 16 ++ be32 data.length ++ data }

/-- C100 is false: when a client that does not know fences selects its encodings while a frame is in the ZRLE
encoder, the frame is thrown away (server.c 2521-2529), but the encoder's compressor has gone on.  The client gets
the next ZRLE frame without the one before it: a piece is missing in the middle of its compressed stream, which it
cannot decompress any more. -/
theorem c100_gap_violated : ∃ s b i ms j p q q1 q2, run [] (enter [16] ++ [reads fullReq,
      reads (Msg.setEncodings 0 [16, -223]).wire, (.encoded (zrleFrame [1, 2, 3]), cursorEnv, []),
      reads fullReq, (.encoded (zrleFrame [4, 5]), cursorEnv, [])]) (start demoSrv) = .ok s ∧
    s.cl.closed = false ∧ Readable four s.log ∧ .encode 16 j p q ∈ s.log ∧
    session s.log = some b ∧ readSession four b = some (i, ms) ∧
    (makers four s.log).made j.id = [q1, q2] ∧ (canvas (rawDec 4 id) ms).of 16 = [q2] ∧
    q1.body = [0, 0, 0, 3, 1, 2, 3] ∧ q2.body = [0, 0, 0, 2, 4, 5] := by
  have h : runCheck (enter [16] ++ [reads fullReq,
      reads (Msg.setEncodings 0 [16, -223]).wire, (.encoded (zrleFrame [1, 2, 3]), cursorEnv, []),
      reads fullReq, (.encoded (zrleFrame [4, 5]), cursorEnv, [])]) (fun s => !s.cl.closed && readableB four s.log &&
        (s.log.any fun x => match x with | .encode 16 j _ _ => j.id == 0 | _ => false) &&
        (session s.log).any fun b => (readSession four b).any fun q =>
          decide ((makers four s.log).made 0 = [⟨0, 0, 4, 3, 16, [0, 0, 0, 3, 1, 2, 3]⟩, ⟨0, 0, 4, 3, 16, [0, 0, 0, 2, 4, 5]⟩]) &&
          decide ((canvas (rawDec 4 id) q.2).of 16 = [⟨0, 0, 4, 3, 16, [0, 0, 0, 2, 4, 5]⟩])) = true := by decide +kernel
  unfold runCheck at h
  split at h
  · rename_i s hs
    simp only [Bool.and_eq_true, Bool.not_eq_true', List.any_eq_true, Option.any_eq_true_iff_get, decide_eq_true_eq] at h
    obtain ⟨⟨⟨h1, h2⟩, x, h3, h4⟩, hb, hr, h5, h6⟩ := h
    split at h4
    · rename_i j p q
      have hj : j.id = 0 := by simpa using h4
      refine ⟨s, _, _, _, j, p, q, _, _, hs, h1, readable_of h2, h3, (Option.some_get hb).symm, (Option.some_get hr).symm,
        by rw [hj]; exact h5, h6, rfl, rfl⟩
    · cases h4
  · cases h

end Verif.Wire
