import Verif.Lemmas.Flow
import Verif.Lemmas.Messages
import Verif.Spec.Segmentation

/-!
# Lemmas for the segmentation theorem
-/

namespace Verif.Server

variable {table : List Nat} {env : Env} {r : St → Outcome St}

theorem recognised_supported (x : Bool) (e : Int) :
    recognised x e = decide (e ∈ supported x) := by
  unfold recognised supported
  cases x <;>
    simp [encRaw, encCopyRect, encRre, encHextile, encTight, encTrle, encZrle, encH264, encCursor,
      encDesktopSize, encExtDesktopSize, encQemuKey, encQemuLed, encVmwareLed, encExtClipboard,
      encContUpdates, encFence, encPts, encNtp, Bool.or_assoc, Bool.beq_eq_decide_eq]

/-- the part of a client that ordinary messages leave alone -/
def Client.core (c : Client) : CState × Bool × Bool × Bool × Nat × Bool × Option Cut × Bytes × Nat :=
  (c.st, c.mustBlock, c.closed, c.closePending, c.nDefer, c.freed, c.cut, c.buf, c.idx)

structure Did (cs : List Eff) (g : Settings) (s s' : St) : Prop where
  net : s'.net = s.net
  core : s'.cl.core = s.cl.core
  blocked : s'.cl.blocked = true → s.cl.blocked = true
  settings : s'.cl.settings = g
  calls : callbacks s'.log = callbacks s.log ++ cs

theorem Did.trans {cs ds g h} {s t u : St} (a : Did cs g s t) (b : Did ds h t u) :
    Did (cs ++ ds) h s u :=
  ⟨b.net.trans a.net, b.core.trans a.core, a.blocked ∘ b.blocked, b.settings,
    by rw [b.calls, a.calls, List.append_assoc]⟩

theorem flowEff_callback {s e} (h : FlowEff env s e) : e.isCallback = false := by
  rcases h with ⟨-, k, b, -, rfl⟩ | ⟨fb, d, f, q, -, rfl⟩ | rfl <;> rfl

theorem FlowFrame.did {s s'} (h : FlowFrame env s s') : Did [] s.cl.settings s s' := by
  obtain ⟨-, h1, ⟨_, _, _, _, _, _, _, _, _, _, _, _, _, _, _, _, _, _, _, _, h2⟩, h3, -, es, h4, h5⟩ := h
  refine ⟨h1, by rw [h2]; rfl, h3, by rw [h2]; rfl, ?_⟩
  rw [h4, List.append_nil]
  unfold callbacks
  rw [List.filter_append, (List.filter_eq_nil_iff (l := es)).2 (fun e he => ?_), List.append_nil]
  rw [flowEff_callback (h5 e he)]; exact Bool.false_ne_true

theorem Did.upd (s) {f : Client → Client} {g : Settings} (h : (f s.cl).core = s.cl.core)
    (hb : (f s.cl).blocked = true → s.cl.blocked = true) (hg : (f s.cl).settings = g := by rfl) :
    Did [] g s (s.upd f) :=
  ⟨rfl, h, hb, hg, by simp⟩

theorem Did.send (k b) (s : St) {g : Settings} (hg : s.cl.settings = g := by rfl) :
    Did [] g s (send k b s) :=
  ⟨by simp, by simp, by simp, by simpa using hg, by
    rw [send_log]; split <;> simp [callbacks, List.filter_append, Eff.isCallback]⟩

theorem Did.emit {e} (s : St) {g : Settings} (h : e.isCallback = true)
    (hg : s.cl.settings = g := by rfl) : Did [e] g s (emit e s) :=
  ⟨rfl, rfl, id, hg, by simp [callbacks, List.filter_append, h]⟩

theorem Did.ghost {e} (s : St) {g : Settings} (h : e.isCallback = false)
    (hg : s.cl.settings = g := by rfl) : Did [] g s (Verif.Server.emit e s) :=
  ⟨rfl, rfl, id, hg, by simp [callbacks, List.filter_append, h]⟩

theorem Did.refl (s : St) {g : Settings} (hg : s.cl.settings = g := by rfl) : Did [] g s s :=
  ⟨rfl, rfl, id, hg, by simp⟩

theorem sendPing_did {n s s'} (e : sendPing env n s = .ok s') : Did [] s.cl.settings s s' :=
  (sendPing_flow e).did

theorem notifyCont_did (s : St) : Did [] s.cl.settings s (notifyCont s) := by
  unfold notifyCont
  split
  · exact (Did.upd s (f := fun k => { k with contNotified := true }) rfl id).trans (.send _ _ _)
  · exact .refl _

theorem forgetSize_did (i) (s : St) {g : Settings} (hg : s.cl.settings = g := by rfl) :
    Did [] g s (forgetSize i s) := by
  subst hg
  unfold forgetSize
  split
  · exact .upd s rfl id
  · exact .refl _

/-- the effect of a complete message -/
theorem msg_complete {s s' : St} {m : Msg} {n : Nat} {rest : Bytes} (hn : s.net = [])
    (hr : s.cl.st = .ready) (hf : m.Fits)
    (hq : ∀ p flags payload, m = .fence p flags payload → flags < 2147483648)
    (hs : ∀ inc q, m = .fbRequest inc q → ¬ (inc ≠ 0 ∧ s.cl.cont = true))
    (e : tryRead env table reenterInHandler s (m.wire ++ rest) = .ok (s', n)) :
    n = m.wire.length ∧ Did (m.calls table) (m.apply env.experimental s.cl.settings) s s' := by
  cases m with
  | key d p sym =>
    rw [msg_key hr hf] at e
    cases e
    exact ⟨rfl, .emit s rfl⟩
  | pointer mk x y =>
    rw [msg_pointer hr hf.1 hf.2] at e
    cases e
    exact ⟨rfl, .emit s rfl⟩
  | cutText p text =>
    by_cases hl : text.length ≤ maxCutText
    · rw [msg_cutText hr hl] at e
      cases e
      refine ⟨by simp [Msg.wire]; omega, .emit s rfl⟩
    · rw [msg_cutText_long hr hf (by omega)] at e
      cases e
  | qemuKey d sym code =>
    cases hv : table[code]? with
    | none => rw [msg_qemuKey_out hr hf.2.2 hv] at e; cases e
    | some v =>
      rw [msg_qemuKey hr hf.1 hf.2.2 hv] at e
      cases e
      refine ⟨rfl, ?_⟩
      simp only [Msg.calls, hv]
      exact .emit s rfl
  | setPixelFormat p f =>
    by_cases ht : f.trueColour = 0
    · rw [msg_pixmap hr ht] at e
      cases e
      refine ⟨rfl, ?_⟩
      simp only [Msg.apply, if_pos ht]
      have h1 : Did [] _ s (s.upd fun k => { k with pix := cookedFmt }) := .upd s rfl id
      have h1 := h1.trans (.ghost (e := .pixFmt cookedFmt) _ rfl)
      have h2 := h1.trans (.send .colourMap rgb332Map _)
      exact h2.trans (.upd _ rfl id (by rw [send_cl]; rfl))
    · rw [msg_pixfmt hr hf ht] at e
      cases e
      refine ⟨rfl, ?_⟩
      simp only [Msg.apply, if_neg ht]
      exact (Did.upd s (f := fun k => { k with pix := f, formatsChanged := true }) rfl id).trans (.ghost _ rfl)
  | setEncodings p es =>
    rw [msg_setEncodings hr hf.1] at e
    generalize hsc : scanEncodings env.experimental (es.flatMap wire32) [] 10 = sc at e
    obtain ⟨encs, q⟩ := sc
    dsimp only at e
    obtain ⟨t, ht, e⟩ := Outcome.bind_eq_ok.1 e
    cases e
    refine ⟨by
      simp only [Msg.wire, List.length_append, flatMap_wire32_length]; simp; omega, ?_⟩
    have henc : encs = (es.filter fun e => decide (e ∈ supported env.experimental)).take 32 := by
      have := scan_encodings (x := env.experimental) es hf.2 [] 10 (by simp)
      rw [hsc] at this
      rw [show (encs, q).1 = encs from rfl] at this
      rw [this]
      simp only [List.nil_append, List.length_nil]
      congr 1
      exact congrArg (List.filter · es) (funext (recognised_supported _))
    have h1 : Did [] ((Msg.setEncodings p es).apply env.experimental s.cl.settings) s
        (emit (.encodings encs) (s.upd fun k => { k with encodings := encs, quality := q, formatsChanged := true })) := by
      have := (Did.upd s (f := fun k => { k with encodings := encs, quality := q, formatsChanged := true }) rfl id).trans
        (Did.ghost (e := .encodings encs) _ rfl)
      rw [henc] at this ⊢
      exact this
    generalize emit (.encodings encs) (s.upd (fun k => { k with encodings := encs, quality := q, formatsChanged := true })) = s1 at ht h1
    have h2 := notifyCont_did s1
    rw [h1.settings] at h2
    generalize notifyCont s1 = s2 at ht h2
    have h3 : Did [] s2.cl.settings s2 (if hasEnc s2.cl encExtClipboard = true then sendClipCaps s2 else s2) := by
      split
      · exact .send _ _ _
      · exact .refl _
    rw [h2.settings] at h3
    generalize (if hasEnc s2.cl encExtClipboard = true then sendClipCaps s2 else s2) = s3 at ht h3
    have h4 := sendPing_did ht
    rw [h3.settings] at h4
    exact ((h1.trans h2).trans h3).trans h4
  | setDesktopSize p w h fl ss =>
    rw [msg_setDesktopSize hr hf] at e
    injection e with e; injection e with e en; subst e en
    refine ⟨by simp only [Msg.wire, List.length_append, flatMap_screen_length]; simp, ?_⟩
    have hc : (checkLayout env { w := w, h := h, screens := ss }).2 = true ↔
        ∀ d ∈ ss, d.x + d.w ≤ w ∧ d.y + d.h ≤ h := by
      unfold checkLayout
      dsimp only
      rw [← show (ss.all (fun d => decide (d.x + d.w ≤ w) && decide (d.y + d.h ≤ h))) = true ↔
        ∀ d ∈ ss, d.x + d.w ≤ w ∧ d.y + d.h ≤ h by simp]
      split
      · rename_i hh
        simp only [hh, iff_true]
        split <;> rfl
      · rename_i hh
        simp only [hh]
    generalize checkLayout env { w := w, h := h, screens := ss } = cl at hc
    simp only [Msg.calls]
    by_cases hb : cl.2 = true
    · rw [if_pos hb, if_pos (hc.1 hb)]
      exact (Did.emit s rfl).trans (.send _ _ _)
    · rw [if_neg hb, if_neg (fun h => hb (hc.2 h))]
      exact .send _ _ _
  | ntp t0 t1 t2 t3 p =>
    rw [msg_ntp hr hf.2.2.2] at e
    cases e
    refine ⟨rfl, ?_⟩
    split
    · exact .send _ _ _
    · exact .refl _
  | fbRequest inc q =>
    rw [msg_fbRequest hr hf, if_neg (hs inc q rfl)] at e
    obtain ⟨t, ht, e⟩ := Outcome.bind_eq_ok.1 e
    cases e
    refine ⟨rfl, ?_⟩
    have h1 : Did [.fbReq (inc != 0) q.x q.y q.w q.h] s.cl.settings s (fbReqPre (inc != 0) q s) := by
      unfold fbReqPre
      dsimp only
      have h0 : Did [.fbReq (inc != 0) q.x q.y q.w q.h] s.cl.settings s
          (emit (.fbReq (inc != 0) q.x q.y q.w q.h) (s.upd fun k => { k with
            nPending := k.nPending + 1, damage := if (inc != 0) = true then k.damage else k.damage ++ [q] })) :=
        Did.trans (cs := []) (.upd s rfl id) (.emit _ rfl)
      exact h0.trans (forgetSize_did _ _)
    have h2 := (processFb_flow reenterInHandler_quiet (h1.net.trans hn) ht).did
    rw [h1.settings] at h2
    exact h1.trans h2
  | contUpdates on q =>
    rw [msg_contUpdates hr hf] at e
    rcases ite_cases e with ⟨ho, e⟩ | ⟨ho, e⟩
    · obtain ⟨t, ht, e⟩ := Outcome.bind_eq_ok.1 e
      cases e
      refine ⟨rfl, ?_⟩
      have h1 := (Did.upd s (f := fun k => { k with cont := true, contRect := q }) rfl id).trans
        (.ghost (e := .contOn) _ rfl)
      have h2 := (processFb_flow reenterInHandler_quiet (h1.net.trans hn) ht).did
      have := h1.trans h2
      have hb : (on != 0) = true := by simpa using ho
      simp only [Msg.apply, hb, if_neg ho, Msg.calls]
      exact this
    · cases e
      refine ⟨rfl, ?_⟩
      have := (Did.upd s (f := fun k => { k with
        cont := false, contRect := { x := 0, y := 0, w := 0, h := 0 } }) rfl id).trans
          (.send .endOfCont [150] _)
      have ho : on = 0 := Classical.not_not.1 ho
      subst ho
      exact this
  | fence p flags pl =>
    have hlt := hq _ _ _ rfl
    rw [msg_fence hr hf.1 hf.2, if_neg (by unfold fenceRequest; omega)] at e
    obtain ⟨t, ht, e⟩ := Outcome.bind_eq_ok.1 e
    cases e
    refine ⟨by simp [Msg.wire]; omega, ?_⟩
    unfold onFenceResponse at ht
    split at ht
    · dsimp only at ht
      rcases ite_cases ht with ⟨-, ht⟩ | ⟨-, ht⟩
      · cases ht; exact .refl _
      rcases ite_cases ht with ⟨-, ht⟩ | ⟨-, ht⟩
      · cases ht; exact .refl _
      · generalize hu : s.upd _ = u at ht
        have h1 : Did [] s.cl.settings s u := by subst hu; exact .upd s rfl id
        have h2 := (processFb_flow reenterInHandler_quiet (h1.net.trans hn) ht).did
        rw [h1.settings] at h2
        exact h1.trans h2
    · cases ht

/-- the bytes of a strict prefix -/
theorem prefix_cases {n : Nat} {hd body a b : Bytes} (hh : hd.length = n) (h : a ++ b = hd ++ body) :
    (∃ k, k < n ∧ a = hd.take k) ∨ ∃ x, a = hd ++ x ∧ x ++ b = body := by
  rcases Nat.lt_or_ge a.length n with hl | hl
  · left
    refine ⟨a.length, hl, ?_⟩
    have := congrArg (List.take a.length) h
    rwa [List.take_left, List.take_append_of_le_length (by omega)] at this
  · right
    refine ⟨a.drop n, ?_, ?_⟩
    · have := congrArg (List.take n) h
      rw [List.take_append_of_le_length hl, List.take_append_of_le_length (by omega),
        List.take_of_length_le (l := hd) (by omega)] at this
      rw [← this, List.take_append_drop]
    · have := congrArg (List.drop n) h
      rw [List.drop_append_of_le_length hl, List.drop_append_of_le_length (by omega),
        List.drop_of_length_le (l := hd) (by omega)] at this
      exact this

theorem prefix_fixed {w a b : Bytes} (h : a ++ b = w) (hb : b ≠ []) :
    ∃ k, k < w.length ∧ a = w.take k := by
  subst h
  have : 0 < b.length := List.length_pos_iff.2 hb
  exact ⟨a.length, by simp; omega, by simp⟩

/-- the effect of an incomplete message: nothing, except that a cut text is begun; or the server
consumes more than it has -/
theorem msg_partial {s s' : St} {m : Msg} {n : Nat} {a b : Bytes}
    (hr : s.cl.st = .ready) (hf : m.Fits)
    (hq : ∀ p flags payload, m = .fence p flags payload → flags < 2147483648)
    (hb : b ≠ []) (hw : a ++ b = m.wire)
    (e : tryRead env table reenterInHandler s a = .ok (s', n)) :
    (n = 0 ∧ s' = s ∧ ∀ p text, m = .cutText p text → a.length < 8) ∨ a.length < n ∨
    (∃ p text x, m = .cutText p text ∧ text = x ++ b ∧ n = a.length ∧ 0 < n ∧
      s' = s.upd fun k => { k with cut := some ⟨text.length, x, false, false⟩ }) := by
  rw [tryRead_ready hr] at e
  cases m with
  | key d p sym =>
    obtain ⟨k, hk, rfl⟩ := prefix_fixed hw hb
    have hk : k < 8 := hk
    match k, hk with
    | 0, _ | 1, _ | 2, _ | 3, _ | 4, _ | 5, _ | 6, _ | 7, _ =>
      cases e; exact .inl ⟨rfl, rfl, fun _ _ h => by cases h⟩
  | pointer mk x y =>
    obtain ⟨k, hk, rfl⟩ := prefix_fixed hw hb
    have hk : k < 6 := hk
    match k, hk with
    | 0, _ | 1, _ | 2, _ | 3, _ | 4, _ | 5, _ => cases e; exact .inl ⟨rfl, rfl, fun _ _ h => by cases h⟩
  | qemuKey d sym code =>
    obtain ⟨k, hk, rfl⟩ := prefix_fixed hw hb
    have hk : k < 12 := hk
    match k, hk with
    | 0, _ | 1, _ | 2, _ | 3, _ | 4, _ | 5, _ | 6, _ | 7, _ | 8, _ | 9, _ | 10, _ | 11, _ =>
      cases e; exact .inl ⟨rfl, rfl, fun _ _ h => by cases h⟩
  | setPixelFormat p f =>
    obtain ⟨k, hk, rfl⟩ := prefix_fixed hw hb
    have hk : k < 20 := hk
    match k, hk with
    | 0, _ | 1, _ | 2, _ | 3, _ | 4, _ | 5, _ | 6, _ | 7, _ | 8, _ | 9, _ | 10, _ | 11, _
    | 12, _ | 13, _ | 14, _ | 15, _ | 16, _ | 17, _ | 18, _ | 19, _ =>
      cases e; exact .inl ⟨rfl, rfl, fun _ _ h => by cases h⟩
    | k + 20, hk => omega
  | fbRequest inc q =>
    obtain ⟨k, hk, rfl⟩ := prefix_fixed hw hb
    have hk : k < 10 := hk
    match k, hk with
    | 0, _ | 1, _ | 2, _ | 3, _ | 4, _ | 5, _ | 6, _ | 7, _ | 8, _ | 9, _ =>
      cases e; exact .inl ⟨rfl, rfl, fun _ _ h => by cases h⟩
  | contUpdates on q =>
    obtain ⟨k, hk, rfl⟩ := prefix_fixed hw hb
    have hk : k < 10 := hk
    match k, hk with
    | 0, _ | 1, _ | 2, _ | 3, _ | 4, _ | 5, _ | 6, _ | 7, _ | 8, _ | 9, _ =>
      cases e; exact .inl ⟨rfl, rfl, fun _ _ h => by cases h⟩
  | ntp t0 t1 t2 t3 p =>
    obtain ⟨k, hk, rfl⟩ := prefix_fixed hw hb
    have hk : k < 20 := hk
    match k, hk with
    | 0, _ | 1, _ | 2, _ | 3, _ | 4, _ | 5, _ | 6, _ | 7, _ | 8, _ | 9, _ | 10, _ | 11, _
    | 12, _ | 13, _ | 14, _ | 15, _ | 16, _ | 17, _ | 18, _ | 19, _ =>
      cases e; exact .inl ⟨rfl, rfl, fun _ _ h => by cases h⟩
    | k + 20, hk => omega
  | setEncodings p es =>
    rcases prefix_cases (hd := [2, p] ++ be16 es.length) (n := 4) rfl hw with ⟨k, hk, rfl⟩ | ⟨x, rfl, hx⟩
    · match k, hk with
      | 0, _ | 1, _ | 2, _ | 3, _ => cases e; exact .inl ⟨rfl, rfl, fun _ _ h => by cases h⟩
    · have hl : x.length < es.length * 4 := by
        have := congrArg List.length hx
        rw [List.length_append, flatMap_wire32_length] at this
        have : 0 < b.length := List.length_pos_iff.2 hb
        omega
      simp only [be16, List.cons_append, List.nil_append, onMessage] at e
      rw [if_neg (by decide), if_pos trivial] at e
      simp only [onSetEncodings, rd16_be16 _ hf.1] at e
      have : slice (2 :: p :: UInt8.ofNat (es.length / 256) :: UInt8.ofNat es.length :: x) 4
          (es.length * 4) = none := by
        unfold slice; rw [if_neg (by simp only [List.length_cons]; omega)]
      rw [this] at e
      cases e; exact .inl ⟨rfl, rfl, fun _ _ h => by cases h⟩
  | setDesktopSize p w h fl ss =>
    have hw' : a ++ b = ([251, p] ++ be16 w ++ be16 h ++ [UInt8.ofNat ss.length, p]) ++
      ss.flatMap (·.wire fl) := by rw [hw]; rfl
    rcases prefix_cases (n := 8) rfl hw' with ⟨k, hk, rfl⟩ | ⟨x, rfl, hx⟩
    · match k, hk with
      | 0, _ | 1, _ | 2, _ | 3, _ | 4, _ | 5, _ | 6, _ | 7, _ => cases e; exact .inl ⟨rfl, rfl, fun _ _ h => by cases h⟩
    · have hl : x.length < ss.length * 16 := by
        have := congrArg List.length hx
        rw [List.length_append, flatMap_screen_length] at this
        have : 0 < b.length := List.length_pos_iff.2 hb
        omega
      simp only [be16, List.cons_append, List.nil_append, onMessage] at e
      rw [if_neg (by decide), if_neg (by decide), if_neg (by decide), if_neg (by decide),
        if_neg (by decide), if_neg (by decide), if_neg (by decide), if_neg (by decide),
        if_pos trivial] at e
      simp only [onSetDesktopSize, toNat8 hf.2.2.1] at e
      have : ∀ c1 c2 c3 c4 c5 : UInt8, slice (251 :: p :: c1 :: c2 :: c3 :: c4 :: c5 :: p :: x) 8
          (ss.length * 16) = none := by
        intros
        unfold slice; rw [if_neg (by simp only [List.length_cons]; omega)]
      rw [this] at e
      cases e; exact .inl ⟨rfl, rfl, fun _ _ h => by cases h⟩
  | cutText p text =>
    rcases prefix_cases (hd := [6, p, p, p] ++ be32 text.length) (n := 8) rfl hw
      with ⟨k, hk, rfl⟩ | ⟨x, rfl, hx⟩
    · match k, hk with
      | 0, _ | 1, _ | 2, _ | 3, _ | 4, _ | 5, _ | 6, _ | 7, _ => cases e; exact .inl ⟨rfl, rfl, fun _ _ _ => by simp⟩
    · have hf : text.length < 2147483648 := hf
      have hl : x.length < text.length := by
        have := congrArg List.length hx
        rw [List.length_append] at this
        have : 0 < b.length := List.length_pos_iff.2 hb
        omega
      have hl' : text.length < 4294967296 := by omega
      have h0 : ¬ 128 ≤ (UInt8.ofNat (text.length / 16777216)).toNat := by
        rw [toNat8 (by omega)]; omega
      simp only [be32, List.cons_append, List.nil_append, onMessage] at e
      rw [if_neg (by decide), if_neg (by decide), if_neg (by decide), if_neg (by decide),
        if_neg (by decide), if_pos trivial] at e
      simp only [onCutText, h0, and_false, if_false, onPlainCutText, rd32_be32 _ hl'] at e
      rcases ite_cases e with ⟨-, e⟩ | ⟨-, e⟩
      · cases e
      rw [if_neg (by simp only [List.length_cons]; omega)] at e
      cases e
      exact .inr (.inr ⟨p, text, x, rfl, hx.symm, rfl, by simp, rfl⟩)
  | fence p flags pl =>
    have hlt := hq _ _ _ rfl
    obtain ⟨hf, hp⟩ := hf
    have hw' : a ++ b = ([248, p, p, p] ++ be32 flags) ++ (UInt8.ofNat pl.length :: pl) := by
      rw [hw]; simp [Msg.wire]
    rcases prefix_cases (n := 8) rfl hw' with ⟨k, hk, rfl⟩ | ⟨x, rfl, hx⟩
    · match k, hk with
      | 0, _ | 1, _ | 2, _ | 3, _ | 4, _ | 5, _ | 6, _ | 7, _ => cases e; exact .inl ⟨rfl, rfl, fun _ _ h => by cases h⟩
    · simp only [be32, List.cons_append, List.nil_append, onMessage] at e
      rw [if_neg (by decide), if_neg (by decide), if_neg (by decide), if_neg (by decide),
        if_neg (by decide), if_neg (by decide), if_neg (by decide), if_neg (by decide),
        if_neg (by decide), if_neg (by decide), if_pos trivial] at e
      unfold onFence at e
      simp only [rd32_be32 _ hf] at e
      generalize hlen : ((x ++ (List.range 80).map env.stale).getD 0 0).toNat = len at e
      rcases ite_cases e with ⟨-, e⟩ | ⟨hle, e⟩
      · cases e; exact .inl ⟨rfl, rfl, fun _ _ h => by cases h⟩
      rcases ite_cases e with ⟨-, e⟩ | ⟨-, e⟩
      · cases e
      rw [if_neg (by unfold fenceRequest; omega)] at e
      obtain ⟨t, -, e⟩ := Outcome.bind_eq_ok.1 e
      injection e with e; injection e with _ e
      right; left
      rw [← e]
      simp only [be32, List.length_append, List.length_cons, List.length_nil]
      have : 0 < b.length := List.length_pos_iff.2 hb
      cases x with
      | nil => simp; omega
      | cons c x =>
        simp only [List.cons_append] at hx
        injection hx with hc hx
        subst hc
        simp only [List.cons_append, List.getD_cons_zero, toNat8 (show pl.length < 256 by omega)] at hlen
        have := congrArg List.length hx
        rw [List.length_append] at this
        simp only [List.length_cons]
        omega

/-! ## The receive loop -/

theorem noStall_head {c : Bool} {m : Msg} {ms : List Msg} (h : NoStall c (m :: ms)) (inc q)
    (hm : m = .fbRequest inc q) : ¬ (inc ≠ 0 ∧ c = true) := by subst hm; exact h.1

theorem noStall_tail {x : Bool} {g : Settings} {m : Msg} {ms : List Msg}
    (h : NoStall g.cont (m :: ms)) : NoStall (m.apply x g).cont ms := by
  cases m <;> first | exact h | exact h.2

theorem wire_pos (m : Msg) : 0 < m.wire.length := by
  cases m <;> simp [Msg.wire] <;> omega

/-- a client in session that is neither held back nor being closed -/
structure Mid (s : St) : Prop where
  net : s.net = []
  ready : s.cl.st = .ready
  open_ : s.cl.closed = false
  pending : s.cl.closePending = false
  defer : s.cl.nDefer = 0
  alive : s.cl.freed = false
  blocked : s.cl.blocked = false
  mustBlock : s.cl.mustBlock = false

theorem Did.mid {cs g} {s s' : St} (h : Did cs g s s') (m : Mid s) : Mid s' := by
  have hc := h.core
  unfold Client.core at hc
  simp only [Prod.mk.injEq] at hc
  obtain ⟨h1, h2, h3, h4, h5, h6, -⟩ := hc
  refine ⟨h.net.trans m.net, h1.trans m.ready, h3.trans m.open_, h4.trans m.pending,
    h5.trans m.defer, h6.trans m.alive, ?_, h2.trans m.mustBlock⟩
  cases hb : s'.cl.blocked with
  | false => rfl
  | true => have := m.blocked; rw [h.blocked hb] at this; cases this

theorem Did.rest {cs g} {s s' : St} (h : Did cs g s s') :
    s'.cl.cut = s.cl.cut ∧ s'.cl.buf = s.cl.buf ∧ s'.cl.idx = s.cl.idx := by
  have hc := h.core
  unfold Client.core at hc
  simp only [Prod.mk.injEq] at hc
  exact hc.2.2.2.2.2.2

/-- where the server is in the byte stream: in front of a message it has not completely received,
or within a cut text -/
inductive At (s : St) (unread : Bytes) : List Msg → Prop
  | between {todo} (hc : s.cl.cut = none)
      (hw : s.cl.buf.drop s.cl.idx ++ unread = todo.flatMap Msg.wire)
      (hl : ∀ m ms, todo = m :: ms → (s.cl.buf.drop s.cl.idx).length < m.wire.length ∧
        ∀ p text, m = .cutText p text → (s.cl.buf.drop s.cl.idx).length < 8) :
      At s unread todo
  | within (p text x y ms) (hc : s.cl.cut = some ⟨text.length, x, false, false⟩)
      (ht : text = x ++ y) (hy : y ≠ []) (hb : s.cl.buf.drop s.cl.idx = [])
      (hu : unread = y ++ ms.flatMap Msg.wire) : At s unread (.cutText p text :: ms)

/-- the messages `done` were handled -/
structure Prog (table : List Nat) (x : Bool) (done : List Msg) (s s' : St) : Prop where
  settings : s'.cl.settings = done.foldl (Msg.apply x) s.cl.settings
  calls : callbacks s'.log = callbacks s.log ++ done.flatMap (Msg.calls table)

theorem loop_feed {unread : Bytes} : ∀ (fuel : Nat) (s s' : St) (todo : List Msg), Mid s →
    s.cl.cut = none → s.cl.buf.drop s.cl.idx ++ unread = todo.flatMap Msg.wire →
    (s.cl.buf.drop s.cl.idx).length < fuel →
    NoStall s.cl.cont todo → (∀ m ∈ todo, m.Plain) → loop env table fuel s = .ok s' →
    ∃ done todo', todo = done ++ todo' ∧ Mid s' ∧ At s' unread todo' ∧
      NoStall s'.cl.cont todo' ∧ Prog table env.experimental done s s' := by
  intro fuel
  induction fuel with
  | zero => intro _ _ _ _ _ _ h; omega
  | succ fuel ih =>
    intro s s' todo hm hcut hw hfuel hns hpl e
    unfold loop at e
    rw [if_neg (by rw [hm.blocked]; exact Bool.false_ne_true)] at e
    have hs0 : (s.upd fun k => { k with blocked := k.mustBlock, mustBlock := false }) = s := by
      show { s with cl := { s.cl with blocked := s.cl.mustBlock, mustBlock := false } } = s
      have h1 := hm.blocked
      have h2 := hm.mustBlock
      cases s with | mk srv cl net log =>
      cases cl
      simp only at h1 h2
      subst h1 h2
      rfl
    dsimp only at e
    rw [hs0] at e
    generalize ha : s.cl.buf.drop s.cl.idx = a at *
    obtain ⟨⟨s1, rc⟩, he, e⟩ := Outcome.bind_eq_ok.1 e
    dsimp only at e
    cases todo with
    | nil =>
      have : a = [] := (List.append_eq_nil_iff.1 (by simpa using hw)).1
      subst this
      rw [tryRead_ready hm.ready] at he
      cases he
      cases e
      exact ⟨[], [], rfl, hm, .between hcut (by rw [ha]; exact hw) (fun _ _ h => by cases h), hns,
        rfl, by simp⟩
    | cons m ms =>
      obtain ⟨hf, hq, -⟩ := hpl m (by simp)
      rw [List.flatMap_cons] at hw
      by_cases hle : m.wire.length ≤ a.length
      · -- a complete message
        obtain ⟨rest, rfl⟩ : ∃ rest, a = m.wire ++ rest := by
          have := congrArg (List.take m.wire.length) hw
          rw [List.take_append_of_le_length hle, List.take_left] at this
          exact ⟨a.drop m.wire.length, by
            conv => lhs; rw [← List.take_append_drop m.wire.length a, this]⟩
        obtain ⟨rfl, hd⟩ := msg_complete hm.net hm.ready hf hq (noStall_head hns) he
        have hpos := wire_pos m
        rw [if_neg (by omega)] at e
        rcases ite_cases e with ⟨-, e⟩ | ⟨-, e⟩
        · cases e
        obtain ⟨g1, g2, g3⟩ := hd.rest
        have hm1 := hd.mid hm
        have hset : s1.cl.cont = (m.apply env.experimental s.cl.settings).cont := by
          have := congrArg Settings.cont hd.settings
          exact this
        obtain ⟨done, todo', h1, h2, h3, h4, h5⟩ := ih _ s' ms
          (by exact ⟨hm1.net, hm1.ready, hm1.open_, hm1.pending, hm1.defer, hm1.alive, hm1.blocked, hm1.mustBlock⟩)
          (by show s1.cl.cut = none; rw [g1, hcut])
          (by
            show s1.cl.buf.drop (s1.cl.idx + m.wire.length) ++ unread = _
            rw [g2, g3, ← List.drop_drop, ha, List.drop_left]
            rw [List.append_assoc] at hw
            exact List.append_cancel_left hw)
          (by
            show (s1.cl.buf.drop (s1.cl.idx + m.wire.length)).length < fuel
            rw [g2, g3, ← List.drop_drop, ha, List.drop_left]
            rw [List.length_append] at hfuel
            omega)
          (by
            show NoStall s1.cl.cont ms
            rw [hset]
            exact noStall_tail (g := s.cl.settings) hns)
          (fun m hm => hpl m (by simp [hm])) e
        refine ⟨m :: done, todo', by rw [h1]; rfl, h2, h3, h4, ?_, ?_⟩
        · rw [h5.settings, List.foldl_cons]
          exact congrArg (List.foldl _ · done) hd.settings
        · rw [h5.calls, List.flatMap_cons, ← List.append_assoc, ← hd.calls]
          congr 1
          simp [callbacks, List.filter_append, Eff.isCallback]
      · -- an incomplete one
        obtain ⟨b, hb⟩ : ∃ b, a ++ b = m.wire := by
          have := congrArg (List.take a.length) hw
          rw [List.take_left, List.take_append_of_le_length (by omega)] at this
          exact ⟨m.wire.drop a.length, by
            rw [this, List.length_take, Nat.min_eq_left (by omega), List.take_append_drop]⟩
        have hbne : b ≠ [] := by
          rintro rfl
          rw [List.append_nil] at hb
          rw [hb] at hle
          exact hle (Nat.le_refl _)
        rcases msg_partial hm.ready hf hq hbne hb he with ⟨rfl, rfl, h8⟩ | hlt | ⟨p, text, x, hmt, hx, hn, hn0, hs'⟩
        · cases e
          refine ⟨[], m :: ms, rfl, hm, .between hcut (by rw [ha]; exact hw) ?_, hns, rfl, by simp⟩
          intro m' ms' h
          injection h with h _
          subst h
          rw [ha]; exact ⟨by omega, h8⟩
        · obtain ⟨g2, g3, -⟩ := tryRead_buf he
          rw [if_neg (by omega)] at e
          have : s1.cl.buf.length < s1.cl.idx + rc := by
            rw [g2, g3]
            have := congrArg List.length ha
            rw [List.length_drop] at this
            omega
          rw [if_pos this] at e
          cases e
        · subst hmt hn hs'
          rw [if_neg (by omega)] at e
          rcases ite_cases e with ⟨-, e⟩ | ⟨-, e⟩
          · cases e
          generalize hs2 : (emit (.msg s.cl.st s.cl.chan (a.take a.length) _) _) = s2 at e
          have hbuf : s2.cl.buf.drop s2.cl.idx = [] := by
            rw [← hs2]
            show s.cl.buf.drop (s.cl.idx + a.length) = []
            rw [← List.drop_drop, ha]
            simp
          have hfin : s' = s2 := by
            cases fuel with
            | zero => cases e; rfl
            | succ fuel =>
              unfold loop at e
              have hb2 : s2.cl.blocked = false := by rw [← hs2]; exact hm.blocked
              have hm2 : s2.cl.mustBlock = false := by rw [← hs2]; exact hm.mustBlock
              rw [if_neg (by rw [hb2]; exact Bool.false_ne_true)] at e
              have hs0 : (s2.upd fun k => { k with blocked := k.mustBlock, mustBlock := false }) = s2 := by
                show { s2 with cl := { s2.cl with blocked := s2.cl.mustBlock, mustBlock := false } } = s2
                clear hs2 e hbuf
                cases s2 with | mk srv cl net log =>
                cases cl
                simp only at hb2 hm2
                subst hb2 hm2
                rfl
              dsimp only at e
              rw [hs0, hbuf, tryRead_ready (by rw [← hs2]; exact hm.ready)] at e
              cases e
              rfl
          subst hfin
          refine ⟨[], .cutText p text :: ms, rfl, ?_, ?_, ?_, ?_, ?_⟩
          · rw [← hs2]
            exact ⟨hm.net, hm.ready, hm.open_, hm.pending, hm.defer, hm.alive, hm.blocked, hm.mustBlock⟩
          · refine .within p text x b ms (by rw [← hs2]; rfl) hx hbne hbuf ?_
            have := hw
            rw [← hb, List.append_assoc] at this
            exact List.append_cancel_left this
          · rw [← hs2]; exact hns
          · rw [← hs2]; rfl
          · rw [← hs2]
            simp [callbacks, List.filter_append, Eff.isCallback]

/-! ## Whole events -/

theorem other_flow {o : Op} (ho : Ev.benign (.other o)) {s s' : St} (hm : Mid s)
    (e : event table o env s = .ok s') :
    Mid s' ∧ s'.cl.settings = s.cl.settings ∧ callbacks s'.log = callbacks s.log ∧
      s'.cl.cut = s.cl.cut ∧ s'.cl.buf = s.cl.buf ∧ s'.cl.idx = s.cl.idx := by
  have fin : ∀ {t}, Did [] s.cl.settings s t → Mid t ∧ t.cl.settings = s.cl.settings ∧
      callbacks t.log = callbacks s.log ∧
      t.cl.cut = s.cl.cut ∧ t.cl.buf = s.cl.buf ∧ t.cl.idx = s.cl.idx := fun h =>
    ⟨h.mid hm, h.settings, by rw [h.calls, List.append_nil], h.rest⟩
  have chain : ∀ {t u}, Did [] s.cl.settings s t → FlowFrame env t u → Did [] s.cl.settings s u := by
    intro t u h1 h2
    have := h2.did
    rw [h1.settings] at this
    exact h1.trans this
  unfold event at e
  rw [if_neg (by rw [hm.alive]; exact Bool.false_ne_true)] at e
  cases o with
  | readable rd => exact ho.elim
  | appClose => exact ho.elim
  | written =>
    rcases ite_cases e with ⟨-, e⟩ | ⟨-, e⟩
    · have h0 : Did [] s.cl.settings s (s.upd fun k => { k with writing := false }) := .upd s rfl id
      exact fin (chain h0 (completeFb_flow reenterTop_quiet (h0.net.trans hm.net) e))
    · cases e; exact fin (.refl _)
  | encoded f =>
    rcases ite_cases e with ⟨-, e⟩ | ⟨-, e⟩
    · have h0 : Did [] s.cl.settings s (emit (.encodeDone f) (s.upd fun k => { k with encoding := false })) :=
        (Did.upd s rfl id).trans (.ghost (e := .encodeDone f) _ rfl)
      exact fin (chain h0 (finishFb_flow reenterTop_quiet (h0.net.trans hm.net) e))
    · cases e; exact fin (.refl _)
  | flushed =>
    dsimp only at e
    rw [if_neg (by rw [hm.pending]; exact Bool.false_ne_true)] at e
    cases e; exact fin (.refl _)
  | idle =>
    dsimp only at e
    rw [if_pos hm.defer] at e
    cases e; exact fin (.refl _)
  | damage q =>
    dsimp only at e
    rw [if_neg (by rw [hm.open_]; exact Bool.false_ne_true)] at e
    have h0 : Did [] s.cl.settings s (emit (.damaged q) (s.upd fun k => { k with damage := k.damage ++ q })) :=
      (Did.upd s rfl id).trans (.ghost (e := .damaged q) _ rfl)
    exact fin (chain h0 (processFb_flow reenterTop_quiet (h0.net.trans hm.net) e))
  | display fb =>
    cases e
    exact fin ⟨rfl, rfl, id, rfl, by simp⟩
  | cursor =>
    have h0 : Did [] s.cl.settings s { s with srv := { s.srv with cursorSeq := s.srv.cursorSeq + 1 } } :=
      ⟨rfl, rfl, id, rfl, by simp⟩
    exact fin (chain h0 (processFb_flow reenterTop_quiet (h0.net.trans hm.net) e))
  | setLed v =>
    have h0 : Did [] s.cl.settings s (emit (.ledSet v) (s.upd fun k => { k with pendingLed := v })) :=
      (Did.upd s rfl id).trans (.ghost (e := .ledSet v) _ rfl)
    exact fin (chain h0 (processFb_flow reenterTop_quiet (h0.net.trans hm.net) e))

theorem at_congr {s s' : St} {unread todo} (h : At s unread todo) (h1 : s'.cl.cut = s.cl.cut)
    (h2 : s'.cl.buf = s.cl.buf) (h3 : s'.cl.idx = s.cl.idx) : At s' unread todo := by
  cases h with
  | between hc hw hl => exact .between (by rw [h1]; exact hc) (by rw [h2, h3]; exact hw) (by rw [h2, h3]; exact hl)
  | within p text x y ms hc ht hy hb hu =>
    exact .within p text x y ms (by rw [h1]; exact hc) ht hy (by rw [h2, h3]; exact hb) hu

/-- one read -/
theorem read_feed {n : Nat} {unread : Bytes} {s s' : St} {todo : List Msg} (hm : Mid s)
    (hi : s.cl.idx = 0) (ha : At s unread todo) (hns : NoStall s.cl.cont todo)
    (hpl : ∀ m ∈ todo, m.Plain)
    (e : event table (.readable (.data (unread.take (n + 1)))) env s = .ok s') :
    ∃ done todo', todo = done ++ todo' ∧ Mid s' ∧ s'.cl.idx = 0 ∧
      At s' (unread.drop (min (n + 1) (room s.cl))) todo' ∧
      NoStall s'.cl.cont todo' ∧ Prog table env.experimental done s s' := by
  unfold event at e
  rw [if_neg (by rw [hm.alive]; exact Bool.false_ne_true)] at e
  dsimp only at e
  rw [if_neg (by rw [hm.open_]; exact Bool.false_ne_true)] at e
  unfold onReadable at e
  cases unread with
  | nil =>
    have : s' = s := by
      cases ha with
      | between hc _ _ =>
        rw [hc] at e
        dsimp only at e
        rw [if_neg (by omega)] at e
        cases e; rfl
      | within p text x y ms hc ht hy hb hu =>
        exact absurd (List.append_eq_nil_iff.1 hu.symm).1 hy
    subst this
    exact ⟨[], todo, rfl, hm, hi, by simpa using ha, hns, rfl, by simp⟩
  | cons u0 us =>
    generalize hun : u0 :: us = unread at *
    have hd : unread.take (n + 1) = u0 :: us.take n := by rw [← hun]; rfl
    rw [hd] at e
    cases ha with
    | between hc hw hl =>
      rw [hc] at e
      dsimp only at e
      rw [if_neg (by omega), ← hd] at e
      rw [hi, List.drop_zero] at hw hl
      have hlen : s.cl.buf.length < 4096 := by
        cases todo with
        | nil =>
          have := (List.append_eq_nil_iff.1 (show s.cl.buf ++ unread = [] by simpa using hw)).1
          rw [this]; decide
        | cons m ms =>
          obtain ⟨h1, h8⟩ := hl m ms rfl
          by_cases hct : ∀ p text, m ≠ .cutText p text
          · have := (hpl m (by simp)).2.2 hct
            omega
          · simp only [Classical.not_forall, Classical.not_not] at hct
            obtain ⟨p, text, hct⟩ := hct
            have := h8 p text hct
            omega
      rw [if_neg (by unfold msgBufferSize; omega)] at e
      have hroom : room s.cl = 4096 - s.cl.buf.length := by unfold room; rw [hc]
      rw [List.take_take, show msgBufferSize - s.cl.buf.length = room s.cl from hroom.symm,
        Nat.min_comm] at e
      generalize min (n + 1) (room s.cl) = k at e ⊢
      obtain ⟨t, ht, e⟩ := Outcome.bind_eq_ok.1 e
      cases e
      obtain ⟨done, todo', h1, h2, h3, h4, h5⟩ := loop_feed (unread := unread.drop k) _ _ t todo
        (by exact ⟨hm.net, hm.ready, hm.open_, hm.pending, hm.defer, hm.alive, hm.blocked, hm.mustBlock⟩)
        (by exact hc)
        (by
          show (s.cl.buf ++ unread.take k).drop s.cl.idx ++ unread.drop k = _
          rw [hi, List.drop_zero, List.append_assoc, List.take_append_drop]
          exact hw)
        (by
          show ((s.cl.buf ++ unread.take k).drop s.cl.idx).length < _
          rw [hi, List.drop_zero]; omega)
        (by exact hns) hpl ht
      refine ⟨done, todo', h1, ?_, rfl, ?_, h4, h5.settings, h5.calls⟩
      · exact ⟨h2.net, h2.ready, h2.open_, h2.pending, h2.defer, h2.alive, h2.blocked, h2.mustBlock⟩
      · cases h3 with
        | between hc' hw' hl' =>
          exact .between hc' (by simpa using hw') (by simpa using hl')
        | within p text x y ms hc' ht' hy' hb' hu' =>
          exact .within p text x y ms hc' ht' hy' (by simpa using hb') hu'
    | within p text x y ms hc ht hy hb hu =>
      rw [hc] at e
      dsimp only at e
      have hyl : 0 < y.length := List.length_pos_iff.2 hy
      have htl : text.length = x.length + y.length := by rw [ht, List.length_append]
      rw [if_neg (by omega), ← hd] at e
      have hroom : room s.cl = min (text.length - x.length) 4096 := by unfold room; rw [hc]
      rw [List.take_take, show min (text.length - x.length) msgBufferSize = room s.cl from hroom.symm,
        Nat.min_comm] at e
      have hk : min (n + 1) (room s.cl) ≤ y.length := by rw [hroom]; omega
      have hk0 : 0 < min (n + 1) (room s.cl) := by rw [hroom]; omega
      generalize min (n + 1) (room s.cl) = k at e hk hk0 ⊢
      rw [hu] at e ⊢
      rw [List.take_append_of_le_length hk] at e
      rw [List.drop_append_of_le_length hk]
      unfold bigCutText at e
      rw [if_neg (by simp only; omega)] at e
      dsimp only at e
      rcases ite_cases e with ⟨hne, e⟩ | ⟨heq, e⟩
      · cases e
        refine ⟨[], .cutText p text :: ms, rfl, ?_, hi, ?_, hns, rfl, by simp⟩
        · exact ⟨hm.net, hm.ready, hm.open_, hm.pending, hm.defer, hm.alive, hm.blocked, hm.mustBlock⟩
        · refine .within p text (x ++ y.take k) (y.drop k) ms rfl ?_ ?_ hb rfl
          · rw [List.append_assoc, List.take_append_drop]; exact ht
          · intro h0
            apply hne
            have h0 := congrArg List.length h0
            rw [List.length_drop, List.length_nil] at h0
            rw [List.length_append, List.length_take]
            omega
      · rw [if_neg Bool.false_ne_true] at e
        have hky : k = y.length := by
          have := Classical.not_not.1 heq
          rw [List.length_append, List.length_take] at this
          omega
        subst hky
        rw [List.take_of_length_le (Nat.le_refl _), ← ht] at e
        cases e
        refine ⟨[.cutText p text], ms, rfl, ?_, hi, ?_, ?_, ?_, ?_⟩
        · exact ⟨hm.net, hm.ready, hm.open_, hm.pending, hm.defer, hm.alive, hm.blocked, hm.mustBlock⟩
        · refine .between rfl ?_ ?_
          · show s.cl.buf.drop s.cl.idx ++ _ = _
            rw [hb, List.drop_of_length_le (Nat.le_refl _)]; rfl
          · intro m ms' _
            show (s.cl.buf.drop s.cl.idx).length < _ ∧ ∀ p text, _ → (s.cl.buf.drop s.cl.idx).length < 8
            rw [hb]; exact ⟨wire_pos m, fun _ _ _ => by decide⟩
        · exact hns
        · rfl
        · show callbacks (s.log ++ [.cutText text]) = _
          simp [callbacks, List.filter_append, Eff.isCallback, Msg.calls]

/-- any number of events -/
theorem feed_all {x : Bool} : ∀ (evs : List (Ev × Env)) (s s' : St) (unread unread' : Bytes)
    (todo : List Msg), (∀ p ∈ evs, p.1.benign ∧ p.2.experimental = x) →
    Mid s → s.cl.idx = 0 → At s unread todo → NoStall s.cl.cont todo → (∀ m ∈ todo, m.Plain) →
    feed table evs s unread = .ok (s', unread') →
    ∃ done todo', todo = done ++ todo' ∧ At s' unread' todo' ∧ Prog table x done s s' := by
  intro evs
  induction evs with
  | nil =>
    intro s s' u u' todo _ hm hi ha _ _ e
    cases e
    exact ⟨[], todo, rfl, ha, rfl, by simp⟩
  | cons p evs ih =>
    intro s s' u u' todo hev hm hi ha hns hpl e
    obtain ⟨ev, env⟩ := p
    obtain ⟨hben, hx⟩ := hev (ev, env) (by simp)
    have hev' : ∀ p ∈ evs, p.1.benign ∧ p.2.experimental = x := fun p hp => hev p (by simp [hp])
    have hnet : { s with net := [] } = s := by
      have := hm.net
      cases s; simp only at this; subst this; rfl
    cases ev with
    | read n =>
      unfold feed at e
      obtain ⟨t, ht, e⟩ := Outcome.bind_eq_ok.1 e
      unfold step at ht
      rw [hnet] at ht
      obtain ⟨d1, todo1, g1, g2, g3, g4, g5, g6⟩ := read_feed hm hi ha hns hpl ht
      obtain ⟨d2, todo2, f1, f2, f3⟩ := ih t s' _ u' todo1 hev' g2 g3 g4 g5
        (fun m hm => hpl m (by rw [g1]; simp [hm])) e
      refine ⟨d1 ++ d2, todo2, by rw [g1, f1, List.append_assoc], f2, ?_, ?_⟩
      · rw [f3.settings, g6.settings, hx, List.foldl_append]
      · rw [f3.calls, g6.calls, List.flatMap_append, List.append_assoc]
    | other o =>
      unfold feed at e
      obtain ⟨t, ht, e⟩ := Outcome.bind_eq_ok.1 e
      unfold step at ht
      rw [hnet] at ht
      obtain ⟨g1, g2, g3, g4, g5, g6⟩ := other_flow hben hm ht
      have hcont : t.cl.cont = s.cl.cont := congrArg Settings.cont g2
      obtain ⟨d, todo', f1, f2, f3⟩ := ih t s' u u' todo hev' g1 (g6.trans hi) (at_congr ha g4 g5 g6)
        (by rw [hcont]; exact hns) hpl e
      exact ⟨d, todo', f1, f2, by rw [f3.settings, g2], by rw [f3.calls, g3]⟩

/-! ## Messages that are always handled -/

theorem sendPing_ok (n) (s : St) : ∃ s', sendPing env n s = .ok s' := by
  unfold sendPing
  split
  · exact ⟨_, rfl⟩
  · unfold sendFence
    exact ⟨_, if_neg (by simp)⟩

theorem simple_complete {s : St} {m : Msg} {rest : Bytes} (hr : s.cl.st = .ready) (hf : m.Fits)
    (hs : m.Simple table) :
    ∃ p, tryRead env table reenterInHandler s (m.wire ++ rest) = .ok p := by
  cases m with
  | key d p sym => exact ⟨_, msg_key hr hf rest⟩
  | pointer mk x y => exact ⟨_, msg_pointer hr hf.1 hf.2 rest⟩
  | cutText p text => exact ⟨_, msg_cutText hr hs rest⟩
  | qemuKey d sym code =>
    exact ⟨_, msg_qemuKey hr hf.1 hf.2.2 (List.getElem?_eq_getElem hs) rest⟩
  | setPixelFormat p f =>
    by_cases ht : f.trueColour = 0
    · exact ⟨_, msg_pixmap hr ht rest⟩
    · exact ⟨_, msg_pixfmt hr hf ht rest⟩
  | setEncodings p es =>
    rw [msg_setEncodings hr hf.1]
    generalize hsc : scanEncodings env.experimental (es.flatMap wire32) [] 10 = sc
    obtain ⟨encs, q⟩ := sc
    dsimp only
    generalize (if hasEnc (notifyCont _).cl encExtClipboard = true then _ else _) = t
    obtain ⟨u, hu⟩ := sendPing_ok (env := env) 0 t
    rw [hu]
    exact ⟨_, rfl⟩
  | setDesktopSize p w h fl ss => exact ⟨_, msg_setDesktopSize hr hf rest⟩
  | ntp t0 t1 t2 t3 p => exact ⟨_, msg_ntp hr hf.2.2.2 rest⟩
  | fbRequest inc q => exact hs.elim
  | contUpdates on q => exact hs.elim
  | fence p flags pl => exact hs.elim

theorem simple_partial {s : St} {m : Msg} {a b : Bytes} (hr : s.cl.st = .ready) (hf : m.Fits)
    (hs : m.Simple table) (hb : b ≠ []) (hw : a ++ b = m.wire) :
    ∃ s' n, tryRead env table reenterInHandler s a = .ok (s', n) ∧ n ≤ a.length := by
  rw [tryRead_ready hr]
  cases m with
  | key d p sym =>
    obtain ⟨k, hk, rfl⟩ := prefix_fixed hw hb
    have hk : k < 8 := hk
    match k, hk with
    | 0, _ | 1, _ | 2, _ | 3, _ | 4, _ | 5, _ | 6, _ | 7, _ => exact ⟨_, _, rfl, Nat.zero_le _⟩
  | pointer mk x y =>
    obtain ⟨k, hk, rfl⟩ := prefix_fixed hw hb
    have hk : k < 6 := hk
    match k, hk with
    | 0, _ | 1, _ | 2, _ | 3, _ | 4, _ | 5, _ => exact ⟨_, _, rfl, Nat.zero_le _⟩
  | qemuKey d sym code =>
    obtain ⟨k, hk, rfl⟩ := prefix_fixed hw hb
    have hk : k < 12 := hk
    match k, hk with
    | 0, _ | 1, _ | 2, _ | 3, _ | 4, _ | 5, _ | 6, _ | 7, _ | 8, _ | 9, _ | 10, _ | 11, _ =>
      exact ⟨_, _, rfl, Nat.zero_le _⟩
  | setPixelFormat p f =>
    obtain ⟨k, hk, rfl⟩ := prefix_fixed hw hb
    have hk : k < 20 := hk
    match k, hk with
    | 0, _ | 1, _ | 2, _ | 3, _ | 4, _ | 5, _ | 6, _ | 7, _ | 8, _ | 9, _ | 10, _ | 11, _
    | 12, _ | 13, _ | 14, _ | 15, _ | 16, _ | 17, _ | 18, _ | 19, _ =>
      exact ⟨_, _, rfl, Nat.zero_le _⟩
    | k + 20, hk => omega
  | ntp t0 t1 t2 t3 p =>
    obtain ⟨k, hk, rfl⟩ := prefix_fixed hw hb
    have hk : k < 20 := hk
    match k, hk with
    | 0, _ | 1, _ | 2, _ | 3, _ | 4, _ | 5, _ | 6, _ | 7, _ | 8, _ | 9, _ | 10, _ | 11, _
    | 12, _ | 13, _ | 14, _ | 15, _ | 16, _ | 17, _ | 18, _ | 19, _ =>
      exact ⟨_, _, rfl, Nat.zero_le _⟩
    | k + 20, hk => omega
  | setEncodings p es =>
    rcases prefix_cases (hd := [2, p] ++ be16 es.length) (n := 4) rfl hw with ⟨k, hk, rfl⟩ | ⟨x, rfl, hx⟩
    · match k, hk with
      | 0, _ | 1, _ | 2, _ | 3, _ => exact ⟨_, _, rfl, Nat.zero_le _⟩
    · have hl : x.length < es.length * 4 := by
        have := congrArg List.length hx
        rw [List.length_append, flatMap_wire32_length] at this
        have : 0 < b.length := List.length_pos_iff.2 hb
        omega
      simp only [be16, List.cons_append, List.nil_append, onMessage]
      rw [if_neg (by decide), if_pos trivial]
      simp only [onSetEncodings, rd16_be16 _ hf.1]
      have : slice (2 :: p :: UInt8.ofNat (es.length / 256) :: UInt8.ofNat es.length :: x) 4
          (es.length * 4) = none := by
        unfold slice; rw [if_neg (by simp only [List.length_cons]; omega)]
      rw [this]
      exact ⟨_, _, rfl, Nat.zero_le _⟩
  | setDesktopSize p w h fl ss =>
    have hw' : a ++ b = ([251, p] ++ be16 w ++ be16 h ++ [UInt8.ofNat ss.length, p]) ++
      ss.flatMap (·.wire fl) := by rw [hw]; rfl
    rcases prefix_cases (n := 8) rfl hw' with ⟨k, hk, rfl⟩ | ⟨x, rfl, hx⟩
    · match k, hk with
      | 0, _ | 1, _ | 2, _ | 3, _ | 4, _ | 5, _ | 6, _ | 7, _ => exact ⟨_, _, rfl, Nat.zero_le _⟩
    · have hl : x.length < ss.length * 16 := by
        have := congrArg List.length hx
        rw [List.length_append, flatMap_screen_length] at this
        have : 0 < b.length := List.length_pos_iff.2 hb
        omega
      simp only [be16, List.cons_append, List.nil_append, onMessage]
      rw [if_neg (by decide), if_neg (by decide), if_neg (by decide), if_neg (by decide),
        if_neg (by decide), if_neg (by decide), if_neg (by decide), if_neg (by decide),
        if_pos trivial]
      simp only [onSetDesktopSize, toNat8 hf.2.2.1]
      have : ∀ c1 c2 c3 c4 c5 : UInt8, slice (251 :: p :: c1 :: c2 :: c3 :: c4 :: c5 :: p :: x) 8
          (ss.length * 16) = none := by
        intros
        unfold slice; rw [if_neg (by simp only [List.length_cons]; omega)]
      rw [this]
      exact ⟨_, _, rfl, Nat.zero_le _⟩
  | cutText p text =>
    rcases prefix_cases (hd := [6, p, p, p] ++ be32 text.length) (n := 8) rfl hw
      with ⟨k, hk, rfl⟩ | ⟨x, rfl, hx⟩
    · match k, hk with
      | 0, _ | 1, _ | 2, _ | 3, _ | 4, _ | 5, _ | 6, _ | 7, _ => exact ⟨_, _, rfl, Nat.zero_le _⟩
    · have hf : text.length < 2147483648 := hf
      have hs : text.length ≤ 10000000 := hs
      have hl : x.length < text.length := by
        have := congrArg List.length hx
        rw [List.length_append] at this
        have : 0 < b.length := List.length_pos_iff.2 hb
        omega
      have hl' : text.length < 4294967296 := by omega
      have h0 : ¬ 128 ≤ (UInt8.ofNat (text.length / 16777216)).toNat := by
        rw [toNat8 (by omega)]; omega
      simp only [be32, List.cons_append, List.nil_append, onMessage]
      rw [if_neg (by decide), if_neg (by decide), if_neg (by decide), if_neg (by decide),
        if_neg (by decide), if_pos trivial]
      simp only [onCutText, h0, and_false, if_false, onPlainCutText, rd32_be32 _ hl']
      rw [if_neg (by unfold maxCutText; omega), if_neg (by simp only [List.length_cons]; omega)]
      exact ⟨_, _, rfl, Nat.le_refl _⟩
  | fbRequest inc q => exact hs.elim
  | contUpdates on q => exact hs.elim
  | fence p flags pl => exact hs.elim

theorem simple_noFence {m : Msg} (hs : m.Simple table) (p flags payload)
    (h : m = .fence p flags payload) : flags < 2147483648 := by subst h; exact hs.elim

theorem simple_noRequest {m : Msg} (hs : m.Simple table) (inc q) (c : Bool)
    (h : m = .fbRequest inc q) : ¬ (inc ≠ 0 ∧ c = true) := by subst h; exact hs.elim

theorem simple_plain {m : Msg} (hf : m.Fits) (hs : m.Simple table) : m.Plain := by
  refine ⟨hf, simple_noFence hs, fun hc => ?_⟩
  cases m with
  | key d p sym => simp [Msg.wire]
  | pointer mk x y => simp [Msg.wire]
  | cutText p text => exact absurd rfl (hc p text)
  | qemuKey d sym code => simp [Msg.wire]
  | setPixelFormat p f => simp [Msg.wire]
  | setEncodings p es =>
    have hs : es.length ≤ 1023 := hs
    simp only [Msg.wire, List.length_append, flatMap_wire32_length]
    simp
    omega
  | setDesktopSize p w h fl ss =>
    have := hf.2.2.1
    simp only [Msg.wire, List.length_append, flatMap_screen_length]
    simp
    omega
  | ntp t0 t1 t2 t3 p => simp [Msg.wire]
  | fbRequest inc q => simp [Msg.wire]
  | contUpdates on q => simp [Msg.wire]
  | fence p flags pl => exact hs.elim

theorem simple_noStall {ms : List Msg} (h : ∀ m ∈ ms, m.Simple table) (c : Bool) : NoStall c ms := by
  induction ms generalizing c with
  | nil => trivial
  | cons m ms ih =>
    have h1 := h m (by simp)
    have h2 := fun c => ih (fun m hm => h m (by simp [hm])) c
    cases m <;> first | exact h1.elim | exact h2 _

theorem loop_total {unread : Bytes} : ∀ (fuel : Nat) (s : St) (todo : List Msg), Mid s →
    s.cl.buf.drop s.cl.idx ++ unread = todo.flatMap Msg.wire →
    (∀ m ∈ todo, m.Fits ∧ m.Simple table) →
    s.cl.idx ≤ s.cl.buf.length → ∃ s', loop env table fuel s = .ok s' := by
  intro fuel
  induction fuel with
  | zero => intro s _ _ _ _ _; exact ⟨s, rfl⟩
  | succ fuel ih =>
    intro s todo hm hw hpl hidx
    unfold loop
    rw [if_neg (by rw [hm.blocked]; exact Bool.false_ne_true)]
    have hs0 : (s.upd fun k => { k with blocked := k.mustBlock, mustBlock := false }) = s := by
      show { s with cl := { s.cl with blocked := s.cl.mustBlock, mustBlock := false } } = s
      have h1 := hm.blocked
      have h2 := hm.mustBlock
      cases s with | mk srv cl net log =>
      cases cl
      simp only at h1 h2
      subst h1 h2
      rfl
    dsimp only
    rw [hs0]
    have hal : (s.cl.buf.drop s.cl.idx).length = s.cl.buf.length - s.cl.idx := List.length_drop
    generalize ha : s.cl.buf.drop s.cl.idx = a at *
    -- with nothing left the loop ends
    have hnil : ∀ (fuel : Nat) (t : St), t.cl.st = .ready → t.cl.buf.drop t.cl.idx = [] →
        ∃ s', loop env table fuel t = .ok s' := by
      intro fuel t ht hb
      cases fuel with
      | zero => exact ⟨_, rfl⟩
      | succ fuel =>
        unfold loop
        split
        · exact ⟨_, rfl⟩
        · dsimp only
          have : (t.upd fun k => { k with blocked := k.mustBlock, mustBlock := false }).cl.buf.drop
            (t.upd fun k => { k with blocked := k.mustBlock, mustBlock := false }).cl.idx = [] := hb
          rw [this, tryRead_ready (by exact ht)]
          exact ⟨_, rfl⟩
    cases todo with
    | nil =>
      have : a = [] := (List.append_eq_nil_iff.1 (by simpa using hw)).1
      subst this
      rw [tryRead_ready hm.ready]
      exact ⟨_, rfl⟩
    | cons m ms =>
      obtain ⟨hf, hsm⟩ := hpl m (by simp)
      rw [List.flatMap_cons] at hw
      by_cases hle : m.wire.length ≤ a.length
      · obtain ⟨rest, rfl⟩ : ∃ rest, a = m.wire ++ rest := by
          have := congrArg (List.take m.wire.length) hw
          rw [List.take_append_of_le_length hle, List.take_left] at this
          exact ⟨a.drop m.wire.length, by
            conv => lhs; rw [← List.take_append_drop m.wire.length a, this]⟩
        obtain ⟨⟨s1, rc⟩, he⟩ := simple_complete (env := env) (table := table) (rest := rest) hm.ready hf hsm
        obtain ⟨rfl, hd⟩ := msg_complete hm.net hm.ready hf (simple_noFence hsm)
          (fun inc q h => simple_noRequest hsm inc q _ h) he
        rw [he]
        show ∃ s', (if m.wire.length = 0 then _ else _) = _
        have hpos := wire_pos m
        obtain ⟨g1, g2, g3⟩ := hd.rest
        have hm1 := hd.mid hm
        rw [List.length_append] at hal hle
        rw [if_neg (by omega), if_neg (by rw [g2, g3]; omega)]
        refine ih _ ms (by exact ⟨hm1.net, hm1.ready, hm1.open_, hm1.pending, hm1.defer, hm1.alive,
          hm1.blocked, hm1.mustBlock⟩) ?_ (fun m hm => hpl m (by simp [hm])) ?_
        · show s1.cl.buf.drop (s1.cl.idx + m.wire.length) ++ unread = _
          rw [g2, g3, ← List.drop_drop, ha, List.drop_left]
          rw [List.append_assoc] at hw
          exact List.append_cancel_left hw
        · show s1.cl.idx + m.wire.length ≤ s1.cl.buf.length
          rw [g2, g3]; omega
      · obtain ⟨b, hb⟩ : ∃ b, a ++ b = m.wire := by
          have := congrArg (List.take a.length) hw
          rw [List.take_left, List.take_append_of_le_length (by omega)] at this
          exact ⟨m.wire.drop a.length, by
            rw [this, List.length_take, Nat.min_eq_left (by omega), List.take_append_drop]⟩
        have hbne : b ≠ [] := by
          rintro rfl
          rw [List.append_nil] at hb
          rw [hb] at hle
          exact hle (Nat.le_refl _)
        obtain ⟨s1, n, he, hn⟩ := simple_partial (env := env) (table := table) (s := s) hm.ready hf hsm hbne hb
        rw [he]
        show ∃ s', (if n = 0 then _ else _) = _
        by_cases hn0 : n = 0
        · rw [if_pos hn0]; exact ⟨_, rfl⟩
        · rw [if_neg hn0]
          obtain ⟨g2, g3, -⟩ := tryRead_buf he
          rw [if_neg (by rw [g2, g3]; omega)]
          rcases msg_partial hm.ready hf (simple_noFence hsm) hbne hb he with
            ⟨h0, -⟩ | hlt | ⟨p, text, x, hmt, hx, hna, -, hs'⟩
          · exact absurd h0 hn0
          · omega
          · subst hs'
            refine hnil _ _ hm.ready ?_
            show s.cl.buf.drop (s.cl.idx + n) = []
            rw [hna, ← List.drop_drop, ha]
            simp

theorem read_total {n : Nat} {unread : Bytes} {s : St} {todo : List Msg} (hm : Mid s)
    (hi : s.cl.idx = 0) (ha : At s unread todo) (hpl : ∀ m ∈ todo, m.Fits ∧ m.Simple table) :
    0 < room s.cl ∧ ∃ s', event table (.readable (.data (unread.take (n + 1)))) env s = .ok s' := by
  have hroom : 0 < room s.cl := by
    unfold room
    cases ha with
    | between hc hw hl =>
      rw [hc]
      rw [hi, List.drop_zero] at hw hl
      cases todo with
      | nil =>
        have := (List.append_eq_nil_iff.1 (show s.cl.buf ++ unread = [] by simpa using hw)).1
        rw [this]; decide
      | cons m ms =>
        obtain ⟨h1, h8⟩ := hl m ms rfl
        dsimp only
        by_cases hct : ∀ p text, m ≠ .cutText p text
        · have := (simple_plain (hpl m (by simp)).1 (hpl m (by simp)).2).2.2 hct
          omega
        · simp only [Classical.not_forall, Classical.not_not] at hct
          obtain ⟨p, text, hct⟩ := hct
          have := h8 p text hct
          omega
    | within p text x y ms hc ht hy hb hu =>
      rw [hc]
      have hyl : 0 < y.length := List.length_pos_iff.2 hy
      have htl : text.length = x.length + y.length := by rw [ht, List.length_append]
      simp only
      omega
  refine ⟨hroom, ?_⟩
  unfold event
  rw [if_neg (by rw [hm.alive]; exact Bool.false_ne_true)]
  dsimp only
  rw [if_neg (by rw [hm.open_]; exact Bool.false_ne_true)]
  unfold onReadable
  cases ha with
  | between hc hw hl =>
    rw [hc]
    dsimp only
    rw [if_neg (by omega)]
    cases unread with
    | nil => exact ⟨_, rfl⟩
    | cons u us =>
      rw [List.take_succ_cons]
      dsimp only
      have hb : ¬ msgBufferSize ≤ s.cl.buf.length := by
        unfold room at hroom; rw [hc] at hroom; unfold msgBufferSize; simp only at hroom; omega
      rw [if_neg hb, ← List.take_succ_cons, List.take_take, Nat.min_comm]
      generalize min (n + 1) (msgBufferSize - s.cl.buf.length) = k
      obtain ⟨t, ht⟩ := loop_total (env := env) (table := table) (unread := (u :: us).drop k)
        ((s.cl.buf ++ (u :: us).take k).length + 1)
        (s.upd fun c => { c with
          buf := s.cl.buf ++ (u :: us).take k
          plain := if c.chan = .plain then (s.cl.buf ++ (u :: us).take k).length else c.plain }) todo
        (by exact ⟨hm.net, hm.ready, hm.open_, hm.pending, hm.defer, hm.alive, hm.blocked, hm.mustBlock⟩)
        (by
          show (s.cl.buf ++ (u :: us).take k).drop s.cl.idx ++ (u :: us).drop k = _
          rw [hi, List.drop_zero, List.append_assoc, List.take_append_drop]
          rw [hi, List.drop_zero] at hw
          exact hw) hpl (by show s.cl.idx ≤ _; rw [hi]; exact Nat.zero_le _)
      rw [ht]
      exact ⟨_, rfl⟩
  | within p text x y ms hc ht hy hb hu =>
    rw [hc]
    have hyl : 0 < y.length := List.length_pos_iff.2 hy
    have htl : text.length = x.length + y.length := by rw [ht, List.length_append]
    dsimp only
    rw [if_neg (by omega)]
    cases unread with
    | nil => exact ⟨_, rfl⟩
    | cons u us =>
      rw [List.take_succ_cons]
      dsimp only
      unfold bigCutText
      rw [if_neg (by simp only; omega)]
      dsimp only
      split
      · exact ⟨_, rfl⟩
      · exact ⟨_, rfl⟩

/-- reads alone: nothing goes wrong and, once there were enough of them, everything is read -/
theorem feed_total : ∀ (sizes : List (Nat × Env)) (s : St) (unread : Bytes) (todo : List Msg),
    Mid s → s.cl.idx = 0 → At s unread todo → (∀ m ∈ todo, m.Fits ∧ m.Simple table) →
    ∃ s' u', feed table (sizes.map fun p => (.read p.1, p.2)) s unread = .ok (s', u') ∧
      u'.length ≤ unread.length - sizes.length := by
  intro sizes
  induction sizes with
  | nil => intro s u todo _ _ _ _; exact ⟨s, u, rfl, Nat.le_refl _⟩
  | cons p sizes ih =>
    intro s u todo hm hi ha hpl
    obtain ⟨hroom, t, ht⟩ := read_total (env := p.2) (n := p.1) hm hi ha hpl
    obtain ⟨d, todo1, g1, g2, g3, g4, g5, g6⟩ := read_feed hm hi ha
      (simple_noStall (fun m hm => (hpl m hm).2) _)
      (fun m hm => simple_plain (hpl m hm).1 (hpl m hm).2) ht
    obtain ⟨s', u', h1, h2⟩ := ih t _ todo1 g2 g3 g4 (fun m hm => hpl m (by rw [g1]; simp [hm]))
    refine ⟨s', u', ?_, ?_⟩
    · rw [List.map_cons]
      unfold feed
      have hnet : { s with net := [] } = s := by
        have := hm.net
        cases s; simp only at this; subst this; rfl
      unfold step
      rw [hnet, ht]
      exact h1
    · rw [List.length_drop] at h2
      rw [List.length_cons]
      omega

end Verif.Server
