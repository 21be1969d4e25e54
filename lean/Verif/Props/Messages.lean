import Verif.Props.Segmentation

/-!
# Progress, the choice of an encoding, desktop layouts and fences (C09, C13, C19, C20, C21)
-/

namespace Verif.Server

variable {table : List Nat} {env : Env}

/-- the state in which a fence request decides whether it can be answered at once -/
def fenceMark (flags : Nat) (s : St) : St :=
  if flags.testBit 0 ∧ 0 < s.cl.nPending + (if s.cl.isUpdating then 1 else 0) then
    (s.upd fun k => { k with pfN := k.nPending + (if s.cl.isUpdating then 1 else 0) })
  else if flags.testBit 2 ∧ s.cl.isUpdating then
    (s.upd fun k => { k with pfN := 1, mustBlock := flags.testBit 1 })
  else s

theorem onFenceRequest_eq {flags : Nat} {pl : Bytes} {s : St} (h : s.cl.nPending ≤ 0) :
    onFenceRequest flags pl s = (if (fenceMark (flags % 8) s).cl.pfN = 0 then
      (do let s ← sendFence (flags % 8) pl (fenceMark (flags % 8) s); .ok (s, true))
    else .ok ((fenceMark (flags % 8) s).upd fun k => { k with
        blocked := decide (flags % 8 = fenceBlockBefore + fenceBlockAfter),
        pfFlags := flags % 8, pfPayload := pl }, true)) := by
  unfold onFenceRequest fenceMark
  rw [if_neg (show ¬ 0 < s.cl.nPending by omega)]

theorem fenceMark_log (flags : Nat) (s : St) : (fenceMark flags s).log = s.log := by
  unfold fenceMark
  generalize (if s.cl.isUpdating = true then (1 : Int) else 0) = u
  split
  · rfl
  · split <;> rfl

theorem fenceMark_idle {flags : Nat} {s : St} (h : s.cl.nPending ≤ 0) (hu : s.cl.isUpdating = false) :
    fenceMark flags s = s := by
  unfold fenceMark
  simp only [hu]
  rw [if_neg (fun h => absurd h.2 (by simp; omega)), if_neg (fun h => absurd h.2 (by decide))]

/-! ## C09 -/

/-- C09, the messages for which it holds: a complete message at the read position is handled and the
server moves past exactly its bytes, whatever follows it.

Missing: incremental update requests while continuous updates are on and fence requests while update
requests are pending (`c09_progress_violated`); messages that do not fit the receive buffer
(`c09_long_violated`). -/
theorem c09_progress_partial {s s' : St} {m : Msg} {n : Nat} {rest : Bytes} (hr : s.cl.st = .ready)
    (hn : s.net = []) (hf : m.Fits)
    (hs : ∀ inc q, m = .fbRequest inc q → ¬ (inc ≠ 0 ∧ s.cl.cont = true))
    (hq : ∀ p flags payload, m = .fence p flags payload → 2147483648 ≤ flags → s.cl.nPending ≤ 0)
    (e : tryRead env table reenterInHandler s (m.wire ++ rest) = .ok (s', n)) :
    n = m.wire.length := by
  by_cases hfl : ∀ p flags payload, m = .fence p flags payload → flags < 2147483648
  · exact (msg_complete hn hr hf hfl hs e).1
  · simp only [Classical.not_forall, Nat.not_lt] at hfl
    obtain ⟨p, flags, pl, rfl, hge⟩ := hfl
    have h0 := hq p flags pl rfl hge
    rw [msg_fence hr hf.1 hf.2, if_pos (show fenceRequest ≤ flags from hge)] at e
    obtain ⟨⟨t, b⟩, ht, e⟩ := Outcome.bind_eq_ok.1 e
    have hb : b = true := by
      unfold onFenceRequest at ht
      rw [if_neg (by rw [noteFence_cl]; omega)] at ht
      dsimp only at ht
      rcases ite_cases ht with ⟨-, ht⟩ | ⟨-, ht⟩
      · obtain ⟨v, -, ht⟩ := Outcome.bind_eq_ok.1 ht
        cases ht; rfl
      · cases ht; rfl
    subst hb
    cases e
    simp [Msg.wire]
    omega

/-- a non-incremental request during continuous updates, and a fence request with none pending -/
example : (Msg.fbRequest 0 ⟨0, 0, 4, 3⟩).Fits ∧ (Msg.fence 0 2147483649 [1, 2]).Fits ∧
    ¬ ((0 : UInt8) ≠ 0 ∧ true = true) ∧ demoClient.cl.nPending ≤ 0 :=
  ⟨⟨by decide, by decide, by decide, by decide⟩, ⟨by decide, by decide⟩, by decide, by decide⟩

/-- C09 is false: an incremental request that arrives while continuous updates are on is never
consumed, in whatever state the server is otherwise (server.c 974-975 returns 0), and neither is a
fence request while update requests are pending (server.c 1757-1760) -/
theorem c09_progress_violated {s : St} (hr : s.cl.st = .ready) (rest : Bytes) :
    (∀ inc q, inc ≠ 0 → q.Fits → s.cl.cont = true →
      tryRead env table reenterInHandler s ((Msg.fbRequest inc q).wire ++ rest) = .ok (s, 0)) ∧
    (∀ p flags pl, 2147483648 ≤ flags → (Msg.fence p flags pl).Fits → 0 < s.cl.nPending →
      ∃ s', tryRead env table reenterInHandler s ((Msg.fence p flags pl).wire ++ rest) = .ok (s', 0)) := by
  constructor
  · intro inc q hi hq hc
    rw [msg_fbRequest hr hq, if_pos ⟨hi, hc⟩]
  · intro p flags pl hge hf hn
    rw [msg_fence hr hf.1 hf.2, if_pos (show fenceRequest ≤ flags from hge)]
    unfold onFenceRequest
    rw [if_pos (by simpa using hn)]
    exact ⟨_, rfl⟩

/-- what follows is lost with it: the key event behind the incremental request is never reported,
however much else happens -/
example : (match feed [] [(.read 99, demoEnv), (.other .written, demoEnv),
      (.other (.damage [⟨0, 0, 1, 1⟩]), demoEnv), (.read 99, demoEnv)] demoClient
      ((Msg.contUpdates 1 ⟨0, 0, 4, 3⟩).wire ++ (Msg.fbRequest 1 ⟨0, 0, 4, 3⟩).wire ++
        (Msg.key 1 0 65).wire) with
    | .ok (s, u) => decide (u = [] ∧ callbacks s.log = [] ∧ s.cl.buf.length = 18)
    | _ => false) = true := by decide +kernel

/-- C09 is false for long messages: a SetEncodings message with 1024 or more entries is never
complete within the 4096 bytes of the receive buffer, so whatever part of it is there, it is not
consumed -/
theorem c09_long_violated {s : St} (hr : s.cl.st = .ready) {p : UInt8} {es : List Int} {a b : Bytes}
    (hl : 1024 ≤ es.length) (hf : (Msg.setEncodings p es).Fits) (hab : a ++ b = (Msg.setEncodings p es).wire)
    (ha : a.length ≤ 4096) : tryRead env table reenterInHandler s a = .ok (s, 0) := by
  have hlen : (Msg.setEncodings p es).wire.length = 4 + es.length * 4 := by
    simp only [Msg.wire, List.length_append, flatMap_wire32_length]; simp
  have hb : b ≠ [] := by
    rintro rfl
    rw [List.append_nil] at hab
    rw [hab] at ha
    omega
  rw [tryRead_ready hr]
  rcases prefix_cases (hd := [2, p] ++ be16 es.length) (n := 4) rfl hab with ⟨k, hk, rfl⟩ | ⟨x, rfl, hx⟩
  · match k, hk with
    | 0, _ | 1, _ | 2, _ | 3, _ => rfl
  · simp only [be16, List.cons_append, List.nil_append, onMessage]
    rw [if_neg (by decide), if_pos trivial]
    simp only [onSetEncodings, rd16_be16 _ hf.1]
    have : slice (2 :: p :: UInt8.ofNat (es.length / 256) :: UInt8.ofNat es.length :: x) 4
        (es.length * 4) = none := by
      unfold slice
      rw [if_neg]
      simp only [be16, List.length_append, List.length_cons, List.length_nil] at ha ⊢
      omega
    rw [this]

example : 1024 ≤ (List.replicate 1024 (0 : Int)).length ∧
    (Msg.setEncodings 0 (List.replicate 1024 0)).Fits := by
  refine ⟨by rw [List.length_replicate]; exact Nat.le_refl _, ?_, fun e he => ?_⟩
  · rw [List.length_replicate]; decide
  · rw [List.eq_of_mem_replicate he]; decide

/-! ## C13 -/

/-- the server can encode frames of this kind of buffer like that -/
def Usable (env : Env) (fb : Fb) (e : Int) : Bool :=
  e == 0 || e == 7 || e == 16 || (e == 50 && fb.gbm && env.h264Works)

theorem chooseEncoding_eq (fb : Fb) (es : List Int) :
    chooseEncoding env fb es = (es.find? (Usable env fb)).getD 0 := by
  induction es with
  | nil => rfl
  | cons e es ih =>
    unfold chooseEncoding
    have hu : Usable env fb e =
        (e == 0 || e == 7 || e == 16 || (e == 50 && fb.gbm && env.h264Works)) := rfl
    unfold encRaw encTight encZrle encH264
    by_cases h1 : e = 0
    · subst h1; rfl
    by_cases h2 : e = 7
    · subst h2; rfl
    by_cases h3 : e = 16
    · subst h3; rfl
    by_cases h4 : e = 50
    · subst h4
      cases hg : fb.gbm <;> cases hh : env.h264Works <;> simp [List.find?_cons, hu, hg, hh, ih]
    · have hb : Usable env fb e = false := by simp [hu, h1, h2, h3, h4]
      rw [List.find?_cons, hb]
      simp [h1, h2, h3, h4, ih]

/-- the frames started between two states were encoded like that -/
def FramesUse (enc : Fb → Int) (s s' : St) : Prop :=
  ∃ es, s'.log = s.log ++ es ∧ ∀ e d f q, .encode e d f q ∈ es →
    ∃ fb, s.srv.fb = some fb ∧ e = enc fb

theorem FlowFrame.framesUse {s s' : St} (h : FlowFrame env s s') :
    FramesUse (fun fb => (s.cl.encodings.find? (Usable env fb)).getD 0) s s' := by
  obtain ⟨es, h1, h2⟩ := h.log
  refine ⟨es, h1, fun e d f q he => ?_⟩
  rcases h2 _ he with ⟨-, k, b, -, h⟩ | ⟨fb, d', f', q', hfb, h⟩ | h
  · cases h
  · injection h with h
    exact ⟨fb, hfb, h.trans (chooseEncoding_eq fb _)⟩
  · cases h

/-- C13, frames started by events: when damage, a new cursor, an LED state or the completion of the
previous frame starts a frame, it is encoded with the first encoding of the client's list that the
server can produce for the displayed buffer, and with raw if there is none.  (Nothing else to read at
that moment; the frames started while reading are those of `c13_message`.) -/
theorem c13_event {s s' : St} {o : Op} (ho : ∀ rd, o ≠ .readable rd) (hne : ∀ fb, o ≠ .display fb)
    (e : step table o env [] s = .ok s') :
    FramesUse (fun fb => (s.cl.encodings.find? (Usable env fb)).getD 0) s s' := by
  have key : ∀ {t : St}, (∃ fs, t.log = s.log ++ fs ∧ ∀ e ∈ fs, ∀ a b c d, e ≠ .encode a b c d) →
      t.srv.fb = s.srv.fb → t.cl.encodings = s.cl.encodings → FlowFrame env t s' →
      FramesUse (fun fb => (s.cl.encodings.find? (Usable env fb)).getD 0) s s' := by
    rintro t ⟨fs, h1, hfs⟩ h2 h3 h
    obtain ⟨es, g1, g2⟩ := h.framesUse
    rw [h2, h3] at g2
    refine ⟨fs ++ es, by rw [g1, h1, List.append_assoc], fun e d f q he => ?_⟩
    rcases List.mem_append.1 he with he | he
    · exact absurd rfl (hfs _ he _ _ _ _)
    · exact g2 e d f q he
  have nothing : ∀ {es}, s'.log = s.log ++ es → (∀ e ∈ es, e = .deferClose) →
      FramesUse (fun fb => (s.cl.encodings.find? (Usable env fb)).getD 0) s s' := fun h h' =>
    ⟨_, h, fun _ _ _ _ he => by cases h' _ he⟩
  have close : ∀ t : St, (streamClose t).log = t.log ∨ (streamClose t).log = t.log ++ [.deferClose] := by
    intro t
    unfold streamClose
    split
    · exact .inl rfl
    · dsimp only
      split
      · exact .inr rfl
      · exact .inl rfl
  have closing : ∀ t : St, t.log = s.log → s'.log = (streamClose t).log →
      FramesUse (fun fb => (s.cl.encodings.find? (Usable env fb)).getD 0) s s' := by
    intro t ht h
    rcases close t with hc | hc
    · exact nothing (es := []) (by rw [h, hc, ht]; simp) (by simp)
    · exact nothing (es := [.deferClose]) (by rw [h, hc, ht]) (by simp)
  unfold step event at e
  split at e
  · have : s'.log = s.log := by
      cases o <;> dsimp only at e <;> first
        | (rcases ite_cases e with ⟨-, e⟩ | ⟨-, e⟩ <;> cases e; rfl)
        | (cases e; rfl)
    exact nothing (es := []) (by simp [this]) (by simp)
  · cases o with
    | readable rd => exact absurd rfl (ho rd)
    | display fb => exact absurd rfl (hne fb)
    | written =>
      rcases ite_cases e with ⟨-, e⟩ | ⟨-, e⟩
      · exact key (by exact ⟨[], by simp, by simp⟩) (by rfl) (by rfl) (completeFb_flow reenterTop_quiet (by rfl) e)
      · cases e; exact nothing (es := []) (by simp) (by simp)
    | encoded f =>
      rcases ite_cases e with ⟨-, e⟩ | ⟨-, e⟩
      · exact key (by exact ⟨[.encodeDone f], rfl, by simp⟩) (by rfl) (by rfl) (finishFb_flow reenterTop_quiet (by rfl) e)
      · cases e; exact nothing (es := []) (by simp) (by simp)
    | flushed =>
      rcases ite_cases e with ⟨-, e⟩ | ⟨-, e⟩
      · cases e; exact closing { s with net := [] } rfl rfl
      · cases e; exact nothing (es := []) (by simp) (by simp)
    | idle =>
      rcases ite_cases e with ⟨-, e⟩ | ⟨-, e⟩
      · cases e; exact nothing (es := []) (by simp) (by simp)
      · cases e
        exact closing (St.upd { s with net := [] } fun k => { k with nDefer := k.nDefer - 1 }) rfl rfl
    | appClose => cases e; exact closing { s with net := [] } rfl rfl
    | damage q =>
      refine key ?_ ?_ ?_ (processFb_flow reenterTop_quiet ?_ e) <;> split <;>
        first | rfl | exact ⟨[.damaged q], rfl, by simp⟩ | exact ⟨[], (List.append_nil _).symm, by simp⟩
    | cursor => exact key (by exact ⟨[], by simp, by simp⟩) (by rfl) (by rfl) (processFb_flow reenterTop_quiet (by rfl) e)
    | setLed v => exact key (by exact ⟨_, rfl, by simp⟩) (by rfl) (by rfl) (processFb_flow reenterTop_quiet (by rfl) e)

/-- C13, frames started by messages: a message that starts a frame does so with the first usable
encoding of the client's list -/
theorem c13_message {s s' : St} {m : Msg} {n : Nat} {rest : Bytes} (hr : s.cl.st = .ready)
    (hn : s.net = []) (hf : m.Fits)
    (e : tryRead env table reenterInHandler s (m.wire ++ rest) = .ok (s', n)) :
    FramesUse (fun fb => (s.cl.encodings.find? (Usable env fb)).getD 0) s s' := by
  have key : ∀ {t : St} {fs}, t.log = s.log ++ fs → (∀ e ∈ fs, ∀ a b c d, e ≠ .encode a b c d) →
      t.srv.fb = s.srv.fb → t.cl.encodings = s.cl.encodings →
      FlowFrame env t s' →
      FramesUse (fun fb => (s.cl.encodings.find? (Usable env fb)).getD 0) s s' := by
    intro t fs h1 hfs h2 h3 h
    obtain ⟨es, g1, g2⟩ := h.framesUse
    rw [h2, h3] at g2
    refine ⟨fs ++ es, by rw [g1, h1, List.append_assoc], fun e d f q he => ?_⟩
    rcases List.mem_append.1 he with he | he
    · exact absurd rfl (hfs _ he e d f q)
    · exact g2 _ _ _ _ he
  have nothing : ∀ {es}, s'.log = s.log ++ es → (∀ e ∈ es, ∀ a b c d, e ≠ .encode a b c d) →
      FramesUse (fun fb => (s.cl.encodings.find? (Usable env fb)).getD 0) s s' := fun h h' =>
    ⟨_, h, fun _ _ _ _ he => absurd rfl (h' _ he _ _ _ _)⟩
  have hsend : ∀ (k b) (t : St), ∃ es, (send k b t).log = t.log ++ es ∧
      ∀ e ∈ es, ∀ a b c d, e ≠ .encode a b c d := by
    intro k b t
    rw [send_log]
    split
    · exact ⟨[], rfl, by simp⟩
    · exact ⟨_, rfl, by simp⟩
  cases m with
  | key d p sym =>
    rw [msg_key hr hf] at e
    cases e
    exact nothing rfl (by simp)
  | pointer mk x y =>
    rw [msg_pointer hr hf.1 hf.2] at e
    cases e
    exact nothing rfl (by simp)
  | cutText p text =>
    by_cases hl : text.length ≤ maxCutText
    · rw [msg_cutText hr hl] at e
      cases e
      exact nothing rfl (by simp)
    · rw [msg_cutText_long hr hf (by omega)] at e
      cases e
  | qemuKey d sym code =>
    cases hv : table[code]? with
    | none => rw [msg_qemuKey_out hr hf.2.2 hv] at e; cases e
    | some v =>
      rw [msg_qemuKey hr hf.1 hf.2.2 hv] at e
      cases e
      exact nothing rfl (by simp)
  | setPixelFormat p f =>
    by_cases ht : f.trueColour = 0
    · rw [msg_pixmap hr ht] at e
      cases e
      obtain ⟨es, h1, h2⟩ := hsend .colourMap rgb332Map
        (emit (.pixFmt cookedFmt) (s.upd fun k => { k with pix := cookedFmt }))
      exact nothing (es := .pixFmt cookedFmt :: es) (by simpa using h1) (by simpa using h2)
    · rw [msg_pixfmt hr hf ht] at e
      cases e
      exact nothing (es := [.pixFmt f]) (by simp) (by simp)
  | setEncodings p es =>
    rw [msg_setEncodings hr hf.1] at e
    generalize scanEncodings env.experimental (es.flatMap wire32) [] 10 = sc at e
    obtain ⟨encs, q⟩ := sc
    dsimp only at e
    obtain ⟨t, ht, e⟩ := Outcome.bind_eq_ok.1 e
    cases e
    have h1 : ∃ es, (notifyCont (emit (.encodings encs)
        (s.upd fun k => { k with encodings := encs, quality := q, formatsChanged := true }))).log
        = s.log ++ es ∧ ∀ e ∈ es, ∀ a b c d, e ≠ .encode a b c d := by
      unfold notifyCont
      split
      · obtain ⟨es, h1, h2⟩ := hsend .endOfCont [150] ((emit (.encodings encs)
          (s.upd fun k => { k with encodings := encs, quality := q, formatsChanged := true })).upd fun k =>
            { k with contNotified := true })
        refine ⟨.encodings encs :: es, by rw [h1]; simp, ?_⟩
        intro e he
        rcases List.mem_cons.1 he with rfl | he
        · simp
        · exact h2 e he
      · exact ⟨_, rfl, by simp⟩
    obtain ⟨es1, h1, h1'⟩ := h1
    generalize notifyCont _ = u at ht h1
    have h2 : ∃ es, (if hasEnc u.cl encExtClipboard = true then sendClipCaps u else u).log = u.log ++ es ∧
        ∀ e ∈ es, ∀ a b c d, e ≠ .encode a b c d := by
      split
      · exact hsend _ _ _
      · exact ⟨[], by simp, by simp⟩
    obtain ⟨es2, h2, h2'⟩ := h2
    generalize (if hasEnc u.cl encExtClipboard = true then sendClipCaps u else u) = v at ht h2
    have h3 : ∃ es, s'.log = v.log ++ es ∧ ∀ e ∈ es, ∀ a b c d, e ≠ .encode a b c d := by
      unfold sendPing at ht
      rcases ite_cases ht with ⟨-, ht⟩ | ⟨-, ht⟩
      · cases ht; exact ⟨[], by simp, by simp⟩
      · unfold sendFence at ht
        rcases ite_cases ht with ⟨-, ht⟩ | ⟨-, ht⟩
        · cases ht
        · injection ht with ht
          rw [← ht]
          exact hsend _ _ _
    obtain ⟨es3, h3, h3'⟩ := h3
    refine nothing (es := es1 ++ es2 ++ es3) (by rw [h3, h2, h1]; simp) ?_
    intro e he
    rcases List.mem_append.1 he with he | he
    · rcases List.mem_append.1 he with he | he
      · exact h1' e he
      · exact h2' e he
    · exact h3' e he
  | setDesktopSize p w h fl ss =>
    rw [msg_setDesktopSize hr hf] at e
    injection e with e; injection e with e _
    generalize checkLayout env { w := w, h := h, screens := ss } = c at e
    obtain ⟨es, h1, h2⟩ := hsend .desktopSize (updateHead 1 ++ extDesktopSizeRect w h 1 c.1)
      (if c.2 then emit (.layout { w := w, h := h, screens := ss }) s else s)
    rw [e] at h1
    split at h1
    · refine nothing (es := [.layout { w := w, h := h, screens := ss }] ++ es) (by rw [h1]; simp) ?_
      intro e he
      rcases List.mem_append.1 he with he | he
      · simp at he; simp [he]
      · exact h2 e he
    · exact nothing h1 h2
  | ntp t0 t1 t2 t3 p =>
    rw [msg_ntp hr hf.2.2.2] at e
    injection e with e; injection e with e _
    rcases ite_cases e with ⟨-, e⟩ | ⟨-, e⟩
    · obtain ⟨es, h1, h2⟩ := hsend .ntp ([160, p, p, p] ++ be32 t0 ++ be32 env.now ++ be32 env.now ++
        be32 t3) s
      rw [e] at h1
      exact nothing h1 h2
    · subst e
      exact nothing (es := []) (by simp) (by simp)
  | fbRequest inc q =>
    rw [msg_fbRequest hr hf] at e
    rcases ite_cases e with ⟨-, e⟩ | ⟨-, e⟩
    · cases e; exact nothing (es := []) (by simp) (by simp)
    obtain ⟨t, ht, e⟩ := Outcome.bind_eq_ok.1 e
    cases e
    have h0 : ∀ i (u : St), (forgetSize i u).log = u.log ∧ (forgetSize i u).srv = u.srv ∧
        (forgetSize i u).net = u.net ∧ (forgetSize i u).cl.encodings = u.cl.encodings := by
      intro i u
      unfold forgetSize
      split <;> exact ⟨rfl, rfl, rfl, rfl⟩
    unfold fbReqPre at ht
    dsimp only at ht
    obtain ⟨g1, g2, g3, g4⟩ := h0 (inc != 0) (emit (.fbReq (inc != 0) q.x q.y q.w q.h)
      (s.upd fun k => { k with
        nPending := k.nPending + 1, damage := if (inc != 0) = true then k.damage else k.damage ++ [q] }))
    refine key (fs := [.fbReq (inc != 0) q.x q.y q.w q.h]) (g1.trans (by simp)) (by simp)
      (by rw [g2]; rfl) g4 (processFb_flow reenterInHandler_quiet (g3.trans hn) ht)
  | contUpdates on q =>
    rw [msg_contUpdates hr hf] at e
    rcases ite_cases e with ⟨-, e⟩ | ⟨-, e⟩
    · obtain ⟨t, ht, e⟩ := Outcome.bind_eq_ok.1 e
      cases e
      generalize hu : s.upd _ = u at ht
      exact key (t := emit .contOn u) (fs := [.contOn]) (by rw [← hu]; simp) (by simp) (by rw [← hu]; rfl)
        (by rw [← hu]; rfl) (processFb_flow reenterInHandler_quiet (by rw [← hu]; exact hn) ht)
    · cases e
      obtain ⟨es, h1, h2⟩ := hsend .endOfCont [150] (s.upd fun k => { k with
        cont := false, contRect := { x := 0, y := 0, w := 0, h := 0 } })
      exact nothing h1 h2
  | fence p flags pl =>
    rw [msg_fence hr hf.1 hf.2] at e
    rcases ite_cases e with ⟨-, e⟩ | ⟨-, e⟩
    · obtain ⟨⟨t, b⟩, ht, e⟩ := Outcome.bind_eq_ok.1 e
      have hts : s' = t := by cases b <;> cases e <;> rfl
      subst hts
      by_cases hp : 0 < s.cl.nPending
      · unfold onFenceRequest at ht
        rw [if_pos (by simpa using hp)] at ht
        cases ht; exact nothing (es := []) (by simp [noteFence_off hp]) (by simp)
      rw [noteFence_on (by omega), onFenceRequest_eq (by show s.cl.nPending ≤ 0; omega)] at ht
      have hul := fenceMark_log (flags % 8) (emit (.fenceReq flags pl) s)
      generalize fenceMark (flags % 8) (emit (.fenceReq flags pl) s) = u at ht hul
      rcases ite_cases ht with ⟨-, ht⟩ | ⟨-, ht⟩
      · obtain ⟨v, hv, ht⟩ := Outcome.bind_eq_ok.1 ht
        cases ht
        unfold sendFence at hv
        rcases ite_cases hv with ⟨-, hv⟩ | ⟨-, hv⟩
        · cases hv
        · injection hv with hv
          obtain ⟨es, h1, h2⟩ := hsend .fence ([248, 0, 0, 0] ++ be32 (flags % 8) ++
            [UInt8.ofNat pl.length] ++ pl) u
          rw [hv, hul] at h1
          refine nothing (es := [.fenceReq flags pl] ++ es) (by rw [h1]; simp) ?_
          intro e he
          rcases List.mem_append.1 he with he | he
          · simp at he; simp [he]
          · exact h2 e he
      · cases ht; exact nothing (es := [.fenceReq flags pl]) (by simp [hul]) (by simp)
    · obtain ⟨t, ht, e⟩ := Outcome.bind_eq_ok.1 e
      cases e
      unfold onFenceResponse at ht
      split at ht
      · dsimp only at ht
        rcases ite_cases ht with ⟨-, ht⟩ | ⟨-, ht⟩
        · cases ht; exact nothing (es := []) (by simp) (by simp)
        rcases ite_cases ht with ⟨-, ht⟩ | ⟨-, ht⟩
        · cases ht; exact nothing (es := []) (by simp) (by simp)
        · generalize hu : s.upd _ = u at ht
          exact key (t := u) (fs := []) (by rw [← hu]; simp) (by simp) (by rw [← hu]; rfl)
            (by rw [← hu]; rfl) (processFb_flow reenterInHandler_quiet (by rw [← hu]; exact hn) ht)
      · cases ht

/-- a client that prefers open-h264 gets ZRLE for an ordinary buffer -/
example : (match feed [] [(.read 99, demoEnv)] demoClient
      ((Msg.setEncodings 0 [50, 16, 7]).wire ++ (Msg.fbRequest 0 ⟨0, 0, 4, 3⟩).wire) with
    | .ok (s, _) => s.log.any fun | .encode e _ _ _ => e == 16 | _ => false
    | _ => false) = true ∧
    ([50, 16, 7].find? (Usable demoEnv demoFb)).getD 0 = 16 := by decide +kernel

/-! ## C19 -/

/-- C19: the layout callback is called exactly when every display lies within the requested size, with
exactly the fields sent; the requester is told 4 (forwarded) exactly when the callback was called
and accepted, 1 (prohibited) when it refused and 3 (invalid layout) when it was not called.  The
message is consumed and nothing else happens. -/
theorem c19_layout {s : St} {p : UInt8} {w h flags : Nat} {ss : List Screen} (rest : Bytes)
    (hr : s.cl.st = .ready) (hf : (Msg.setDesktopSize p w h flags ss).Fits)
    (hc : s.cl.closed = false) :
    ∃ status : Nat, tryRead env table reenterInHandler s ((Msg.setDesktopSize p w h flags ss).wire ++ rest) =
      .ok ({ s with log := s.log ++
        (if ∀ d ∈ ss, d.x + d.w ≤ w ∧ d.y + d.h ≤ h then [.layout ⟨w, h, ss⟩] else []) ++
        [.send s.cl.chan .desktopSize ([0, 0, 0, 1] ++ be16 1 ++ be16 status ++ be16 w ++ be16 h ++
          wire32 (-308) ++ [1, 0, 0, 0] ++ be32 0 ++ be16 0 ++ be16 0 ++ be16 w ++ be16 h ++ be32 0)] },
        (Msg.setDesktopSize p w h flags ss).wire.length) ∧
      status = (if ∀ d ∈ ss, d.x + d.w ≤ w ∧ d.y + d.h ≤ h then
        (if env.layoutFn ⟨w, h, ss⟩ then 4 else 1) else 3) := by
  rw [msg_setDesktopSize hr hf]
  have hall : (ss.all (fun d => decide (d.x + d.w ≤ w) && decide (d.y + d.h ≤ h))) = true ↔
      ∀ d ∈ ss, d.x + d.w ≤ w ∧ d.y + d.h ≤ h := by simp
  have hb : ∀ st, updateHead 1 ++ extDesktopSizeRect w h 1 st = [0, 0, 0, 1] ++ be16 1 ++ be16 st ++
      be16 w ++ be16 h ++ wire32 (-308) ++ [1, 0, 0, 0] ++ be32 0 ++ be16 0 ++ be16 0 ++ be16 w ++
      be16 h ++ be32 0 := by
    intro st
    simp only [updateHead, extDesktopSizeRect, rectHead, List.append_assoc]
    rfl
  have hlen : (Msg.setDesktopSize p w h flags ss).wire.length = 8 + ss.length * 16 := by
    simp only [Msg.wire, List.length_append, flatMap_screen_length]; simp
  rw [hlen]
  refine ⟨_, ?_, rfl⟩
  have hsend : ∀ (b : Bytes) (t : St), t.cl = s.cl →
      send .desktopSize b t = { t with log := t.log ++ [.send s.cl.chan .desktopSize b] } := by
    intro b t ht
    unfold send emit
    rw [if_neg (by rw [ht, hc]; decide), ht]
  by_cases hv : ∀ d ∈ ss, d.x + d.w ≤ w ∧ d.y + d.h ≤ h
  · have hcl : checkLayout env { w := w, h := h, screens := ss } =
        (if env.layoutFn ⟨w, h, ss⟩ then (4, true) else (1, true)) := by
      unfold checkLayout; rw [if_pos (hall.2 hv)]
    rw [if_pos hv, if_pos hv, hcl]
    rw [hsend _ _ (by split <;> rfl), hb]
    split <;> rfl
  · have hcl : checkLayout env { w := w, h := h, screens := ss } = (3, false) := by
      unfold checkLayout; rw [if_neg (fun h => hv (hall.1 h))]
    rw [if_neg hv, if_neg hv, hcl]
    rw [hsend _ _ (by split <;> rfl), hb]
    simp

/-- two screens side by side, and one that sticks out -/
example : (Msg.setDesktopSize 0 200 100 0 [⟨0, 0, 0, 100, 100⟩, ⟨1, 100, 0, 100, 100⟩]).Fits ∧
    (∀ d ∈ [(⟨0, 0, 0, 100, 100⟩ : Screen), ⟨1, 100, 0, 100, 100⟩], d.x + d.w ≤ 200 ∧ d.y + d.h ≤ 100) ∧
    ¬ (∀ d ∈ [(⟨0, 101, 0, 100, 100⟩ : Screen)], d.x + d.w ≤ 200 ∧ d.y + d.h ≤ 100) := by
  refine ⟨⟨by decide, by decide, by decide, ?_⟩, by decide, by decide⟩
  intro s hs
  simp only [List.mem_cons, List.not_mem_nil, or_false] at hs
  rcases hs with rfl | rfl <;> (unfold Screen.Fits; decide)

/-! ## C20, C21 -/

/-- C20, fences that can be answered at once: when no update is requested or under way, a fence request
is answered by exactly one fence message, with the same payload and the supported flags without the
request bit, and nothing else changes (the entry `fenceReq` of the log only records the request).

Missing: see `c20_fences_violated`. -/
theorem c20_fences_partial {s : St} {p : UInt8} {flags : Nat} {pl : Bytes} (rest : Bytes)
    (hr : s.cl.st = .ready) (hc : s.cl.closed = false) (hp : s.cl.nPending ≤ 0)
    (hu : s.cl.isUpdating = false) (h0 : s.cl.pfN = 0) (hf : (Msg.fence p flags pl).Fits)
    (hreq : 2147483648 ≤ flags) :
    tryRead env table reenterInHandler s ((Msg.fence p flags pl).wire ++ rest) =
      .ok ({ s with log := s.log ++ [.fenceReq flags pl,
        .send s.cl.chan .fence (Msg.fence 0 (flags % 8) pl).wire] },
        (Msg.fence p flags pl).wire.length) := by
  rw [msg_fence hr hf.1 hf.2, if_pos (show fenceRequest ≤ flags from hreq)]
  rw [noteFence_on hp, onFenceRequest_eq (by exact hp), fenceMark_idle (by exact hp) (by exact hu), if_pos (by exact h0)]
  unfold sendFence
  rw [if_neg (by have := hf.2; omega)]
  have hw : (Msg.fence p flags pl).wire.length = 9 + pl.length := by simp [Msg.wire]; omega
  rw [hw]
  have hs : send .fence ([248, 0, 0, 0] ++ be32 (flags % 8) ++ [UInt8.ofNat pl.length] ++ pl)
      (emit (.fenceReq flags pl) s) = { s with log := s.log ++ [.fenceReq flags pl,
        .send s.cl.chan .fence (Msg.fence 0 (flags % 8) pl).wire] } := by
    unfold send emit
    rw [if_neg (by rw [hc]; exact Bool.false_ne_true)]
    simp [Msg.wire]
  rw [hs]
  rfl

example : demoClient.cl.nPending ≤ 0 ∧ demoClient.cl.isUpdating = false ∧ demoClient.cl.pfN = 0 ∧
    (Msg.fence 0 2147483655 [1, 2, 3]).Fits ∧ 2147483655 % 8 = 7 :=
  ⟨by decide, rfl, rfl, ⟨by decide, by decide⟩, by decide⟩

/-- a fence message without the request bit -/
def isReply : Eff → Bool
  | .send _ .fence (248 :: _ :: _ :: _ :: f :: _) => decide (f < 128)
  | _ => false

/-- the log of the first state goes on, without a fence reply -/
def NoReply (s s' : St) : Prop := ∃ es, s'.log = s.log ++ es ∧ es.filter isReply = []

theorem NoReply.refl (s : St) : NoReply s s := ⟨[], by simp, rfl⟩

theorem NoReply.trans {s t u : St} (h : NoReply s t) (h' : NoReply t u) : NoReply s u := by
  obtain ⟨es, h1, h2⟩ := h
  obtain ⟨fs, g1, g2⟩ := h'
  exact ⟨es ++ fs, by rw [g1, h1, List.append_assoc], by rw [List.filter_append, h2, g2]; rfl⟩

theorem noReply_send {k : Kind} {b : Bytes} {s t : St} (h : ∀ c, isReply (.send c k b) = false)
    (hl : t.log = s.log) : NoReply s (send k b t) := by
  unfold NoReply
  rw [send_log, hl]
  split
  · exact ⟨[], by simp, rfl⟩
  · exact ⟨_, rfl, by simp [h]⟩

theorem sendFrame_noReply (f : Frame) (s : St) : NoReply s (sendFrame f s) := by
  unfold sendFrame
  have h1 : NoReply s (send .updateHead (updateHead (nRectsSent f s.cl % 65536)) s) :=
    noReply_send (fun _ => rfl) rfl
  dsimp only
  generalize send .updateHead (updateHead (nRectsSent f s.cl % 65536)) s = t at h1
  have h2 : NoReply t (if resized f s.cl = true then sendResizeRect f.w f.h t else t) := by
    split
    · exact noReply_send (fun _ => rfl) rfl
    · exact .refl _
  generalize (if resized f s.cl = true then sendResizeRect f.w f.h t else t) = u at h2
  have h3 : NoReply u (sendPts f.pts u) := by
    unfold sendPts
    split
    · exact .refl _
    · split
      · exact noReply_send (fun _ => rfl) rfl
      · exact .refl _
  exact (h1.trans h2).trans (h3.trans (noReply_send (fun _ => rfl) rfl))

/-- C20, fences that have to wait: a fence request that is to be ordered with the frame under way, with
no other request or fence waiting, is not answered at once; when the frame is sent there is exactly one
reply, with the same payload and the supported flags, behind the frame.

Missing: see `c20_fences_violated`. -/
theorem c20_deferred_partial {s s₁ s₂ : St} {p : UInt8} {flags n : Nat} {pl rest : Bytes} {env' : Env}
    {f : Frame} (hr : s.cl.st = .ready) (hc : s.cl.closed = false) (hp : s.cl.nPending = 0)
    (hu : s.cl.isUpdating = true) (henc : s.cl.encoding = true) (hfr : s.cl.freed = false)
    (hfl : (flags % 8).testBit 0 = true ∨ (flags % 8).testBit 2 = true)
    (hf : (Msg.fence p flags pl).Fits) (hreq : 2147483648 ≤ flags)
    (hd : (s.cl.formatsChanged && !hasEnc s.cl encFence) = false) (hq : env'.sentAtOnce = false)
    (e₁ : tryRead env table reenterInHandler s ((Msg.fence p flags pl).wire ++ rest) = .ok (s₁, n))
    (e₂ : step table (.encoded f) env' [] s₁ = .ok s₂) :
    s₁.log = s.log ++ [.fenceReq flags pl] ∧ n = (Msg.fence p flags pl).wire.length ∧
      ∃ es, s₂.log = s₁.log ++ es ++ [.send s.cl.chan .fence (Msg.fence 0 (flags % 8) pl).wire] ∧
        es.filter isReply = [] ∧ s₂.cl.blocked = false ∧ s₂.cl.pfN = 0 := by
  rw [msg_fence hr hf.1 hf.2, if_pos (show fenceRequest ≤ flags from hreq),
    noteFence_on (by omega), onFenceRequest_eq (by show s.cl.nPending ≤ 0; omega)] at e₁
  have hm : ∃ mb, fenceMark (flags % 8) (emit (.fenceReq flags pl) s) =
      ((emit (.fenceReq flags pl) s).upd fun k => { k with pfN := 1, mustBlock := mb }) := by
    unfold fenceMark
    by_cases h0 : (flags % 8).testBit 0 = true
    · refine ⟨s.cl.mustBlock, ?_⟩
      rw [if_pos ⟨h0, by show 0 < s.cl.nPending + (if s.cl.isUpdating = true then 1 else 0); rw [hu, hp]; decide⟩]
      simp only [St.upd, emit, hp, hu]
      rfl
    · have h2 := hfl.resolve_left h0
      refine ⟨(flags % 8).testBit 1, ?_⟩
      rw [if_neg (fun h => h0 h.1), if_pos ⟨h2, by exact hu⟩]
  obtain ⟨mb, hm⟩ := hm
  rw [hm, if_neg (by simp [St.upd])] at e₁
  cases e₁
  refine ⟨rfl, by simp [Msg.wire]; omega, ?_⟩
  unfold step event at e₂
  rw [if_neg (by simp [St.upd, hfr])] at e₂
  dsimp only at e₂
  rw [if_pos (by exact henc)] at e₂
  generalize hg : emit (.encodeDone f) (St.upd _ _) = u at e₂
  have hl : u.log = s.log ++ [.fenceReq flags pl] ++ [.encodeDone f] := by rw [← hg]; rfl
  have hn : u.net = [] := by rw [← hg]; rfl
  have hcu : u.cl.closed = false := by rw [← hg]; exact hc
  have hch : u.cl.chan = s.cl.chan := by rw [← hg]; rfl
  have hpf : u.cl.pfN = 1 := by rw [← hg]; rfl
  have hpl : u.cl.pfPayload = pl := by rw [← hg]; rfl
  have hpg : u.cl.pfFlags = flags % 8 := by rw [← hg]; rfl
  have hdu : (u.cl.formatsChanged && !hasEnc u.cl encFence) = false := by rw [← hg]; exact hd
  clear hg
  unfold finishFb at e₂
  rw [if_neg (by rw [hcu]; decide), if_neg (by rw [hdu]; decide)] at e₂
  rcases ite_cases e₂ with ⟨-, e⟩ | ⟨-, e⟩
  · cases e
  dsimp only at e
  rw [if_neg (by rw [hq]; decide)] at e
  obtain ⟨-, g2, ⟨kw, kh, dm, g3, -⟩, -⟩ := sendFrame_frame f u
  have g4 := sendFrame_noReply f u
  generalize sendFrame f u = v at e g2 g3 g4
  obtain ⟨v', hv', e'⟩ := Outcome.bind_eq_ok.1 e
  cases hv'
  obtain ⟨w, hw, e''⟩ := Outcome.bind_eq_ok.1 e'
  have h5 : NoReply v w ∧ w.net = [] ∧ ∃ x, w.cl = { v.cl with writing := true, inflight := x } := by
    unfold sendPing at hw
    rcases ite_cases hw with ⟨-, hw⟩ | ⟨-, hw⟩
    · cases hw
      exact ⟨.refl _, g2.trans hn, _, rfl⟩
    · unfold sendFence at hw
      rcases ite_cases hw with ⟨-, hw⟩ | ⟨-, hw⟩
      · cases hw
      · injection hw with hw
        subst hw
        refine ⟨noReply_send (fun c => ?_) rfl, ?_, ?_⟩
        · simp only [be32, isReply, List.cons_append, List.nil_append]
          decide
        · rw [send_net]; exact g2.trans hn
        · rw [send_cl]; exact ⟨_, rfl⟩
  obtain ⟨h5, h6, x, h7⟩ := h5
  obtain ⟨es, h8, h9⟩ := g4.trans h5
  have hcw : w.cl = { u.cl with
      knownW := kw, knownH := kh, damage := dm, writing := true, inflight := x } := by rw [h7, g3]
  unfold processPendingFence at e''
  rw [if_neg (by rw [hcw]; simp [hpf])] at e''
  dsimp only at e''
  rw [if_neg (by rw [hcw]; simp [hpf])] at e''
  obtain ⟨y, hy, e3⟩ := Outcome.bind_eq_ok.1 e''
  have := reenterTop_quiet _ _ (by
    unfold sendFence at hy
    rcases ite_cases hy with ⟨-, hy⟩ | ⟨-, hy⟩
    · cases hy
    · injection hy with hy
      subst hy
      show (send _ _ _).net = []
      rw [send_net]
      exact h6) e3
  subst this
  refine ⟨.encodeDone f :: es, ?_, by rw [List.filter_cons, if_neg (fun h => nomatch h), h9], rfl, rfl⟩
  unfold sendFence at hy
  rcases ite_cases hy with ⟨-, hy⟩ | ⟨-, hy⟩
  · cases hy
  injection hy with hy
  subst hy
  show (send _ _ _).log = _
  have i1 : w.cl.closed = false := by rw [hcw]; exact hcu
  have i2 : w.cl.chan = s.cl.chan := by rw [hcw]; exact hch
  have i3 : w.cl.pfFlags = flags % 8 := by rw [hcw]; exact hpg
  have i4 : w.cl.pfPayload = pl := by rw [hcw]; exact hpl
  rw [send_log, if_neg (by show ¬ w.cl.closed = true; rw [i1]; decide)]
  show w.log ++ [Eff.send w.cl.chan .fence ([248, 0, 0, 0] ++ be32 w.cl.pfFlags ++
    [UInt8.ofNat w.cl.pfPayload.length] ++ w.cl.pfPayload)] = _
  rw [i2, i3, i4, h8, hl]
  simp [Msg.wire]

/-- a fence behind an update request, answered behind the frame -/
example : (match feed [] [(.read 99, demoEnv),
      (.other (.encoded { w := 4, h := 3, nRects := 1, pts := none, payload := [1] }), demoEnv)] demoClient
      ((Msg.fbRequest 0 ⟨0, 0, 4, 3⟩).wire ++ (Msg.fence 0 2147483649 [7]).wire) with
    | .ok (s, _) => s.log.getLast? == some (.send .plain .fence (Msg.fence 0 1 [7]).wire) &&
        s.cl.writing && !demoEnv.sentAtOnce
    | _ => false) = true := by decide +kernel

/-- the answer of a decidable question about the end of a feed -/
def feedCheck (table : List Nat) (evs : List (Ev × Env)) (s : St) (b : Bytes) (f : St → Bytes → Bool) : Bool :=
  match feed table evs s b with
  | .ok (s, u) => f s u
  | _ => false

/-- C20 is false: of two fence requests that arrive while a frame is being encoded only the second
is ever answered, even after the frame was sent and nothing is left to do (server.c 1768-1785
overwrites the pending one) -/
theorem c20_fences_violated :
    feedCheck [] [(.read 99, demoEnv),
      (.other (.encoded { w := 4, h := 3, nRects := 1, pts := none, payload := [1] }), demoEnv),
      (.other .written, demoEnv)] demoClient
      ((Msg.fbRequest 0 ⟨0, 0, 4, 3⟩).wire ++ (Msg.fence 0 2147483649 [1]).wire ++
        (Msg.fence 0 2147483649 [2]).wire)
      (fun s u => u == [] && s.cl.buf == [] && s.cl.pfN == 0 && !s.cl.isUpdating &&
        s.log.filter (fun | .send _ .fence _ => true | _ => false) ==
          [.send .plain .fence (Msg.fence 0 1 [2]).wire]) = true := by decide +kernel

/-- C09 is false for messages that a fence held back: once it is answered, the client is no longer held back, but its
messages are only looked at when it sends something more, because on_client_event returns before the loop when there is
nothing to read (server.c 1959-1972).  The frame was sent, the fence was answered, and the key event lies in the buffer. -/
theorem c09_held_back_violated :
    feedCheck [] [(.read 99, demoEnv),
      (.other (.encoded { w := 4, h := 3, nRects := 1, pts := none, payload := [1] }), demoEnv),
      (.other .written, demoEnv), (.other (.damage [⟨0, 0, 1, 1⟩]), demoEnv)] demoClient
      ((Msg.fbRequest 0 ⟨0, 0, 4, 3⟩).wire ++ (Msg.fence 0 2147483651 [1]).wire ++ (Msg.key 1 0 65).wire)
      (fun s u => u == [] && s.cl.buf == (Msg.key 1 0 65).wire && s.cl.pfN == 0 && !s.cl.blocked && !s.cl.closed &&
        !s.cl.isUpdating && s.log.contains (.send .plain .fence (Msg.fence 0 3 [1]).wire) &&
        !s.log.contains (.key 65 true)) = true := by decide +kernel

/-- the next byte that arrives lets it through -/
example : feedCheck [] [(.read 27, demoEnv),
      (.other (.encoded { w := 4, h := 3, nRects := 1, pts := none, payload := [1] }), demoEnv),
      (.other .written, demoEnv), (.read 0, demoEnv)] demoClient
      ((Msg.fbRequest 0 ⟨0, 0, 4, 3⟩).wire ++ (Msg.fence 0 2147483651 [1]).wire ++ (Msg.key 1 0 65).wire ++ [5])
      (fun s u => u == [] && s.cl.buf == [5] && s.log.contains (.key 65 true)) = true := by decide +kernel

/-- C21 is false: with a request pending behind the frame that is being encoded, a fence request holds
the client back; finishing the frame then fails the assertion that it is not held back
(server.c 1757-1760 against 2421-2424) -/
theorem c21_fences_violated :
    feed [] [(.read 99, demoEnv),
      (.other (.encoded { w := 4, h := 3, nRects := 1, pts := none, payload := [1] }), demoEnv)] demoClient
      ((Msg.fbRequest 0 ⟨0, 0, 4, 3⟩).wire ++ (Msg.fbRequest 1 ⟨0, 0, 4, 3⟩).wire ++
        (Msg.fence 0 2147483648 []).wire) =
      .abort "process_pending_fence: !is_blocked_by_fence" := by decide +kernel

end Verif.Server
