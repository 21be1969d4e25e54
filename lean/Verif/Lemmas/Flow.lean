import Verif.Lemmas.ServerStep

/-!
# The update flow when nothing can be read in between

With no answers left for nested reads, the nested calls of on_client_event change nothing, and
process_fb_update_requests and its relatives touch only the fields listed in `FlowFrame`.
-/

namespace Verif.Server

variable {table : List Nat} {env : Env} {r : St → Outcome St}

/-- a nested event handler that finds nothing to read -/
def Quiet (r : St → Outcome St) : Prop := ∀ s s', s.net = [] → r s = .ok s' → s' = s

theorem reenterInHandler_quiet : Quiet reenterInHandler := by
  intro s s' hn e
  unfold reenterInHandler nextRead at e
  rw [hn] at e
  rcases ite_cases e with ⟨-, e⟩ | ⟨-, e⟩ <;> cases e
  rfl

theorem reenterTop_quiet : Quiet (reenterTop env table) := by
  intro s s' hn e
  unfold reenterTop nextRead at e
  rw [hn] at e
  dsimp only at e
  obtain ⟨t, ht, e'⟩ := Outcome.bind_eq_ok.1 e
  clear e
  have : t = s := by
    unfold onReadable at ht
    split at ht <;> rcases ite_cases ht with ⟨-, ht⟩ | ⟨-, ht⟩ <;> cases ht <;> rfl
  subst this
  rcases ite_cases e' with ⟨-, e⟩ | ⟨-, e⟩ <;> cases e
  rfl

/-- what the update flow lets the world see -/
def FlowEff (env : Env) (s : St) (e : Eff) : Prop :=
  (s.cl.closed = false ∧ ∃ k b, k.early = false ∧ e = .send s.cl.chan k b) ∨
  (∃ fb d f q, s.srv.fb = some fb ∧ e = .encode (chooseEncoding env fb s.cl.encodings) d f q) ∨
  e = .encodeFail

structure FlowFrame (env : Env) (s s' : St) : Prop where
  srv : ∃ n, s'.srv = { s.srv with nDamageClients := n }
  net : s'.net = s.net
  cl : ∃ infl pn pf pp bl xn cs ld np ec ei ek ne dm up fc en wr kw kh, s'.cl = { s.cl with
    inflight := infl, pfN := pn, pfFlags := pf, pfPayload := pp, blocked := bl, extNotified := xn,
    cursorSeq := cs, led := ld, nPending := np, encoder := ec, encId := ei, kept := ek, nEncs := ne, damage := dm, isUpdating := up,
    formatsChanged := fc, encoding := en, writing := wr, knownW := kw, knownH := kh }
  blocked : s'.cl.blocked = true → s.cl.blocked = true
  pf : s.cl.pfN = 0 → s'.cl.pfN = 0
  log : ∃ es, s'.log = s.log ++ es ∧ ∀ e ∈ es, FlowEff env s e

theorem FlowFrame.refl (s : St) : FlowFrame env s s :=
  ⟨⟨_, rfl⟩, rfl, ⟨_, _, _, _, _, _, _, _, _, _, _, _, _, _, _, _, _, _, _, _, rfl⟩, id, id,
    [], by simp, by simp⟩

theorem FlowFrame.trans {s t u : St} (h1 : FlowFrame env s t) (h2 : FlowFrame env t u) :
    FlowFrame env s u := by
  obtain ⟨⟨_, a1⟩, a2, ⟨_, _, _, _, _, _, _, _, _, _, _, _, _, _, _, _, _, _, _, _, a3⟩, a4, a5, es, a6, a7⟩ := h1
  obtain ⟨⟨_, b1⟩, b2, ⟨_, _, _, _, _, _, _, _, _, _, _, _, _, _, _, _, _, _, _, _, b3⟩, b4, b5, fs, b6, b7⟩ := h2
  refine ⟨⟨_, by rw [b1, a1]⟩, b2.trans a2,
    ⟨_, _, _, _, _, _, _, _, _, _, _, _, _, _, _, _, _, _, _, _, by rw [b3, a3]⟩, a4 ∘ b4, b5 ∘ a5,
    es ++ fs, by rw [b6, a6, List.append_assoc], ?_⟩
  intro e he
  rcases List.mem_append.1 he with he | he
  · exact a7 e he
  · have := b7 e he
    unfold FlowEff at this
    rw [a1, a3] at this
    exact this

theorem FlowFrame.upd (s) {f : Client → Client}
    (h : ∃ infl pn pf pp bl xn cs ld np ec ei ek ne dm up fc en wr kw kh, f s.cl = { s.cl with
      inflight := infl, pfN := pn, pfFlags := pf, pfPayload := pp, blocked := bl, extNotified := xn,
      cursorSeq := cs, led := ld, nPending := np, encoder := ec, encId := ei, kept := ek, nEncs := ne, damage := dm, isUpdating := up,
      formatsChanged := fc, encoding := en, writing := wr, knownW := kw, knownH := kh })
    (hb : (f s.cl).blocked = true → s.cl.blocked = true)
    (hp : s.cl.pfN = 0 → (f s.cl).pfN = 0) : FlowFrame env s (s.upd f) :=
  ⟨⟨_, rfl⟩, rfl, h, hb, hp, [], by simp, by simp⟩

theorem FlowFrame.of {s s' : St} (h1 : s'.srv = s.srv) (h2 : s'.net = s.net)
    (h : ∃ infl xn cs ld np ec ei ek ne dm up fc en wr kw kh, s'.cl = { s.cl with
      inflight := infl, extNotified := xn, cursorSeq := cs, led := ld, nPending := np,
      encoder := ec, encId := ei, kept := ek, nEncs := ne, damage := dm, isUpdating := up,
      formatsChanged := fc, encoding := en, writing := wr, knownW := kw, knownH := kh })
    (h4 : ∃ es, s'.log = s.log ++ es ∧ ∀ e ∈ es, FlowEff env s e) : FlowFrame env s s' := by
  obtain ⟨_, _, _, _, _, _, _, _, _, _, _, _, _, _, _, _, h⟩ := h
  exact ⟨⟨_, h1⟩, h2, ⟨_, _, _, _, _, _, _, _, _, _, _, _, _, _, _, _, _, _, _, _, h⟩, by rw [h]; exact id,
    by rw [h]; exact id, h4⟩

theorem flowLog_one {s s' : St} {k : Kind} (hk : k.early = false := by rfl)
    (h : s'.log = s.log ∨ (s.cl.closed = false ∧ ∃ b, s'.log = s.log ++ [.send s.cl.chan k b])) :
    ∃ es, s'.log = s.log ++ es ∧ ∀ e ∈ es, FlowEff env s e := by
  rcases h with h | ⟨hc, b, h⟩
  · exact ⟨[], by simp [h], by simp⟩
  · exact ⟨_, h, fun e he => .inl ⟨hc, k, b, hk, by simpa using he⟩⟩

theorem FlowFrame.send (s k b) (hk : k.early = false := by rfl) :
    FlowFrame env s (send k b s) :=
  .of (by simp) (by simp) ⟨_, _, _, _, _, _, _, _, _, _, _, _, _, _, _, _, by rw [send_cl]⟩ (by
    refine flowLog_one (k := k) hk ?_
    unfold Server.send
    split
    · exact .inl rfl
    · rename_i h; exact .inr ⟨by simpa using h, b, rfl⟩)

theorem sendFence_flow {flags p s s'} (e : sendFence flags p s = .ok s') : FlowFrame env s s' := by
  unfold sendFence at e
  rcases ite_cases e with ⟨-, e⟩ | ⟨-, e⟩ <;> cases e
  exact .send _ _ _

theorem sendPing_flow {n s s'} (e : sendPing env n s = .ok s') : FlowFrame env s s' := by
  unfold sendPing at e
  rcases ite_cases e with ⟨-, e⟩ | ⟨-, e⟩
  · cases e; exact .refl _
  · exact .trans (.upd s ⟨_, _, _, _, _, _, _, _, _, _, _, _, _, _, _, _, _, _, _, _, rfl⟩ id id)
      (sendFence_flow e)

theorem ppf_flow (hr : Quiet r) {s s'} (hn : s.net = []) (e : processPendingFence r s = .ok s') :
    FlowFrame env s s' := by
  unfold processPendingFence at e
  rcases ite_cases e with ⟨-, e⟩ | ⟨h0, e⟩
  · rcases ite_cases e with ⟨-, e⟩ | ⟨-, e⟩ <;> cases e
    exact .refl _
  · dsimp only at e
    rcases ite_cases e with ⟨-, e⟩ | ⟨-, e⟩
    · cases e
      exact .upd s ⟨_, _, _, _, _, _, _, _, _, _, _, _, _, _, _, _, _, _, _, _, rfl⟩ id
        (fun h => absurd h h0)
    · obtain ⟨t, ht, e⟩ := Outcome.bind_eq_ok.1 e
      have h1 : FlowFrame env s (s.upd fun k => { k with pfN := s.cl.pfN - 1 }) :=
        .upd s ⟨_, _, _, _, _, _, _, _, _, _, _, _, _, _, _, _, _, _, _, _, rfl⟩ id (fun h => absurd h h0)
      have h2 : FlowFrame env s t := h1.trans (sendFence_flow ht)
      have h3 := h2.trans (.upd t (f := fun k => { k with
          pfN := 0, pfFlags := 0, pfPayload := [], blocked := false })
        ⟨_, _, _, _, _, _, _, _, _, _, _, _, _, _, _, _, _, _, _, _, rfl⟩
        (fun h => by cases h) (fun _ => rfl))
      have := hr _ _ (h3.net.trans hn) e
      subst this
      exact h3

theorem decrementPending_flow (hr : Quiet r) {s s' b} (hn : s.net = [])
    (e : decrementPending r s = .ok (s', b)) : FlowFrame env s s' := by
  unfold decrementPending at e
  rcases ite_cases e with ⟨-, e⟩ | ⟨-, e⟩
  · cases e
  rcases ite_cases e with ⟨-, e⟩ | ⟨-, e⟩
  · cases e; exact .refl _
  obtain ⟨t, ht, e⟩ := Outcome.bind_eq_ok.1 e
  cases e
  exact .trans (ppf_flow hr hn ht)
    (.upd t ⟨_, _, _, _, _, _, _, _, _, _, _, _, _, _, _, _, _, _, _, _, rfl⟩ id id)

theorem stageExt_flow (hr : Quiet r) {s s' b} (hn : s.net = [])
    (e : stageExt r s = .ok (s', b)) : FlowFrame env s s' := by
  unfold stageExt at e
  rcases ite_cases e with ⟨-, e⟩ | ⟨-, e⟩
  · cases e; exact .refl _
  dsimp only at e
  have h0 : FlowFrame env s (s.upd fun k => { k with extNotified := true }) :=
    .upd s ⟨_, _, _, _, _, _, _, _, _, _, _, _, _, _, _, _, _, _, _, _, rfl⟩ id id
  obtain ⟨g1, g2, g3, g4⟩ := sendExtSupport_frame (s.upd fun k => { k with extNotified := true })
  generalize s.upd (fun k => { k with extNotified := true }) = t at e h0 g1 g2 g3 g4
  have h1 : FlowFrame env t (sendExtSupport t).1 :=
    .of g1 g2 ⟨_, _, _, _, _, _, _, _, _, _, _, _, _, _, _, _, g3⟩ (flowLog_one rfl g4)
  generalize sendExtSupport t = res at e h1
  obtain ⟨u, b'⟩ := res
  cases b'
  · cases e; exact h0.trans h1
  · have h2 := h0.trans h1
    exact h2.trans (decrementPending_flow hr (h2.net.trans hn) e)

theorem stageCursor_flow (hr : Quiet r) {s s' b} (hn : s.net = [])
    (e : stageCursor env r s = .ok (s', b)) : FlowFrame env s s' := by
  unfold stageCursor at e
  rcases ite_cases e with ⟨-, e⟩ | ⟨-, e⟩
  · obtain ⟨g1, g2, ⟨_, g3⟩, g4⟩ := sendCursor_frame env s
    have h1 : FlowFrame env s (sendCursor env s) :=
      .of g1 g2 ⟨_, _, _, _, _, _, _, _, _, _, _, _, _, _, _, _, g3⟩ (flowLog_one rfl g4)
    exact h1.trans (decrementPending_flow hr (h1.net.trans hn) e)
  · cases e; exact .refl _

theorem stageLed_flow (hr : Quiet r) {s s' b} (hn : s.net = [])
    (e : stageLed r s = .ok (s', b)) : FlowFrame env s s' := by
  unfold stageLed at e
  obtain ⟨g1, g2, ⟨_, g3⟩, g4⟩ := sendLed_frame s
  have h1 : FlowFrame env s (sendLed s).1 :=
    .of g1 g2 ⟨_, _, _, _, _, _, _, _, _, _, _, _, _, _, _, _, g3⟩ (flowLog_one rfl g4)
  generalize sendLed s = res at e h1
  obtain ⟨u, b'⟩ := res
  cases b'
  · cases e; exact h1
  · exact h1.trans (decrementPending_flow hr (h1.net.trans hn) e)

theorem ensureEncoder_choice {fb s t} (h : ensureEncoder env fb s = (t, true)) :
    t.cl.encoder = some (chooseEncoding env fb s.cl.encodings) := by
  unfold ensureEncoder at h
  dsimp only at h
  rcases ite_cases h with ⟨hc, h⟩ | ⟨-, h⟩
  · cases h; exact hc
  split at h
  · cases h; rfl
  rcases ite_cases h with ⟨-, h⟩ | ⟨-, h⟩
  · cases h
  · cases h; rfl

theorem stageFrame_flow {fb s s'} (hfb : s.srv.fb = some fb)
    (e : stageFrame env fb s = .ok s') : FlowFrame env s s' := by
  obtain ⟨h1, h2, ⟨_, _, _, _, _, _, _, _, _, h3⟩, -⟩ := stageFrame_frame e
  refine ⟨h1, h2, ⟨_, _, _, _, _, _, _, _, _, _, _, _, _, _, _, _, _, _, _, _, h3⟩, by rw [h3]; exact id,
    by rw [h3]; exact id, ?_⟩
  unfold stageFrame at e
  rcases ite_cases e with ⟨-, e⟩ | ⟨-, e⟩
  · cases e; exact ⟨[], by simp, by simp⟩
  rcases ite_cases e with ⟨-, e⟩ | ⟨-, e⟩
  · cases e; exact ⟨[], by simp, by simp⟩
  obtain ⟨n, en, ni, nk, nm, hf⟩ := ensureEncoder_frame env fb s
  have hch : ∀ t, ensureEncoder env fb s = (t, true) → _ := fun t => ensureEncoder_choice
  generalize ensureEncoder env fb s = res at e hf hch
  obtain ⟨t, b⟩ := res
  dsimp only at hf
  cases b
  · dsimp only at e
    rcases ite_cases e with ⟨-, e⟩ | ⟨-, e⟩
    · cases e
    cases e; subst hf; exact ⟨[], by simp, by simp⟩
  · have hch := hch _ rfl
    dsimp only at e
    rcases ite_cases e with ⟨-, e⟩ | ⟨-, e⟩
    · cases e
    rcases ite_cases e with ⟨-, e⟩ | ⟨-, e⟩
    · cases e
      rw [hch]
      subst hf
      refine ⟨[.encode (chooseEncoding env fb s.cl.encodings)
        ⟨fb, s.cl.damage.clip { x := 0, y := 0, w := fb.w, h := fb.h }, ni⟩ s.cl.pix s.cl.quality],
        ?_, ?_⟩
      · split <;> rfl
      · intro x hx
        rw [List.mem_singleton] at hx
        exact .inr (.inl ⟨fb, _, _, _, hfb, hx⟩)
    · cases e; subst hf; exact ⟨[.encodeFail], rfl, by simpa using .inr (.inr rfl)⟩

theorem FlowFrame.fb {s s'} (h : FlowFrame env s s') : s'.srv.fb = s.srv.fb := by
  obtain ⟨_, h⟩ := h.srv; rw [h]

theorem processFb_flow (hr : Quiet r) {s s'} (hn : s.net = [])
    (e : processFb env r s = .ok s') : FlowFrame env s s' := by
  unfold processFb at e
  rcases ite_cases e with ⟨-, e⟩ | ⟨-, e⟩
  · cases e; exact .refl _
  split at e
  · cases e; exact .refl _
  rename_i fb hfb
  rcases ite_cases e with ⟨-, e⟩ | ⟨-, e⟩
  · cases e; exact .refl _
  rcases ite_cases e with ⟨-, e⟩ | ⟨-, e⟩
  · cases e; exact .refl _
  obtain ⟨⟨t, b⟩, h1, e⟩ := Outcome.bind_eq_ok.1 e
  have i1 : FlowFrame env s t := stageExt_flow hr hn h1
  cases b
  · cases e; exact i1
  obtain ⟨⟨u, b⟩, h2, e⟩ := Outcome.bind_eq_ok.1 e
  have i2 := i1.trans (stageCursor_flow hr (i1.net.trans hn) h2)
  cases b
  · cases e; exact i2
  obtain ⟨⟨v, b⟩, h3, e⟩ := Outcome.bind_eq_ok.1 e
  have i3 := i2.trans (stageLed_flow hr (i2.net.trans hn) h3)
  cases b
  · cases e; exact i3
  exact i3.trans (stageFrame_flow (i3.fb.trans hfb) e)

theorem completeFb_flow (hr : Quiet r) {s s'} (hn : s.net = [])
    (e : completeFb env r s = .ok s') : FlowFrame env s s' := by
  unfold completeFb at e
  rcases ite_cases e with ⟨-, e⟩ | ⟨-, e⟩
  · cases e; exact .refl _
  have h0 : FlowFrame env s (s.upd fun k => { k with isUpdating := false }) :=
    .upd s ⟨_, _, _, _, _, _, _, _, _, _, _, _, _, _, _, _, _, _, _, _, rfl⟩ id id
  exact h0.trans (processFb_flow hr (h0.net.trans hn) e)

theorem finishFb_flow (hr : Quiet r) {f s s'} (hn : s.net = [])
    (e : finishFb env r f s = .ok s') : FlowFrame env s s' := by
  unfold finishFb at e
  rcases ite_cases e with ⟨-, e⟩ | ⟨-, e⟩
  · exact completeFb_flow hr hn e
  rcases ite_cases e with ⟨-, e⟩ | ⟨-, e⟩
  · have h0 : FlowFrame env s (s.upd fun k => { k with nPending := k.nPending + 1 }) :=
      .upd s ⟨_, _, _, _, _, _, _, _, _, _, _, _, _, _, _, _, _, _, _, _, rfl⟩ id id
    exact h0.trans (completeFb_flow hr (h0.net.trans hn) e)
  rcases ite_cases e with ⟨-, e⟩ | ⟨-, e⟩
  · cases e
  obtain ⟨g1, g2, ⟨_, _, _, g3, -⟩, ⟨es, g4, g5⟩⟩ := sendFrame_frame f s
  have h0 : FlowFrame env s (sendFrame f s) :=
    .of g1 g2 ⟨_, _, _, _, _, _, _, _, _, _, _, _, _, _, _, _, g3⟩
      ⟨es, g4, fun e he => .inl (g5 e he)⟩
  dsimp only at e
  obtain ⟨t, ht, e⟩ := Outcome.bind_eq_ok.1 e
  have h1 : FlowFrame env s t := by
    rcases ite_cases ht with ⟨-, ht⟩ | ⟨-, ht⟩
    · exact h0.trans (completeFb_flow hr (h0.net.trans hn) ht)
    · cases ht
      exact h0.trans (.upd _ ⟨_, _, _, _, _, _, _, _, _, _, _, _, _, _, _, _, _, _, _, _, rfl⟩ id id)
  obtain ⟨u, hu, e⟩ := Outcome.bind_eq_ok.1 e
  have h2 := h1.trans (sendPing_flow hu)
  exact h2.trans (ppf_flow hr (h2.net.trans hn) e)

end Verif.Server
