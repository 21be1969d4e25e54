import Verif.Lemmas.Big
import Verif.Props.Messages

/-!
# C22, C23: framebuffer updates are answers to requests, one at a time
-/

namespace Verif.Server

variable {table : List Nat} {env : Env} {r : St → Outcome St}

/-! ## What is counted -/

/-- the update requests of a log -/
def Eff.isRequest : Eff → Bool
  | .fbReq .. => true
  | _ => false

/-- the beginnings of framebuffer updates in a log -/
def Eff.isUpdate : Eff → Bool
  | .send _ k _ => k.starts
  | _ => false

/-- a frame is handed to the encoder, which takes it or refuses it -/
def Eff.tried : Eff → Bool
  | .encode .. | .encodeFail => true
  | _ => false

/-- a frame that the encoder took is finished before another one is handed to it -/
def Alternates (log : List Eff) : Prop :=
  ∀ a b c e d f q x, log = a ++ .encode e d f q :: b ++ x :: c → x.tried = true → ∃ g, .encodeDone g ∈ b

/-- is a frame in the encoder according to the log? -/
def open_ (log : List Eff) : Bool :=
  log.foldl (fun o e => match e with | .encode .. => true | .encodeDone _ => false | _ => o) false

theorem open_append (l m : List Eff) : open_ (l ++ m) =
    m.foldl (fun o e => match e with | .encode .. => true | .encodeDone _ => false | _ => o) (open_ l) := by
  unfold open_; rw [List.foldl_append]

theorem open_quiet {l m : List Eff} (h : ∀ e ∈ m, e.flow = false) : open_ (l ++ m) = open_ l := by
  rw [open_append]
  generalize open_ l = o
  induction m with
  | nil => rfl
  | cons e m ih =>
    rw [List.foldl_cons]
    have := h e (by simp)
    cases e <;> first | exact ih fun e he => h e (by simp [he]) | cases this

/-- the last frame is finished or still in the encoder -/
theorem not_open_split {l : List Eff} {e d f q b} {a : List Eff} (h : l = a ++ .encode e d f q :: b)
    (ho : open_ l = false) : ∃ g, .encodeDone g ∈ b := by
  subst h
  rw [open_append] at ho
  simp only [List.foldl_cons] at ho
  have key : ∀ (b : List Eff), b.foldl (fun o e => match e with
      | Eff.encode .. => true | .encodeDone _ => false | _ => o) true = false → ∃ g, Eff.encodeDone g ∈ b := by
    intro b
    induction b with
    | nil => intro h; cases h
    | cons x b ih =>
      intro h
      rw [List.foldl_cons] at h
      cases x with
      | encodeDone g => exact ⟨g, by simp⟩
      | _ => exact (ih h).imp fun _ h => List.mem_cons_of_mem _ h
  exact key b ho

theorem Alternates.quiet {l m : List Eff} (h : Alternates l)
    (hm : ∀ e ∈ m, e.tried = false) : Alternates (l ++ m) := by
  intro a b c e d f q x heq hx
  obtain ⟨m', h1⟩ | ⟨m', h1, h2⟩ : (∃ m', l = a ++ .encode e d f q :: b ++ x :: m') ∨
      (∃ m', a ++ .encode e d f q :: b = l ++ m' ∧ m = m' ++ x :: c) := by
    rcases List.append_eq_append_iff.1 heq with ⟨x, h1, h2⟩ | ⟨x, h1, h2⟩
    · exact .inr ⟨x, h1, h2⟩
    · cases x with
      | nil => exact .inr ⟨[], by simpa using h1.symm, by simpa using h2.symm⟩
      | cons y x =>
        injection h2 with h3 h4
        subst h3
        exact .inl ⟨x, h1⟩
  · exact h _ _ _ _ _ _ _ _ h1 hx
  · exact absurd (hm x (by rw [h2]; simp)) (by simp [hx])

theorem Alternates.tried {l : List Eff} (h : Alternates l) (ho : open_ l = false) (y : Eff) :
    Alternates (l ++ [y]) := by
  intro a b c e d f q z heq hz
  rcases List.append_eq_append_iff.1 heq with ⟨x, h1, h2⟩ | ⟨x, h1, h2⟩
  · cases x with
    | nil =>
      exact not_open_split (by simpa using h1.symm) ho
    | cons y x =>
      injection h2 with h3 h4
      have := congrArg List.length h4
      simp at this
  · cases x with
    | nil => exact not_open_split (by simpa using h1) ho
    | cons y x =>
      injection h2 with h3 h4
      subst h3
      exact h _ _ _ _ _ _ _ _ h1 hz

/-! ## The invariant -/

/-- what the update flow maintains when nested reads find nothing -/
structure Balanced (s : St) : Prop where
  pending : 0 ≤ s.cl.nPending
  enc : s.cl.encoding = true → s.cl.isUpdating = true ∧ s.cl.writing = false
  wr : s.cl.writing = true → s.cl.isUpdating = true
  opened : open_ s.log = s.cl.encoding
  alt : Alternates s.log
  count : .contOn ∉ s.log → s.cl.cont = false ∧
    (s.log.countP Eff.isUpdate : Int) + s.cl.nPending + (if s.cl.encoding then 1 else 0) ≤
      s.log.countP Eff.isRequest

theorem count_quiet {l : List Eff} (h : ∀ e ∈ l, e.flow = false) :
    l.countP Eff.isUpdate = 0 ∧ l.countP Eff.isRequest = 0 ∧ .contOn ∉ l ∧
      ∀ e ∈ l, e.tried = false := by
  refine ⟨List.countP_eq_zero.2 fun e he => ?_, List.countP_eq_zero.2 fun e he => ?_, fun he => ?_,
    fun e he => ?_⟩
  · have := h e he
    cases e <;> first | simp [Eff.isUpdate] | cases this
    all_goals simpa [Eff.flow] using this
  · have := h e he
    cases e <;> first | cases this; done | simp [Eff.isRequest]
  · cases h _ he
  · have := h e he
    cases e <;> first | rfl | cases this

theorem Same.balanced {s s'} (h : Same s s') (b : Balanced s) : Balanced s' := by
  obtain ⟨-, h1, h2, h3, h4, h5, es, h6, h7⟩ := h
  obtain ⟨c1, c2, c3, c4⟩ := count_quiet h7
  refine ⟨by rw [h1]; exact b.pending, by rw [h4, h3, h5]; exact b.enc, by rw [h5, h3]; exact b.wr,
    by rw [h6, open_quiet h7, h4, b.opened], by rw [h6]; exact b.alt.quiet c4, fun hc => ?_⟩
  rw [h6] at hc ⊢
  obtain ⟨g1, g2⟩ := b.count fun h => hc (List.mem_append_left _ h)
  rw [h2, h1, h4, List.countP_append, List.countP_append, c1, c2]
  exact ⟨g1, by simpa using g2⟩

theorem Same.refl (s : St) : Same s s := .quiet rfl rfl ⟨rfl, rfl, rfl, rfl, rfl⟩

theorem Same.trans {s t u : St} (h1 : Same s t) (h2 : Same t u) : Same s u := by
  obtain ⟨a0, a1, a2, a3, a4, a5, es, a6, a7⟩ := h1
  obtain ⟨b0, b1, b2, b3, b4, b5, fs, b6, b7⟩ := h2
  exact ⟨b0.trans a0, b1.trans a1, b2.trans a2, b3.trans a3, b4.trans a4, b5.trans a5, es ++ fs,
    by rw [b6, a6, List.append_assoc], fun e he => (List.mem_append.1 he).elim (a7 e) (b7 e)⟩

theorem Same.send (s k b) (hk : k.starts = false := by rfl) : Same s (Server.send k b s) := by
  unfold Server.send
  split
  · exact .refl s
  · exact .one (.send s.cl.chan k b) hk rfl rfl ⟨rfl, rfl, rfl, rfl, rfl⟩

theorem Same.upd (s : St) {f : Client → Client}
    (h3 : (f s.cl).nPending = s.cl.nPending ∧ (f s.cl).cont = s.cl.cont ∧
      (f s.cl).isUpdating = s.cl.isUpdating ∧ (f s.cl).encoding = s.cl.encoding ∧
      (f s.cl).writing = s.cl.writing) : Same s (s.upd f) := .quiet rfl rfl h3

theorem ppf_same (hr : Quiet r) {s s'} (hn : s.net = []) (e : processPendingFence r s = .ok s') :
    Same s s' := by
  unfold processPendingFence at e
  rcases ite_cases e with ⟨-, e⟩ | ⟨-, e⟩
  · rcases ite_cases e with ⟨-, e⟩ | ⟨-, e⟩ <;> cases e
    exact .refl _
  · dsimp only at e
    rcases ite_cases e with ⟨-, e⟩ | ⟨-, e⟩
    · cases e
      exact .upd s ⟨rfl, rfl, rfl, rfl, rfl⟩
    · obtain ⟨t, ht, e⟩ := Outcome.bind_eq_ok.1 e
      unfold sendFence at ht
      rcases ite_cases ht with ⟨-, ht⟩ | ⟨-, ht⟩
      · cases ht
      injection ht with ht
      have h2 : Same s t := by
        subst ht
        exact (Same.upd s (f := fun k => { k with pfN := s.cl.pfN - 1 }) ⟨rfl, rfl, rfl, rfl, rfl⟩).trans
          (.send _ _ _)
      have h3 := h2.trans (.upd t (f := fun k => { k with
        pfN := 0, pfFlags := 0, pfPayload := [], blocked := false }) ⟨rfl, rfl, rfl, rfl, rfl⟩)
      have := hr _ _ (h3.net.trans hn) e
      subst this
      exact h3

/-- the stages of process_fb_update_requests before the frame: nothing, or one update that uses up
one request -/
structure Stage (s s' : St) (go : Bool) : Prop where
  net : s'.net = s.net
  cont : s'.cl.cont = s.cl.cont
  isUpdating : s'.cl.isUpdating = s.cl.isUpdating
  encoding : s'.cl.encoding = s.cl.encoding
  writing : s'.cl.writing = s.cl.writing
  log : ∃ es, s'.log = s.log ++ es ∧ open_ s'.log = open_ s.log ∧ .contOn ∉ es ∧
    (∀ e ∈ es, e.tried = false) ∧ es.countP Eff.isRequest = 0 ∧
    ((go = true ∧ s'.cl.nPending = s.cl.nPending ∧ (s.cl.cont = false → es.countP Eff.isUpdate = 0)) ∨
     (s.cl.cont = false ∧ es.countP Eff.isUpdate ≤ 1 ∧ s'.cl.nPending = s.cl.nPending - 1 ∧
      go = decide (0 < s'.cl.nPending)))

theorem Same.stage {s s'} (h : Same s s') : Stage s s' true := by
  obtain ⟨h0, h1, h2, h3, h4, h5, es, h6, h7⟩ := h
  obtain ⟨c1, c2, c3, c4⟩ := count_quiet h7
  exact ⟨h0, h2, h3, h4, h5, es, h6, by rw [h6, open_quiet h7], c3, c4, c2, .inl ⟨rfl, h1, fun _ => c1⟩⟩

/-- a message that begins an update, and what decrement_pending_requests does after it -/
theorem stage_of (hr : Quiet r) {s t s' go} (hn : s.net = [])
    (h1 : t.net = s.net) (h2 : t.cl.cont = s.cl.cont) (h3 : t.cl.isUpdating = s.cl.isUpdating)
    (h4 : t.cl.encoding = s.cl.encoding) (h5 : t.cl.writing = s.cl.writing)
    (h6 : t.cl.nPending = s.cl.nPending)
    (h7 : t.log = s.log ∨ ∃ c k b, t.log = s.log ++ [.send c k b])
    (e : decrementPending r t = .ok (s', go)) : Stage s s' go := by
  have hlog : ∃ es, t.log = s.log ++ es ∧ open_ t.log = open_ s.log ∧ .contOn ∉ es ∧
      (∀ e ∈ es, e.tried = false) ∧ es.countP Eff.isRequest = 0 ∧
      es.countP Eff.isUpdate ≤ 1 := by
    rcases h7 with h7 | ⟨c, k, b, h7⟩
    · exact ⟨[], by simp [h7], by rw [h7], by simp, by simp, by simp, by simp⟩
    · refine ⟨_, h7, by rw [h7, open_append]; rfl, by simp, by simp [Eff.tried], by simp [Eff.isRequest], ?_⟩
      exact List.countP_le_length
  obtain ⟨es, l1, l2, l3, l4, l5, l6⟩ := hlog
  unfold decrementPending at e
  rcases ite_cases e with ⟨-, e⟩ | ⟨-, e⟩
  · cases e
  rcases ite_cases e with ⟨hc, e⟩ | ⟨hc, e⟩
  · cases e
    refine ⟨h1, h2, h3, h4, h5, es, l1, l2, l3, l4, l5, .inl ⟨rfl, h6, fun hn => ?_⟩⟩
    rw [h2, hn] at hc
    cases hc
  · obtain ⟨u, hu, e⟩ := Outcome.bind_eq_ok.1 e
    cases e
    obtain ⟨a0, a1, a2, a3, a4, a5, fs, a6, a7⟩ := ppf_same hr (h1.trans hn) hu
    obtain ⟨c1, c2, c3, c4⟩ := count_quiet a7
    refine ⟨a0.trans h1, a2.trans h2, a3.trans h3, a4.trans h4, a5.trans h5, es ++ fs, ?_, ?_, ?_, ?_, ?_,
      .inr ⟨?_, ?_, ?_, rfl⟩⟩
    · show u.log = _; rw [a6, l1, List.append_assoc]
    · show open_ u.log = _; rw [a6, open_quiet a7, l2]
    · exact fun h => (List.mem_append.1 h).elim l3 c3
    · exact fun e he => (List.mem_append.1 he).elim (l4 e) (c4 e)
    · rw [List.countP_append, l5, c2]
    · rw [← h2]; simpa using hc
    · rw [List.countP_append, c1]; omega
    · show u.cl.nPending - 1 = _; rw [a1, h6]

theorem sendExtSupport_false {s t : St} (h : sendExtSupport s = (t, false)) : t = s := by
  unfold sendExtSupport at h
  dsimp only at h
  rcases ite_cases h with ⟨-, h⟩ | ⟨-, h⟩ <;> cases h
  rfl

theorem stageExt_stage (hr : Quiet r) {s s' b} (hn : s.net = []) (e : stageExt r s = .ok (s', b)) :
    Stage s s' b := by
  unfold stageExt at e
  rcases ite_cases e with ⟨-, e⟩ | ⟨-, e⟩
  · cases e; exact (Same.refl s).stage
  dsimp only at e
  have h0 : Same s (s.upd fun k => { k with extNotified := true }) := .upd s ⟨rfl, rfl, rfl, rfl, rfl⟩
  obtain ⟨g1, g2, g3, g4⟩ := sendExtSupport_frame (s.upd fun k => { k with extNotified := true })
  have g5 : ∀ t u, sendExtSupport t = (u, false) → u = t := fun t u => sendExtSupport_false
  have g5 := g5 (s.upd fun k => { k with extNotified := true })
  generalize sendExtSupport (s.upd fun k => { k with extNotified := true }) = res at e g1 g2 g3 g4 g5
  obtain ⟨u, b'⟩ := res
  cases b'
  · cases e; rw [g5 _ rfl]; exact h0.stage
  · dsimp only at g2 g3 g4
    refine stage_of hr hn g2 ?_ ?_ ?_ ?_ ?_ ?_ e
    · rw [g3]; rfl
    · rw [g3]; rfl
    · rw [g3]; rfl
    · rw [g3]; rfl
    · rw [g3]; rfl
    · rcases g4 with g4 | ⟨-, b, g4⟩
      · exact .inl g4
      · exact .inr ⟨_, _, _, g4⟩

theorem stageCursor_stage (hr : Quiet r) {s s' b} (hn : s.net = [])
    (e : stageCursor env r s = .ok (s', b)) : Stage s s' b := by
  unfold stageCursor at e
  rcases ite_cases e with ⟨-, e⟩ | ⟨-, e⟩
  · obtain ⟨g1, g2, ⟨_, g3⟩, g4⟩ := sendCursor_frame env s
    refine stage_of hr hn g2 ?_ ?_ ?_ ?_ ?_ ?_ e
    · rw [g3]
    · rw [g3]
    · rw [g3]
    · rw [g3]
    · rw [g3]
    · rcases g4 with g4 | ⟨-, b, g4⟩
      · exact .inl g4
      · exact .inr ⟨_, _, _, g4⟩
  · cases e; exact (Same.refl s).stage

theorem sendLed_false {s t : St} (h : sendLed s = (t, false)) : t = s := by
  unfold sendLed at h
  rcases ite_cases h with ⟨-, h⟩ | ⟨-, h⟩
  · cases h; rfl
  dsimp only at h
  rcases ite_cases h with ⟨-, h⟩ | ⟨-, h⟩ <;> cases h
  rfl

theorem stageLed_stage (hr : Quiet r) {s s' b} (hn : s.net = [])
    (e : stageLed r s = .ok (s', b)) : Stage s s' b := by
  unfold stageLed at e
  obtain ⟨g1, g2, ⟨_, g3⟩, g4⟩ := sendLed_frame s
  have g5 : ∀ t, sendLed s = (t, false) → t = s := fun t => sendLed_false
  generalize sendLed s = res at e g1 g2 g3 g4 g5
  obtain ⟨u, b'⟩ := res
  cases b'
  · cases e; rw [g5 _ rfl]; exact (Same.refl s).stage
  · refine stage_of hr hn g2 ?_ ?_ ?_ ?_ ?_ ?_ e
    · rw [g3]
    · rw [g3]
    · rw [g3]
    · rw [g3]
    · rw [g3]
    · rcases g4 with g4 | ⟨-, b, g4⟩
      · exact .inl g4
      · exact .inr ⟨_, _, _, g4⟩

/-- an update may begin -/
def Due (s : St) : Prop :=
  s.net = [] ∧ s.cl.isUpdating = false ∧ (s.cl.cont = true ∨ 0 < s.cl.nPending) ∧ Balanced s

theorem Stage.balanced {s s' b} (h : Stage s s' b) (d : Due s) :
    Balanced s' ∧ (b = true → Due s') := by
  obtain ⟨h0, h1, h2, h3, h4, es, h5, h6, h7, h8, h9, h10⟩ := h
  obtain ⟨d0, d1, d2, d3⟩ := d
  have hp : 0 ≤ s'.cl.nPending := by
    rcases h10 with ⟨-, h, -⟩ | ⟨hc, -, h, -⟩
    · rw [h]; exact d3.pending
    · rw [hc] at d2
      have : 0 < s.cl.nPending := d2.resolve_left (by decide)
      rw [h]; omega
  have hb : Balanced s' := by
    refine ⟨hp, by rw [h3, h2, h4]; exact d3.enc, by rw [h4, h2]; exact d3.wr,
      by rw [h6, h3, d3.opened], by rw [h5]; exact d3.alt.quiet h8, fun hc => ?_⟩
    rw [h5] at hc ⊢
    obtain ⟨g1, g2⟩ := d3.count fun h => hc (List.mem_append_left _ h)
    refine ⟨h1.trans g1, ?_⟩
    rw [List.countP_append, List.countP_append, h9, h3]
    rcases h10 with ⟨-, h, hu⟩ | ⟨-, hu, h, -⟩
    · rw [h, hu g1]; simpa using g2
    · rw [h]; omega
  refine ⟨hb, fun hgo => ⟨h0.trans d0, h2.trans d1, ?_, hb⟩⟩
  rcases h10 with ⟨-, h, -⟩ | ⟨-, -, -, h⟩
  · rw [h1, h]; exact d2
  · exact .inr (by rw [hgo] at h; simpa using h.symm)

theorem stageFrame_balanced {fb s s'} (d : Due s) (e : stageFrame env fb s = .ok s') :
    Balanced s' := by
  obtain ⟨d0, d1, d2, d3⟩ := d
  have henc : s.cl.encoding = false := by
    cases h : s.cl.encoding with
    | false => rfl
    | true => rw [(d3.enc h).1] at d1; cases d1
  have hwr : s.cl.writing = false := by
    cases h : s.cl.writing with
    | false => rfl
    | true => rw [d3.wr h] at d1; cases d1
  unfold stageFrame at e
  rcases ite_cases e with ⟨-, e⟩ | ⟨-, e⟩
  · cases e; exact d3
  rcases ite_cases e with ⟨-, e⟩ | ⟨-, e⟩
  · cases e; exact d3
  obtain ⟨n, en, ni, nk, nm, hf⟩ := ensureEncoder_frame env fb s
  generalize ensureEncoder env fb s = res at e hf
  obtain ⟨t, b⟩ := res
  dsimp only at hf
  cases b
  · dsimp only at e
    rcases ite_cases e with ⟨-, e⟩ | ⟨-, e⟩
    · cases e
    cases e; subst hf
    exact ⟨d3.pending, d3.enc, d3.wr, d3.opened, d3.alt, d3.count⟩
  · dsimp only at e
    rcases ite_cases e with ⟨-, e⟩ | ⟨-, e⟩
    · cases e
    subst hf
    rcases ite_cases e with ⟨-, e⟩ | ⟨-, e⟩
    · injection e with e
      have ho : open_ s.log = false := d3.opened.trans henc
      by_cases hp : 0 < s.cl.nPending
      · rw [if_pos (by exact hp)] at e
        subst e
        refine ⟨by show 0 ≤ s.cl.nPending - 1; omega, fun _ => ⟨rfl, hwr⟩, fun _ => rfl,
          by show open_ (s.log ++ [_]) = true; rw [open_append]; rfl, d3.alt.tried ho _, ?_⟩
        intro hc
        obtain ⟨g1, g2⟩ := d3.count fun h => hc (List.mem_append_left _ h)
        refine ⟨g1, ?_⟩
        show ((s.log ++ [Eff.encode _ _ _ _]).countP Eff.isUpdate : Int) + (s.cl.nPending - 1) + 1 ≤
          ((s.log ++ [Eff.encode _ _ _ _]).countP Eff.isRequest : Int)
        rw [List.countP_append, List.countP_append]
        rw [henc] at g2
        simp only [List.countP_cons, List.countP_nil, Eff.isUpdate, Eff.isRequest] at g2 ⊢
        simp at g2 ⊢
        omega
      · rw [if_neg (by exact hp)] at e
        subst e
        refine ⟨d3.pending, fun _ => ⟨rfl, hwr⟩, fun _ => rfl,
          by show open_ (s.log ++ [_]) = true; rw [open_append]; rfl, d3.alt.tried ho _, ?_⟩
        intro hc
        obtain ⟨g1, -⟩ := d3.count fun h => hc (List.mem_append_left _ h)
        rw [g1] at d2
        exact absurd (d2.resolve_left (by decide)) hp
    · cases e
      refine ⟨d3.pending, ?_, ?_, ?_, d3.alt.tried (d3.opened.trans henc) _, fun hc => ?_⟩
      · intro h; exact absurd (henc.symm.trans h) (by decide)
      · intro h; exact absurd (hwr.symm.trans h) (by decide)
      · show open_ (s.log ++ [.encodeFail]) = s.cl.encoding
        rw [open_append]; exact d3.opened
      · obtain ⟨g1, g2⟩ := d3.count fun h => hc (List.mem_append_left _ h)
        refine ⟨g1, ?_⟩
        show ((s.log ++ [Eff.encodeFail]).countP Eff.isUpdate : Int) + s.cl.nPending +
          (if s.cl.encoding then 1 else 0) ≤ ((s.log ++ [Eff.encodeFail]).countP Eff.isRequest : Int)
        rw [List.countP_append, List.countP_append]
        simpa [Eff.isUpdate, Eff.isRequest] using g2

theorem processFb_balanced (hr : Quiet r) {s s'} (hn : s.net = []) (hs : Balanced s)
    (e : processFb env r s = .ok s') : Balanced s' := by
  unfold processFb at e
  rcases ite_cases e with ⟨-, e⟩ | ⟨-, e⟩
  · cases e; exact hs
  split at e
  · cases e; exact hs
  rcases ite_cases e with ⟨-, e⟩ | ⟨hu, e⟩
  · cases e; exact hs
  rcases ite_cases e with ⟨-, e⟩ | ⟨hp, e⟩
  · cases e; exact hs
  have d0 : Due s := by
    refine ⟨hn, by simpa using hu, ?_, hs⟩
    have := hs.pending
    cases hc : s.cl.cont with
    | true => exact .inl rfl
    | false =>
      refine .inr ?_
      have : s.cl.nPending ≠ 0 := fun h => hp ⟨by simp [hc], h⟩
      omega
  obtain ⟨⟨t, b⟩, h1, e⟩ := Outcome.bind_eq_ok.1 e
  obtain ⟨b1, d1⟩ := (stageExt_stage hr d0.1 h1).balanced d0
  cases b
  · cases e; exact b1
  have d1 := d1 rfl
  obtain ⟨⟨u, b⟩, h2, e⟩ := Outcome.bind_eq_ok.1 e
  obtain ⟨b2, d2⟩ := (stageCursor_stage hr d1.1 h2).balanced d1
  cases b
  · cases e; exact b2
  have d2 := d2 rfl
  obtain ⟨⟨v, b⟩, h3, e⟩ := Outcome.bind_eq_ok.1 e
  obtain ⟨b3, d3⟩ := (stageLed_stage hr d2.1 h3).balanced d2
  cases b
  · cases e; exact b3
  exact stageFrame_balanced (d3 rfl) e

theorem completeFb_balanced (hr : Quiet r) {s s'} (hn : s.net = []) (hs : Balanced s)
    (he : s.cl.encoding = false) (hw : s.cl.writing = false)
    (e : completeFb env r s = .ok s') : Balanced s' := by
  unfold completeFb at e
  rcases ite_cases e with ⟨-, e⟩ | ⟨-, e⟩
  · cases e; exact hs
  · refine processFb_balanced hr ?_ ?_ e
    · exact hn
    · refine ⟨hs.pending, ?_, ?_, hs.opened, hs.alt, hs.count⟩
      · intro h; exact absurd (he.symm.trans h) (by decide)
      · intro h; exact absurd (hw.symm.trans h) (by decide)

/-- the writes of a frame: they begin one update -/
theorem sendFrame_log (f : Frame) (s : St) : ∃ es, (sendFrame f s).log = s.log ++ es ∧
    open_ (sendFrame f s).log = open_ s.log ∧ .contOn ∉ es ∧ (∀ e ∈ es, e.tried = false) ∧
    es.countP Eff.isRequest = 0 ∧ es.countP Eff.isUpdate ≤ 1 := by
  have h1 : Same (send .updateHead (updateHead (nRectsSent f s.cl % 65536)) s) (sendFrame f s) := by
    unfold sendFrame
    dsimp only
    refine Same.trans ?_ (.send _ _ _)
    have hp : ∀ t, Same t (sendPts f.pts t) := by
      intro t
      unfold sendPts
      split
      · exact .refl _
      · split
        · exact .send _ _ _
        · exact .refl _
    refine Same.trans ?_ (hp _)
    split
    · unfold sendResizeRect
      exact Same.trans (.upd _ ⟨rfl, rfl, rfl, rfl, rfl⟩) (.send _ _ _)
    · exact .refl _
  obtain ⟨-, -, -, -, -, -, es, h2, h3⟩ := h1
  obtain ⟨c1, c2, c3, c4⟩ := count_quiet h3
  rw [h2, open_quiet h3]
  unfold send
  split
  · exact ⟨es, rfl, rfl, c3, c4, c2, by omega⟩
  · refine ⟨_, by rw [emit_log, List.append_assoc], by rw [emit_log, open_append]; rfl, ?_, ?_, ?_, ?_⟩
    · simpa using c3
    · intro e he
      rcases List.mem_append.1 he with he | he
      · rw [List.mem_singleton] at he; subst he; rfl
      · exact c4 e he
    · rw [List.countP_append, c2]; rfl
    · rw [List.countP_append, c1]; exact Nat.le_refl 1

theorem finishFb_balanced (hr : Quiet r) {f s s'} (hn : s.net = []) (hs : Balanced s)
    (he : s.cl.encoding = true)
    (e : finishFb env r f (emit (.encodeDone f) (s.upd fun k => { k with encoding := false })) = .ok s') :
    Balanced s' := by
  obtain ⟨hu, hw⟩ := hs.enc he
  generalize ht : emit (.encodeDone f) (s.upd fun k => { k with encoding := false }) = t at e
  -- one more update may begin than `Balanced` allows
  have a1 : t.net = [] := by rw [← ht]; exact hn
  have a2 : t.cl.encoding = false := by rw [← ht]; rfl
  have a3 : t.cl.isUpdating = true := by rw [← ht]; exact hu
  have a4 : t.cl.writing = false := by rw [← ht]; exact hw
  have a5 : 0 ≤ t.cl.nPending := by rw [← ht]; exact hs.pending
  have a6 : open_ t.log = false := by
    rw [← ht]; show open_ (s.log ++ [.encodeDone f]) = false; rw [open_append]; rfl
  have a7 : Alternates t.log := by
    rw [← ht]; exact hs.alt.quiet (by simp [Eff.tried])
  have a8 : .contOn ∉ t.log → t.cl.cont = false ∧
      (t.log.countP Eff.isUpdate : Int) + t.cl.nPending + 1 ≤ t.log.countP Eff.isRequest := by
    rw [← ht]
    intro hc
    obtain ⟨g1, g2⟩ := hs.count fun h => hc (List.mem_append_left _ h)
    rw [he] at g2
    refine ⟨g1, ?_⟩
    show ((s.log ++ [Eff.encodeDone f]).countP Eff.isUpdate : Int) + s.cl.nPending + 1 ≤
      ((s.log ++ [Eff.encodeDone f]).countP Eff.isRequest : Int)
    rw [List.countP_append, List.countP_append]
    simpa [Eff.isUpdate, Eff.isRequest] using g2
  clear ht hs he hu hw hn
  have bal : Balanced t := by
    refine ⟨a5, (fun h => absurd (a2.symm.trans h) (by decide)), fun _ => a3, by rw [a6, a2], a7, fun hc => ?_⟩
    obtain ⟨g1, g2⟩ := a8 hc
    refine ⟨g1, ?_⟩
    rw [a2]; simp; omega
  unfold finishFb at e
  rcases ite_cases e with ⟨-, e⟩ | ⟨-, e⟩
  · exact completeFb_balanced hr a1 bal a2 a4 e
  rcases ite_cases e with ⟨-, e⟩ | ⟨-, e⟩
  · refine completeFb_balanced hr ?_ ?_ ?_ ?_ e
    · exact a1
    · refine ⟨by show 0 ≤ t.cl.nPending + 1; omega, (fun h => absurd (a2.symm.trans h) (by decide)), fun _ => a3,
        by show open_ t.log = t.cl.encoding; rw [a6, a2], a7, fun hc => ?_⟩
      obtain ⟨g1, g2⟩ := a8 hc
      refine ⟨g1, ?_⟩
      show (t.log.countP Eff.isUpdate : Int) + (t.cl.nPending + 1) + (if t.cl.encoding then 1 else 0) ≤
        (t.log.countP Eff.isRequest : Int)
      rw [a2]; simp; omega
    · exact a2
    · exact a4
  rcases ite_cases e with ⟨-, e⟩ | ⟨-, e⟩
  · cases e
  obtain ⟨-, g2, ⟨_, _, _, g3, -⟩, -⟩ := sendFrame_frame f t
  obtain ⟨es, l1, l2, l3, l4, l5, l6⟩ := sendFrame_log f t
  have bal2 : Balanced (sendFrame f t) := by
    refine ⟨by rw [g3]; exact a5, (by rw [g3]; exact fun h => absurd (a2.symm.trans h) (by decide)),
      fun _ => by rw [g3]; exact a3, by rw [l2, a6, g3]; exact a2.symm, by rw [l1]; exact a7.quiet l4, fun hc => ?_⟩
    rw [l1] at hc ⊢
    obtain ⟨c1, c2⟩ := a8 fun h => hc (List.mem_append_left _ h)
    rw [List.countP_append, List.countP_append, l5, g3]
    refine ⟨c1, ?_⟩
    show _ + t.cl.nPending + (if t.cl.encoding then 1 else 0) ≤ _
    rw [a2]; simp; omega
  have q1 : (sendFrame f t).net = [] := g2.trans a1
  have q2 : (sendFrame f t).cl.encoding = false := by rw [g3]; exact a2
  have q3 : (sendFrame f t).cl.writing = false := by rw [g3]; exact a4
  have q4 : (sendFrame f t).cl.isUpdating = true := by rw [g3]; exact a3
  dsimp only at e
  generalize sendFrame f t = v at e bal2 q1 q2 q3 q4
  obtain ⟨w, hw, e⟩ := Outcome.bind_eq_ok.1 e
  have b3 : w.net = [] ∧ Balanced w := by
    rcases ite_cases hw with ⟨-, hw⟩ | ⟨-, hw⟩
    · exact ⟨(completeFb_flow hr q1 hw).net.trans q1, completeFb_balanced hr q1 bal2 q2 q3 hw⟩
    · cases hw
      refine ⟨q1, bal2.pending, ?_, fun _ => q4, bal2.opened, bal2.alt, bal2.count⟩
      intro h; exact absurd (q2.symm.trans h) (by decide)
  obtain ⟨x, hx, e⟩ := Outcome.bind_eq_ok.1 e
  have h1 : Same w x := (sendPing_frame hx).same
  exact (h1.trans (ppf_same hr (h1.net.trans b3.1) e)).balanced b3.2

theorem big_balanced {s s'} (hn : s.net = []) (h : Big s s') (hs : Balanced s) : Balanced s' := by
  cases h with
  | same _ hq => exact hq.balanced hs
  | request inc q =>
    obtain ⟨-, -, ⟨_, _, g3⟩, g4⟩ := fbReqPre_frame inc q s
    refine ⟨by rw [g3]; show 0 ≤ s.cl.nPending + 1; have := hs.pending; omega, by rw [g3]; exact hs.enc,
      by rw [g3]; exact hs.wr, by rw [g4, open_append, g3]; exact hs.opened,
      by rw [g4]; exact hs.alt.quiet (by simp [Eff.tried]), fun hc => ?_⟩
    rw [g4] at hc ⊢
    obtain ⟨c1, c2⟩ := hs.count fun h => hc (List.mem_append_left _ h)
    rw [List.countP_append, List.countP_append, g3]
    refine ⟨c1, ?_⟩
    show _ + (s.cl.nPending + 1) + (if s.cl.encoding then 1 else 0) ≤ _
    simp only [List.countP_cons, List.countP_nil, Eff.isUpdate, Eff.isRequest]
    simp
    omega
  | contOn q =>
    refine ⟨hs.pending, hs.enc, hs.wr, ?_, hs.alt.quiet (by simp [Eff.tried]), fun hc => ?_⟩
    · show open_ (s.log ++ [.contOn]) = _; rw [open_append]; exact hs.opened
    · exact absurd (List.mem_append_right _ (List.mem_singleton.2 rfl)) hc
  | contOff =>
    have h1 : Balanced (s.upd fun k => { k with
        cont := false, contRect := { x := 0, y := 0, w := 0, h := 0 } }) :=
      ⟨hs.pending, hs.enc, hs.wr, hs.opened, hs.alt, fun hc => ⟨rfl, (hs.count hc).2⟩⟩
    exact (Same.send _ _ _).balanced h1
  | process env r hr h => exact processFb_balanced hr hn hs h
  | written env r hr hw h =>
    refine completeFb_balanced hr ?_ ?_ ?_ ?_ h
    · exact hn
    · refine ⟨hs.pending, fun he => ?_, fun hw' => ?_, hs.opened, hs.alt, hs.count⟩
      · rw [(hs.enc he).2] at hw; cases hw
      · cases hw'
    · show s.cl.encoding = false
      cases he : s.cl.encoding with
      | false => rfl
      | true => rw [(hs.enc he).2] at hw; cases hw
    · rfl
  | encoded env r f hr he h => exact finishFb_balanced hr hn hs he h

/-! ## C22, C23 -/

theorem run_balanced : ∀ (ops : List (Op × Env × List Read)) {s s' : St}, (∀ o ∈ ops, o.2.2 = []) →
    Balanced s → run table ops s = .ok s' → Balanced s'
  | [], s, s', _, hs, e => by cases e; exact hs
  | (o, env, net) :: ops, s, s', hq, hs, e => by
    obtain ⟨t, ht, e'⟩ := Outcome.bind_eq_ok.1 e
    have hn : net = [] := hq (o, env, net) (by simp)
    subst hn
    have h1 := (step_big (I := Balanced) (fun s s' hn hb hs => big_balanced hn hb hs) hs
      (fun s n hs => ⟨hs.pending, hs.enc, hs.wr, hs.opened, hs.alt, hs.count⟩) ht).2
    exact run_balanced ops (fun o ho => hq o (by simp [ho])) h1 e'

theorem start_balanced (srv : Srv) : Balanced (start srv) := by
  refine ⟨Int.le_refl 0, (fun h => nomatch h), (fun h => nomatch h), rfl, ?_, fun _ => ⟨rfl, Int.le_refl 0⟩⟩
  intro a b c e d f q x h _
  have := congrArg List.length h
  simp [start] at this
  omega

/-- C22: in every run of a client that never enables continuous updates, in which nested reads find
nothing, the updates sent and the one being encoded are never more than the requests the client made.

Missing: nested reads that find more messages, see `c22_unsolicited_violated`. -/
theorem c22_unsolicited_partial {srv : Srv} {ops : List (Op × Env × List Read)} {s : St}
    (hq : ∀ o ∈ ops, o.2.2 = []) (e : run table ops (start srv) = .ok s) (hc : .contOn ∉ s.log) :
    (s.log.countP Eff.isUpdate : Int) + (if s.cl.encoding then 1 else 0) ≤ s.log.countP Eff.isRequest := by
  have h := run_balanced ops hq (start_balanced srv) e
  have := (h.count hc).2
  have := h.pending
  omega

/-- C23: in every run in which nested reads find nothing, a frame that the encoder took is finished before another
one is handed to it, whether that one is taken or refused.

Missing: nested reads that find more messages, see `c23_one_frame_violated`. -/
theorem c23_one_frame_partial {srv : Srv} {ops : List (Op × Env × List Read)} {s : St}
    (hq : ∀ o ∈ ops, o.2.2 = []) (e : run table ops (start srv) = .ok s)
    {a b c : List Eff} {e₁ d₁ f₁ q₁ x}
    (h : s.log = a ++ .encode e₁ d₁ f₁ q₁ :: b ++ x :: c) (hx : (∃ e₂ d₂ f₂ q₂, x = .encode e₂ d₂ f₂ q₂) ∨ x = .encodeFail) :
    ∃ g, .encodeDone g ∈ b :=
  (run_balanced ops hq (start_balanced srv) e).alt _ _ _ _ _ _ _ _ h
    (by rcases hx with ⟨_, _, _, _, rfl⟩ | rfl <;> rfl)

/-! ## Runs -/

/-- a server without authentication -/
def demoSrv : Srv :=
  { requireAuth := false, requireEnc := false, hasAuthFn := false, hasTls := false, secTypes := [],
    name := [], fb := some demoFb, cursorSeq := 0, provideMsg := none, nDamageClients := 0 }

/-- as `demoEnv`, with a cursor to send -/
def cursorEnv : Env := { demoEnv with cursorMsg := fun _ => some [7] }

def reads (b : Bytes) : Op × Env × List Read := (.readable (.data b), cursorEnv, [])

def demoFrame : Frame := { w := 4, h := 3, nRects := 1, pts := none, payload := [1] }

def fullReq : Bytes := (Msg.fbRequest 0 ⟨0, 0, 4, 3⟩).wire

/-- a client enters the session and selects encodings -/
def enter (encs : List Int) : List (Op × Env × List Read) :=
  [reads versionMsg, reads [1], reads [1], reads (Msg.setEncodings 0 encs).wire]

/-- a run that ends well, and what holds at its end -/
def runCheck (ops : List (Op × Env × List Read)) (f : St → Bool) : Bool :=
  match run [] ops (start demoSrv) with
  | .ok s => f s
  | _ => false

theorem runCheck_iff {ops f} : runCheck ops f = true ↔
    ∃ s, run [] ops (start demoSrv) = .ok s ∧ f s = true := by
  unfold runCheck
  constructor
  · intro h
    split at h
    · rename_i s hs; exact ⟨s, hs, h⟩
    · cases h
  · rintro ⟨s, hs, h⟩
    rw [hs]; exact h

/-- three requests, answered by a frame, a cursor and a frame that is in the encoder -/
example : (∀ o ∈ enter [0, -239] ++ [reads fullReq, (.encoded demoFrame, cursorEnv, []),
      (.cursor, cursorEnv, []), (.written, cursorEnv, []), reads fullReq, reads fullReq], o.2.2 = []) ∧
    runCheck (enter [0, -239] ++ [reads fullReq, (.encoded demoFrame, cursorEnv, []),
      (.cursor, cursorEnv, []), (.written, cursorEnv, []), reads fullReq, reads fullReq])
      (fun s => !s.log.contains .contOn && s.log.countP Eff.isUpdate == 2 && s.cl.encoding &&
        s.log.countP Eff.isRequest == 3) = true := by decide +kernel

/-- two frames, the first one finished before the second is handed to the encoder -/
example : runCheck (enter [0] ++ [reads fullReq, (.encoded demoFrame, cursorEnv, []),
      (.written, cursorEnv, []), reads fullReq])
      (fun s => s.log.filter (fun | .encode .. | .encodeDone _ => true | _ => false) ==
        [.encode 0 ⟨demoFb, [⟨0, 0, 4, 3⟩], 0⟩ demoFmt 10, .encodeDone demoFrame, .encode 0 ⟨demoFb, [⟨0, 0, 4, 3⟩], 0⟩ demoFmt 10]) =
      true := by decide +kernel

/-- C22 is false: when a pending fence is answered between the cursor and the decrement of the request
count (server.c 2419-2436 under 828-835), the messages read there are handled against the old count.
The client makes three requests and gets a frame, a cursor, an LED state and a second frame; the count
ends at -1, which stands for requests without end. -/
theorem c22_unsolicited_violated : ∃ s, run [] (enter [0, -239] ++ [reads fullReq,
      (.encoded demoFrame, cursorEnv, []), reads (Msg.fence 0 2147483649 []).wire, reads fullReq,
      (.cursor, cursorEnv, []),
      (.written, cursorEnv, [.data ((Msg.setEncodings 0 [0, -239, -261]).wire ++ fullReq)])])
      (start demoSrv) = .ok s ∧ .contOn ∉ s.log ∧
    s.log.countP Eff.isRequest = 3 ∧ s.log.countP Eff.isUpdate = 3 ∧ s.cl.encoding = true ∧
    s.cl.nPending = -1 := by
  obtain ⟨s, h1, h2⟩ := runCheck_iff.1 (show runCheck (enter [0, -239] ++ [reads fullReq,
      (.encoded demoFrame, cursorEnv, []), reads (Msg.fence 0 2147483649 []).wire, reads fullReq,
      (.cursor, cursorEnv, []),
      (.written, cursorEnv, [.data ((Msg.setEncodings 0 [0, -239, -261]).wire ++ fullReq)])])
      (fun s => decide (.contOn ∉ s.log ∧ s.log.countP Eff.isRequest = 3 ∧
        s.log.countP Eff.isUpdate = 3 ∧ s.cl.encoding = true ∧ s.cl.nPending = -1)) = true from by
    decide +kernel)
  exact ⟨s, h1, of_decide_eq_true h2⟩

/-- C23 is false for the same reason: a request read inside the answer to a fence hands a frame to the
encoder, and the outer call, which checked `is_updating` before, hands it a second one -/
theorem c23_one_frame_violated : ∃ s, run [] (enter [0, -239] ++ [reads fullReq,
      (.encoded demoFrame, cursorEnv, []), reads (Msg.fence 0 2147483649 []).wire,
      reads (fullReq ++ fullReq), (.cursor, cursorEnv, []),
      (.written, cursorEnv, [.data (fullReq ++ fullReq)])]) (start demoSrv) = .ok s ∧
    s.log.filter (fun | .encode .. | .encodeDone _ => true | _ => false) =
      [.encode 0 ⟨demoFb, [⟨0, 0, 4, 3⟩], 0⟩ demoFmt 10, .encodeDone demoFrame,
       .encode 0 ⟨demoFb, [⟨0, 0, 4, 3⟩, ⟨0, 0, 4, 3⟩, ⟨0, 0, 4, 3⟩], 0⟩ demoFmt 10,
       .encode 0 ⟨demoFb, [⟨0, 0, 4, 3⟩], 0⟩ demoFmt 10] := by
  obtain ⟨s, h1, h2⟩ := runCheck_iff.1 (show runCheck (enter [0, -239] ++ [reads fullReq,
      (.encoded demoFrame, cursorEnv, []), reads (Msg.fence 0 2147483649 []).wire,
      reads (fullReq ++ fullReq), (.cursor, cursorEnv, []),
      (.written, cursorEnv, [.data (fullReq ++ fullReq)])])
      (fun s => decide (s.log.filter (fun | .encode .. | .encodeDone _ => true | _ => false) =
      [.encode 0 ⟨demoFb, [⟨0, 0, 4, 3⟩], 0⟩ demoFmt 10, .encodeDone demoFrame,
       .encode 0 ⟨demoFb, [⟨0, 0, 4, 3⟩, ⟨0, 0, 4, 3⟩, ⟨0, 0, 4, 3⟩], 0⟩ demoFmt 10,
       .encode 0 ⟨demoFb, [⟨0, 0, 4, 3⟩], 0⟩ demoFmt 10])) = true from by
    decide +kernel)
  exact ⟨s, h1, of_decide_eq_true h2⟩

end Verif.Server
