import Verif.Props.Formats
import Verif.Props.Decode

/-!
# C97, C99, C100: which clients lose no frames
-/

namespace Verif.Formats

open Verif.Server

variable {table : List Nat} {env : Env} {α : Type}

/-- the client does not ask for another pixel format or other encodings while a frame for it is with the encoder,
unless it has fences (-312) -/
def Calm (l : List Eff) : Prop := ∀ pre x post, l = pre ++ x :: post →
  ((∃ f, x = .pixFmt f) ∨ ∃ es, x = .encodings es) → (air pre).fly ≠ [] → -312 ∈ (asked (pre ++ [x])).encs

theorem Calm.left {l m : List Eff} (h : Calm (l ++ m)) : Calm l :=
  fun pre x post he => h pre x (post ++ m) (by rw [he]; simp)

theorem encs_other {l es : List Eff} (h : ∀ e ∈ es, ∀ q, e ≠ .encodings q) : (asked (l ++ es)).encs = (asked l).encs := by
  rw [asked_append]
  generalize asked l = a
  induction es generalizing a with
  | nil => rfl
  | cons e es ih =>
    rw [List.foldl_cons, ih (fun x hx => h x (by simp [hx]))]
    have h1 := h e (by simp)
    cases e with
    | send ch k b => cases k <;> rfl
    | encodings q => exact absurd rfl (h1 q)
    | _ => rfl

/-! ## What can happen to the formats -/

/-- the kinds of steps -/
inductive Sorted (s s' : St) : Prop
  | steady (h : Steady s s')
  | hs (h : s.cl.st ≠ .ready) (hf : HsFrame s.cl.st s s')
  | frame (hst : s'.cl.st = s.cl.st) (hc : s'.cl.closed = s.cl.closed)
      (h : (s'.log = s.log ∧ s'.cl.formatsChanged = s.cl.formatsChanged) ∨ s'.cl.formatsChanged = false)
  | sent (u : St) (h : Steady s u) (p : Bytes) (he : s' = send .frame p u)
  | set (hst : s'.cl.st = s.cl.st) (hc : s'.cl.closed = s.cl.closed) (x : Eff) (es : List Eff)
      (hl : s'.log = s.log ++ [x] ++ es) (hx : (∃ f, x = .pixFmt f) ∨ ∃ q, x = .encodings q)
      (hd : ∀ e ∈ es, dull e = true)
  | done (f) (hst : s'.cl.st = s.cl.st) (hc : s'.cl.closed = s.cl.closed) (hl : s'.log = s.log ++ [.encodeDone f])

theorem sendFrame_sorted (f : Frame) (s : St) : Sorted s (sendFrame f s) := by
  have h1 : ∀ w h (t : St), Steady t (sendResizeRect w h t) := fun w h t => by
    unfold sendResizeRect
    exact (Steady.upd _).trans (.send _ _ _)
  have h2 : ∀ p (t : St), Steady t (sendPts p t) := fun p t => by
    unfold sendPts
    split
    · exact .refl _
    · split
      · exact .send _ .ptsRect _
      · exact .refl _
  refine .sent _ ?_ f.payload rfl
  have h3 : Steady s (Server.send .updateHead (updateHead (nRectsSent f s.cl % 65536)) s) := .send s .updateHead _
  generalize Server.send .updateHead (updateHead (nRectsSent f s.cl % 65536)) s = t at h3
  refine .trans ?_ (h2 _ _)
  split
  · exact h3.trans (h1 _ _ _)
  · exact h3

theorem stageFrame_sorted {fb : Fb} {s s' : St} (e : stageFrame env fb s = .ok s') : Sorted s s' := by
  obtain ⟨-, -, ⟨_, _, _, _, _, _, _, _, _, h3⟩, -⟩ := stageFrame_frame e
  refine .frame (by rw [h3]) (by rw [h3]) ?_
  clear h3
  unfold stageFrame at e
  rcases ite_cases e with ⟨-, e⟩ | ⟨-, e⟩
  · cases e; exact .inl ⟨rfl, rfl⟩
  rcases ite_cases e with ⟨-, e⟩ | ⟨-, e⟩
  · cases e; exact .inl ⟨rfl, rfl⟩
  obtain ⟨n, en, i, k, m, hf⟩ := ensureEncoder_frame env fb s
  cases he : ensureEncoder env fb s with
  | mk t b =>
  rw [he] at e hf
  dsimp only at hf
  cases b with
  | false =>
    dsimp only at e
    split at e
    · cases e
    · cases e
      subst hf
      exact .inl ⟨rfl, rfl⟩
  | true =>
    dsimp only at e
    split at e
    · cases e
    · split at e
      · cases e
        right
        split <;> rfl
      · cases e
        exact .inr rfl

theorem pix_sorted {s s' : St} {a : Bytes} {n : Nat} (e : onSetPixelFormat s a = .ok (s', n)) : Sorted s s' := by
  unfold onSetPixelFormat at e
  split at e
  · cases e
    split
    · exact .set rfl rfl _ [] (by simp; rfl) (.inl ⟨_, rfl⟩) (by simp)
    · obtain ⟨es, h1, h2⟩ := (Steady.send (emit (.pixFmt cookedFmt) (s.upd fun k => { k with pix := cookedFmt }))
        .colourMap rgb332Map).log
      exact .set (by simp) (by simp) (.pixFmt cookedFmt) es (by rw [St.upd_log, h1]; rfl) (.inl ⟨_, rfl⟩) h2
  · cases e; exact .steady (.refl _)

theorem encs_sorted {s s' : St} {a : Bytes} {n : Nat} (e : onSetEncodings env s a = .ok (s', n)) : Sorted s s' := by
  have hcl := (Simple.encs (table := []) e).frame
  obtain ⟨-, -, ⟨_, _, _, _, _, _, _, _, _, h3⟩, -⟩ := hcl
  have k1 : s'.cl.st = s.cl.st := by rw [h3]
  have k2 : s'.cl.closed = s.cl.closed := by rw [h3]
  clear h3
  unfold onSetEncodings at e
  split at e
  · dsimp only at e
    split at e
    · cases e; exact .steady (.refl _)
    · generalize scanEncodings env.experimental _ [] 10 = res at e
      obtain ⟨encs, q⟩ := res
      dsimp only at e
      obtain ⟨t, ht, e⟩ := Outcome.bind_eq_ok.1 e
      cases e
      have h2 : Steady (emit (.encodings encs)
          (s.upd fun k => { k with encodings := encs, quality := q, formatsChanged := true }))
          (notifyCont (emit (.encodings encs)
            (s.upd fun k => { k with encodings := encs, quality := q, formatsChanged := true }))) := by
        unfold notifyCont
        split
        · exact (Steady.upd _).trans (.send _ .endOfCont _)
        · exact .refl _
      have h3 : Steady (emit (.encodings encs)
          (s.upd fun k => { k with encodings := encs, quality := q, formatsChanged := true })) s' := by
        refine (h2.trans ?_).trans (sendPing_steady ht)
        split
        · exact .send _ .clip _
        · exact .refl _
      obtain ⟨es, h4, h5⟩ := h3.log
      exact .set k1 k2 (.encodings encs) es (by rw [h4]; rfl) (.inr ⟨_, rfl⟩) h5
  · cases e; exact .steady (.refl _)

theorem micro_sorted {lp s s'} (hm : Micro lp table s s') : Sorted s s' := by
  cases hm with
  | fenceOut => exact .steady (.send _ _ _)
  | pfFire => exact .steady ((Steady.upd _).trans (.send _ _ _))
  | ext => exact .steady ((Steady.upd _).trans (sendExtSupport_steady _))
  | cursor env => exact .steady (sendCursor_steady env s)
  | led hr => exact .steady (sendLed_steady s)
  | frame env fb hr e => exact stageFrame_sorted e
  | sendFrame f hr hd _ hf => exact sendFrame_sorted f s
  | hs env r a h1 h2 => exact .hs h1 (hs_frame h1 h2)
  | simple env a h1 h2 =>
    rcases simple_cases h2 with e | e | e
    · exact pix_sorted e
    · exact encs_sorted e
    · exact .steady e
  | fbReq inc r => exact .steady (fbReqPre_steady inc r s)
  | contOn => exact .steady ((Steady.upd _).trans (.emit _))
  | contOff => exact .steady ((Steady.upd _).trans (.send _ _ _))
  | fenceReq flags payload h1 hp h2 => exact .steady (fenceReq_steady h2)
  | consume => exact .steady ((Steady.upd _).trans (.emit _))
  | bigCut env c d hr hc h1 h2 => exact .steady (bigCutText_steady h2)
  | remoteClosed => exact .steady ((streamClose_steady s).trans (deferClose_steady _))
  | flushed => exact .steady (streamClose_steady s)
  | free hl h1 => exact .steady (freeClient_steady s)
  | idle hl h1 h2 => exact .steady ((Steady.upd s).trans (freeClient_steady _))
  | encoded f hr he => exact .done f rfl rfl rfl
  | setLed v => exact .steady ((Steady.upd _).trans (.emit _))
  | damage r => exact .steady ((Steady.upd _).trans (.emit _))
  | net => exact .steady (.world rfl rfl)
  | display => exact .steady (.world rfl rfl)
  | setCursor => exact .steady (.world rfl rfl)
  | _ => exact .steady (.upd _)

/-! ## Two invariants -/

/-- a client whose stream is closed after the handshake -/
def Shut (s : St) : Prop := s.cl.st = .ready ∧ s.cl.closed = true

theorem Steady.shut {s s' : St} (h : Steady s s') (hs : Shut s) : Shut s' := by
  refine ⟨h.st.trans hs.1, ?_⟩
  rcases h.cls with h | h
  · exact h.trans hs.2
  · exact h

theorem micro_shut {lp s s'} (hm : Micro lp table s s') (h : Shut s) : Shut s' := by
  cases micro_sorted hm with
  | steady hs => exact hs.shut h
  | hs hn hf => exact absurd h.1 hn
  | frame hst hc _ => exact ⟨hst.trans h.1, hc.trans h.2⟩
  | sent u hu p he =>
    have := hu.shut h
    rw [he]
    exact ⟨by rw [send_cl]; exact this.1, by rw [send_cl]; exact this.2⟩
  | set hst hc => exact ⟨hst.trans h.1, hc.trans h.2⟩
  | done f hst hc => exact ⟨hst.trans h.1, hc.trans h.2⟩

/-- a change of formats is remembered during a frame only for clients that have fences -/
def Fenced (s : St) : Prop :=
  Single s.log → Calm s.log → s.cl.formatsChanged = true → (air s.log).fly ≠ [] → -312 ∈ (asked s.log).encs

theorem Steady.fenced {s s' : St} (h : Steady s s') (hs : Fenced s) : Fenced s' := by
  obtain ⟨es, h1, h2⟩ := h.log
  intro a0 a1 a2 a3
  rw [h1] at a0 a1 a3 ⊢
  rw [air_dull h2] at a3
  rw [asked_dull h2]
  exact hs a0.left a1.left (h.fc ▸ a2) a3

theorem micro_fenced {lp s s'} (hm : Micro lp table s s') (h : Fenced s) : Fenced s' := by
  cases micro_sorted hm with
  | steady hs => exact hs.fenced h
  | hs hn hf =>
    obtain ⟨-, -, ⟨_, _, _, _, _, _, _, _, _, _, _, h3⟩, es, h4, h5⟩ := hf
    intro a0 a1 a2 a3
    rw [h4] at a0 a1 a3 ⊢
    rw [air_other (fun e he => ⟨(by rintro _ _ _ _ rfl; cases (h5 _ he)), (by rintro _ rfl; cases (h5 _ he))⟩)] at a3
    rw [encs_other (fun e he => by rintro _ rfl; exact nomatch h5 _ he)]
    exact h a0.left a1.left (by rw [h3] at a2; exact a2) a3
  | frame hst hc hk =>
    rcases hk with ⟨h1, h2⟩ | h1
    · intro a0 a1 a2 a3
      rw [h1] at a0 a1 a3 ⊢
      exact h a0 a1 (h2 ▸ a2) a3
    · intro _ _ a2
      rw [h1] at a2; cases a2
  | sent u hu p he =>
    have hf := hu.fenced h
    subst he
    intro a0 a1 a2 a3
    rw [send_cl] at a2
    rw [send_log] at a0 a1 a3 ⊢
    have ho : ∀ e ∈ (if u.cl.closed = true then ([] : List Eff) else [.send u.cl.chan .frame p]), e = .send u.cl.chan .frame p := by
      split <;> simp
    rw [air_other (fun e he => by rw [ho e he]; exact ⟨nofun, nofun⟩)] at a3
    rw [encs_other (fun e he => by rw [ho e he]; exact nofun)]
    exact hf a0.left a1.left a2 a3
  | set hst hc x es hl hx hd =>
    intro a0 a1 a2 a3
    rw [hl] at a1 a3 ⊢
    rw [air_dull hd, air_other (fun e he => by
      rw [List.mem_singleton.1 he]
      rcases hx with ⟨f, rfl⟩ | ⟨q, rfl⟩ <;> exact ⟨nofun, nofun⟩)] at a3
    rw [asked_dull hd]
    exact a1 s.log x es (by simp) hx a3
  | done f hst hc hl =>
    intro _ _ _ a3
    rw [hl, air_append] at a3
    exact absurd rfl a3

/-! ## Events -/

/-- an event other than that the encoder finishes does not make it finish -/
theorem step_plain {o : Op} {s s' : St} (ho : ∀ f, o ≠ .encoded f) (e : step table o env [] s = .ok s') :
    ∃ es, s'.log = s.log ++ es ∧ ∀ f, .encodeDone f ∉ es := by
  have add : ∀ {t t' : St} {es : List Eff}, (∃ es, t.log = s.log ++ es ∧ ∀ f, .encodeDone f ∉ es) →
      t'.log = t.log ++ es → (∀ f, .encodeDone f ∉ es) → ∃ es, t'.log = s.log ++ es ∧ ∀ f, .encodeDone f ∉ es := by
    rintro t t' es ⟨fs, h1, h2⟩ h3 h4
    refine ⟨fs ++ es, by rw [h3, h1, List.append_assoc], fun f hf => ?_⟩
    rcases List.mem_append.1 hf with hf | hf
    · exact h2 f hf
    · exact h4 f hf
  have flow : ∀ {env : Env} {t t' : St}, FlowFrame env t t' → ∃ es, t'.log = t.log ++ es ∧ ∀ f, .encodeDone f ∉ es := by
    intro env t t' h
    obtain ⟨es, h1, h2⟩ := h.log
    refine ⟨es, h1, fun f hf => ?_⟩
    rcases h2 _ hf with ⟨-, k, b, -, h⟩ | ⟨_, _, _, _, -, h⟩ | h <;> cases h
  refine (step_big (b := false) (I := fun t => ∃ es : List Eff, t.log = s.log ++ es ∧ ∀ f, Eff.encodeDone f ∉ es) ?_
    ⟨[], by simp, by simp⟩ (fun _ _ h => h) e (fun f h => absurd h (ho f))).2
  intro t t' hn hb ht
  cases hb with
  | same _ hq =>
    obtain ⟨es, h1, h2⟩ := hq.log
    exact add ht h1 fun f hf => by cases h2 _ hf
  | request inc q => exact add ht (fbReqPre_frame inc q t).2.2.2 (by simp)
  | contOn q => exact add ht (es := [.contOn]) rfl (by simp)
  | contOff =>
    refine add ht (send_log _ _ _) ?_
    intro f
    split <;> simp
  | process env r hr h =>
    obtain ⟨es, h1, h2⟩ := flow (processFb_flow hr hn h)
    exact add ht h1 h2
  | written env r hr hw h =>
    obtain ⟨es, h1, h2⟩ := flow (completeFb_flow hr (by exact hn) h)
    exact add ht h1 h2
  | encoded env r f hr hw h hb => cases hb

/-- what happens when the encoder finishes -/
theorem step_done {f : Frame} {s s' : St} (e : step table (.encoded f) env [] s = .ok s') :
    s'.log = s.log ∨ s.cl.encoding = true ∧ (s.cl.closed = true ∨
      (s.cl.formatsChanged = true ∧ hasEnc s.cl encFence = false) ∨
      ∃ pre es, s'.log = s.log ++ ([.encodeDone f] ++ (pre ++ [.send s.cl.chan .frame f.payload]) ++ es) ∧
        (∀ x ∈ pre, x.plain = true ∨ ∃ ch m, x = .send ch .resizeRect m) ∧ ∀ g, .encodeDone g ∉ es) := by
  have flow : ∀ {env : Env} {t t' : St}, FlowFrame env t t' → ∃ es, t'.log = t.log ++ es ∧ ∀ f, .encodeDone f ∉ es := by
    intro env t t' h
    obtain ⟨es, h1, h2⟩ := h.log
    refine ⟨es, h1, fun f hf => ?_⟩
    rcases h2 _ hf with ⟨-, k, b, -, h⟩ | ⟨_, _, _, _, -, h⟩ | h <;> cases h
  unfold step event at e
  dsimp only at e
  rcases ite_cases e with ⟨-, e⟩ | ⟨-, e⟩
  · cases e; exact .inl rfl
  rcases ite_cases e with ⟨he, e⟩ | ⟨-, e⟩
  · refine .inr ⟨he, ?_⟩
    generalize ht : emit (.encodeDone f) _ = t at e
    have h1 : t.cl.closed = s.cl.closed := by rw [← ht]; rfl
    have h2 : t.cl.formatsChanged = s.cl.formatsChanged := by rw [← ht]; rfl
    have h3 : hasEnc t.cl encFence = hasEnc s.cl encFence := by rw [← ht]; rfl
    have h4 : t.log = s.log ++ [.encodeDone f] := by rw [← ht]; rfl
    have h5 : t.cl.chan = s.cl.chan := by rw [← ht]; rfl
    have h6 : t.net = [] := by rw [← ht]; rfl
    clear ht
    have q := reenterTop_quiet (env := env) (table := table)
    unfold finishFb at e
    rcases ite_cases e with ⟨hc, -⟩ | ⟨hc, e⟩
    · exact .inl (h1 ▸ hc)
    rcases ite_cases e with ⟨hr, -⟩ | ⟨-, e⟩
    · refine .inr (.inl ?_)
      rw [h2, h3] at hr
      simpa using hr
    rcases ite_cases e with ⟨-, e⟩ | ⟨-, e⟩
    · cases e
    refine .inr (.inr ?_)
    obtain ⟨pre, g1, g2, -⟩ := sendFrame_parts f (s := t) (by simpa using hc)
    obtain ⟨-, g3, -, -⟩ := sendFrame_frame f t
    dsimp only at e
    generalize sendFrame f t = u at e g1 g3
    obtain ⟨w, hw, e⟩ := Outcome.bind_eq_ok.1 e
    obtain ⟨x, hx, e⟩ := Outcome.bind_eq_ok.1 e
    have k1 : FlowFrame env u w := by
      rcases ite_cases hw with ⟨-, hw⟩ | ⟨-, hw⟩
      · exact completeFb_flow q (g3.trans h6) hw
      · cases hw
        exact .upd _ ⟨_, _, _, _, _, _, _, _, _, _, _, _, _, _, _, _, _, _, _, _, rfl⟩ id id
    have k2 := k1.trans (sendPing_flow hx)
    have k3 := k2.trans (ppf_flow q (k2.net.trans (g3.trans h6)) e)
    obtain ⟨es, l1, l2⟩ := flow k3
    refine ⟨pre, es, ?_, g2, l2⟩
    rw [l1, g1, h4, h5]
    simp
  · cases e; exact .inl rfl

/-! ## The viewer -/

/-- nothing is lost, and a frame that is not painted is with the encoder -/
structure Safe (v : Viewer α) (l : List Eff) : Prop where
  lost : v.lost = false
  done : v.done = false
  frame : v.frame.isSome = true → (air l).fly ≠ []

theorem see_safe {c : Pic α} : ∀ (es : List Eff) {l : List Eff} {v : Viewer α}, Safe v l →
    (∀ f, .encodeDone f ∉ es) → Single (l ++ es) → Safe (es.foldl (Viewer.see c) v) (l ++ es)
  | [], l, v, h, _, _ => by rw [List.append_nil]; exact h
  | x :: es, l, v, h, hd, hs => by
    have h1 : l ++ x :: es = (l ++ [x]) ++ es := by simp
    rw [h1] at hs ⊢
    refine see_safe es (l := l ++ [x]) (v := v.see c x) ?_ (fun f hf => hd f (by simp [hf])) hs
    have hs := hs.left
    have other : (∀ a b c d, x ≠ .encode a b c d) → (v.see c x).lost = v.lost → (v.see c x).done = false →
        ((v.see c x).frame.isSome = true → v.frame.isSome = true) → Safe (v.see c x) (l ++ [x]) := by
      intro a1 a2 a3 a4
      refine ⟨a2.trans h.lost, a3, fun a5 => ?_⟩
      rw [air_other]
      · exact h.frame (a4 a5)
      · intro e he
        rw [List.mem_singleton.1 he]
        exact ⟨a1, fun f hf => hd f (by rw [hf]; simp)⟩
    cases x with
    | encode e j f q =>
      have h2 := hs.taken l e j f q [] rfl
      have h3 : v.frame = none := by
        cases hv : v.frame with
        | none => rfl
        | some y => exact absurd h2 (h.frame (by rw [hv]; rfl))
      refine ⟨?_, h.done, fun _ => ?_⟩
      · show (v.lost || v.frame.isSome) = false
        rw [h.lost, h3]; rfl
      · rw [air_append]
        show (air l).fly ++ [(e, f)] ≠ []
        simp
    | encodeDone f => exact absurd (by simp) (hd f)
    | send ch k b => cases k <;> exact other nofun rfl (by first | exact h.done | rfl) (by first | exact id | nofun)
    | _ => exact other nofun rfl h.done id

/-- a frame that is finished and sent -/
theorem see_sent {c : Pic α} {f : Frame} {ch : Chan} {b : Bytes} {pre : List Eff} {v : Viewer α} {l : List Eff} (h : v.lost = false)
    (hp : ∀ x ∈ pre, x.plain = true ∨ ∃ ch m, x = .send ch .resizeRect m) :
    Safe (([Eff.encodeDone f] ++ (pre ++ [Eff.send ch .frame b])).foldl (Viewer.see c) v) l := by
  have key : ∀ (pre : List Eff) (w : Viewer α), (∀ x ∈ pre, x.plain = true ∨ ∃ ch m, x = .send ch .resizeRect m) →
      (pre.foldl (Viewer.see c) w).lost = w.lost := by
    intro pre
    induction pre with
    | nil => intro w _; rfl
    | cons x pre ih =>
      intro w hp
      rw [List.foldl_cons, ih _ fun y hy => hp y (by simp [hy])]
      rcases hp x (by simp) with h | ⟨ch, m, rfl⟩
      · rw [see_plain h]
      · rfl
  rw [List.foldl_append, List.foldl_append]
  refine ⟨?_, rfl, fun h => by cases h⟩
  show (pre.foldl (Viewer.see c) _).lost = false
  rw [key _ _ hp]
  exact h

/-! ## Runs -/

theorem step_grows {o : Op} {net : List Read} {s s' : St} (hb : Base s) (e : step table o env net s = .ok s') :
    Base s' ∧ ∃ es, s'.log = s.log ++ es :=
  step_inv (I := fun t => ∃ es, t.log = s.log ++ es) (fun _ _ hm _ ⟨es, h⟩ => by
    obtain ⟨fs, h'⟩ := log_grows hm
    exact ⟨es ++ fs, by rw [h', h, List.append_assoc]⟩) hb ⟨[], by simp⟩ e

theorem watch_grows : ∀ (ops : List ((Op × Env × List Read) × Pic α)) {s s' : St} {v v' : Viewer α}, Base s →
    watch table ops s v = .ok (s', v') → ∃ es, s'.log = s.log ++ es
  | [], s, s', v, v', _, e => by cases e; exact ⟨[], by simp⟩
  | ((o, env, net), c) :: ops, s, s', v, v', hb, e => by
    obtain ⟨t, ht, e⟩ := Outcome.bind_eq_ok.1 e
    obtain ⟨h1, es, h2⟩ := step_grows hb ht
    obtain ⟨fs, h3⟩ := watch_grows ops h1 e
    exact ⟨es ++ fs, by rw [h3, h2, List.append_assoc]⟩

theorem watch_safe : ∀ (ops : List ((Op × Env × List Read) × Pic α)) {s s' : St} {v v' : Viewer α},
    (∀ o ∈ ops, o.1.2.2 = []) → Base s → (Single s.log → Tuned s.cl s.log) → Fenced s → (Shut s ∨ Safe v s.log) →
    watch table ops s v = .ok (s', v') → Single s'.log → Calm s'.log → Shut s' ∨ Safe v' s'.log
  | [], s, s', v, v', _, _, _, _, h, e, _, _ => by cases e; exact h
  | ((o, env, net), c) :: ops, s, s', v, v', hq, hb, ht, hf, h, e, hs, hc => by
    obtain ⟨t, he, e'⟩ := Outcome.bind_eq_ok.1 e
    have hn : net = [] := hq ((o, env, net), c) (by simp)
    subst hn
    obtain ⟨hb', es, hes⟩ := step_grows hb he
    obtain ⟨fs, hfs⟩ := watch_grows ops hb' e'
    have s1 : Single t.log := by rw [hfs] at hs; exact hs.left
    have s0 : Single s.log := by rw [hes] at s1; exact s1.left
    have c1 : Calm t.log := by rw [hfs] at hc; exact hc.left
    have c0 : Calm s.log := by rw [hes] at c1; exact c1.left
    have t0 := ht s0
    refine watch_safe ops (fun o ho => hq o (by simp [ho])) hb'
      (step_inv (I := fun u => Single u.log → Tuned u.cl u.log) (fun _ _ hm _ h h1 => micro_tuned hm h h1) hb ht he).2
      (step_inv (I := Fenced) (fun _ _ hm _ h => micro_fenced hm h) hb hf he).2 ?_ e' hs hc
    have shut : Shut s → Shut t := fun h => (step_inv (I := Shut) (fun _ _ hm _ h => micro_shut hm h) hb h he).2
    rcases h with h | h
    · exact .inl (shut h)
    have settle : ∀ {w : Viewer α}, Safe w t.log → Safe w.settle t.log := fun {w} hw =>
      ⟨by show (w.lost || w.done) = false; rw [hw.lost, hw.done]; rfl, hw.done, hw.frame⟩
    have plain : (∀ f, .encodeDone f ∉ es) →
        Safe ((t.log.drop s.log.length).foldl (Viewer.see c) v).settle t.log := by
      intro h1
      refine settle ?_
      rw [hes, List.drop_left]
      rw [hes] at s1
      exact see_safe es h h1 s1
    by_cases ho : ∃ f, o = .encoded f
    · obtain ⟨f, rfl⟩ := ho
      rcases step_done he with hk | ⟨henc, hk | ⟨hk1, hk2⟩ | ⟨pre, gs, hk, hp, hg⟩⟩
      · have : es = [] := by
          rw [hes] at hk
          simpa using hk
        exact .inr (plain (by simp [this]))
      · refine .inl (shut ⟨?_, hk⟩)
        refine Classical.byContradiction fun hr => ?_
        rw [(t0.idle hr).1] at henc
        cases henc
      · have h1 := hf s0 c0 hk1 (t0.job henc).1
        rw [t0.encs] at h1
        exact absurd hk2 (by simp [hasEnc, encFence, h1])
      · refine .inr (settle ?_)
        rw [hk, List.drop_left, List.foldl_append,
          ← List.append_assoc s.log ([Eff.encodeDone f] ++ (pre ++ [Eff.send s.cl.chan .frame f.payload])) gs]
        refine see_safe gs ?_ hg ?_
        · exact see_sent h.lost hp
        · rw [hk] at s1
          rw [List.append_assoc]; exact s1
    · obtain ⟨es', h1, h2⟩ := step_plain (fun f hf => ho ⟨f, hf⟩) he
      have : es' = es := List.append_cancel_left (h1.symm.trans hes)
      subst this
      exact .inr (plain h2)

/-- **C97**, which clients lose no frames: when nested reads find nothing, those that do not ask for another pixel
format or other encodings while a frame is being encoded for them, or that have fences. -/
theorem c97_kept {srv : Srv} {ops : List ((Op × Env × List Read) × Pic α)} {s : St} {v : Viewer α} {w : Frame → Region}
    (e : watch table ops (start srv) { wide := w } = .ok (s, v)) (hq : ∀ o ∈ ops, o.1.2.2 = [])
    (hc : s.cl.closed = false) (hcalm : Calm s.log) : v.lost = false := by
  have h1 : Single s.log := c106_single (fun o ho => by
    obtain ⟨x, hx, rfl⟩ := List.mem_map.1 ho
    exact hq x hx) (watch_run ops e)
  have hf : Fenced (start srv) := fun _ _ h => by cases h
  rcases watch_safe ops hq (start_base srv) (fun _ => start_tuned srv) hf
    (.inr ⟨rfl, rfl, fun h => by cases h⟩) e h1 hcalm with h | h
  · rw [h.2] at hc; cases hc
  · exact h.lost

/-- **C97** (part), for those clients: when one is connected and waits for an update, and the server is not busy with
one, every pixel it has asked for shows what the application displays.

Missing: encoders that refuse a frame (`c97_refused_violated`), buffers that do not have the pixel, nested reads that
find more messages, continuous updates that are turned on or off (see `c77_off_violated`). -/
theorem c97_calm_partial {srv : Srv} {ops : List ((Op × Env × List Read) × Pic α)} {c₀ : Pic α} {s : St}
    {v : Viewer α} {w : Frame → Region} {px py : Nat}
    (e : watch table ops (start srv) { wide := w } = .ok (s, v)) (hh : Honest c₀ ops)
    (hq : ∀ o ∈ ops, o.1.2.2 = [] ∧ Ample o.1.2.1) (hd : Shown (ops.map (·.1)))
    (hc : s.cl.closed = false) (hf : s.cl.freed = false) (hcalm : Calm s.log) (hok : .encodeFail ∉ s.log)
    (hfb : s.srv.fb ≠ none) (hwait : s.cl.nPending ≠ 0) (hcont : s.cl.cont = false)
    (hoff : ¬ TurnedOff s.log) (hidle : s.cl.isUpdating = false)
    (hin : Fits s.log px py) (ha : Server.Asked s.log px py) :
    v.screen px py = some (final c₀ ops px py) :=
  c97_current_partial e hh hq hd hc hf (c97_kept e (fun o ho => (hq o ho).1) hc hcalm) hok hfb hwait hcont hoff hidle
    hin ha

/-- **C99** (part), for those clients and with the encoders: one that is connected and waits for an update, while the
server is not busy with one, has decoded the application's picture out of the bytes it was sent, wherever it asked for
it, at its own precision.

Missing: as for `c97_calm_partial` and `c99_session_partial`. -/
theorem c99_calm_partial {k : Wire.Codec} (hdst : Pixels.Sane k.dst k.l) (h0 : k.inflate [] = []) {srv : Srv}
    {ops : List ((Op × Env × List Read) × Pic (Pixels.Ch → Nat))} {c₀ : Pic (Pixels.Ch → Nat)} {s : St}
    {v : Viewer (Pixels.Ch → Nat)}
    (e : watch table ops (start srv) { wide := k.wide } = .ok (s, v)) (hh : Honest c₀ ops)
    (hq : ∀ o ∈ ops, o.1.2.2 = [] ∧ Ample o.1.2.1) (hd : Shown (ops.map (·.1)))
    (hw : Wire.Worked k table ops (start srv) { wide := k.wide } fun _ => {}) (hre : Wire.Readable k.sizes s.log)
    (hc : s.cl.closed = false) (hf : s.cl.freed = false) (hcalm : Calm s.log) (hok : .encodeFail ∉ s.log)
    (hfb : s.srv.fb ≠ none) (hwait : s.cl.nPending ≠ 0) (hcont : s.cl.cont = false)
    (hoff : ¬ TurnedOff s.log) (hidle : s.cl.isUpdating = false) {b : Bytes} (hb : Wire.session s.log = some b) :
    ∃ i ms, Wire.readSession k.sizes b = some (i, ms) ∧ ∀ px py, Fits s.log px py → Server.Asked s.log px py →
      (Wire.canvas k.dec ms).pix px py = some (final c₀ ops px py) := by
  have hl := c97_kept e (fun o ho => (hq o ho).1) hc hcalm
  obtain ⟨i, ms, h1, h2⟩ := Wire.c99_decoded_partial e
    (Wire.worked_faithful hdst (start_base srv) rfl (fun _ => ⟨rfl, fun _ => rfl, h0, fun _ => h0⟩) hw) hre hl hb
  refine ⟨i, ms, h1, fun px py hin ha => ?_⟩
  rw [h2]
  exact c97_current_partial e hh hq hd hc hf hl hok hfb hwait hcont hoff hidle hin ha

/-- **C100** (part), for those clients: they have been sent all of the compressed streams. -/
theorem c100_calm_partial {srv : Srv} {z : Wire.Sizes} {dec : Wire.Decoder α}
    {ops : List ((Op × Env × List Read) × Pic α)} {s : St} {v : Viewer α}
    {w : Frame → Region} (e : watch table ops (start srv) { wide := w } = .ok (s, v)) (hq : ∀ o ∈ ops, o.1.2.2 = [])
    (hf : Wire.Faithful z dec table ops (start srv) { wide := w })
    (hr : Wire.Readable z s.log) (hc : s.cl.closed = false) (hcalm : Calm s.log) {b : Bytes}
    (hb : Wire.session s.log = some b)
    {en : Int} {j : Job} {p : PixFmt} {q : Int} (hj : .encode en j p q ∈ s.log) (hen : en = 16 ∨ en = 7) :
    ∃ i ms, Wire.readSession z b = some (i, ms) ∧ (Wire.canvas dec ms).of en = (Wire.makers z s.log).made j.id :=
  Wire.c100_complete_partial e hf hr (c97_kept e hq hc hcalm) hb hj hen

/-! ## Runs -/

/-- `Calm`, checked: `a` and `k` are what came before -/
def calmB : Air → Asked → List Eff → Bool
  | _, _, [] => true
  | a, k, x :: l => (match x with
    | .pixFmt _ | .encodings _ => a.fly.isEmpty || decide (-312 ∈ (k.note x).encs)
    | _ => true) && calmB (a.note x) (k.note x) l

theorem calm_of {l : List Eff} (h : calmB {} ⟨none, []⟩ l = true) : Calm l := by
  have key : ∀ (l : List Eff) (a : Air) (k : Asked), calmB a k l = true → ∀ pre x post, l = pre ++ x :: post →
      calmB (pre.foldl Air.note a) (pre.foldl Asked.note k) (x :: post) = true := by
    intro l
    induction l with
    | nil => intro a k _ pre x post h; simp at h
    | cons y l ih =>
      intro a k h pre x post hl
      cases pre with
      | nil => rw [List.nil_append] at hl; exact hl ▸ h
      | cons z pre =>
        rw [List.cons_append, List.cons.injEq] at hl
        obtain ⟨rfl, hl⟩ := hl
        exact ih _ _ (by unfold calmB at h; exact (Bool.and_eq_true _ _ ▸ h).2) pre x post hl
  intro pre x post hl hx hfly
  have h1 := (Bool.and_eq_true _ _ ▸ (key l {} ⟨none, []⟩ h pre x post hl)).1
  have h2 : (air pre).fly.isEmpty = true ∨ -312 ∈ (asked (pre ++ [x])).encs := by
    rw [asked_append]
    rcases hx with ⟨f, rfl⟩ | ⟨es, rfl⟩
    · exact (Bool.or_eq_true _ _ ▸ h1).imp id of_decide_eq_true
    · exact (Bool.or_eq_true _ _ ▸ h1).imp id of_decide_eq_true
  exact h2.resolve_left fun h => hfly (List.isEmpty_iff.1 h)

/-- The client of `dotOps` is calm.  So is one that has fences and asks for other encodings while the frame is made: it
sees the dot. -/
example : watchCheck (dotOps ++ dotOps') (fun s v => !s.cl.closed && calmB {} ⟨none, []⟩ s.log && !v.lost) = true ∧
    watchCheck ((enter [0, -312] ++ [reads fullReq, reads (Msg.setEncodings 0 [0, -312, -223]).wire]).map (·, dotted) ++
      [((.encoded demoFrame, cursorEnv, []), dotted)])
      (fun s v => !s.cl.closed && calmB {} ⟨none, []⟩ s.log && !v.lost && v.screen 1 2 == some 1 &&
        s.log.any fun | .encodings es => es.contains (-223) | _ => false) = true := by decide +kernel

/-- the client of `c97_lost_violated` is not calm -/
example : watchCheck ((enter [0] ++ [reads fullReq, reads (Msg.setEncodings 0 [0, -223]).wire,
      (.encoded demoFrame, cursorEnv, [])]).map (·, blank)) (fun s v => v.lost && !calmB {} ⟨none, []⟩ s.log) = true := by
  decide +kernel

/-- what the client of `dotOps` sees, by the theorem -/
example {s : St} {v : Viewer Nat} (e : watch [] (dotOps ++ dotOps') (start demoSrv) {} = .ok (s, v)) :
    v.screen 1 2 = some 1 := by
  have h : watchCheck (dotOps ++ dotOps') (fun s _ => !s.cl.closed && !s.cl.freed && calmB {} ⟨none, []⟩ s.log &&
      !s.log.contains .encodeFail && s.srv.fb.isSome && s.cl.nPending == 1 && !s.cl.cont && (s.log.all fun | .msg .ready _ (150 :: 0 :: _) _ => false | _ => true) &&
      !s.cl.isUpdating && decide (Fits s.log 1 2) && decide (Server.Asked s.log 1 2)) = true := by decide +kernel
  obtain ⟨s', v', e', h⟩ := watchCheck_iff.1 h
  cases e.symm.trans e'
  simp only [Bool.and_eq_true, Bool.not_eq_true', decide_eq_true_eq] at h
  obtain ⟨⟨⟨⟨⟨⟨⟨⟨⟨⟨h1, h2⟩, h3⟩, h4⟩, h5⟩, h6⟩, h7⟩, h8⟩, h9⟩, h10⟩, h11⟩ := h
  have hq : ∀ o ∈ dotOps ++ dotOps', o.1.2.2 = [] ∧ o.1.2.1 = cursorEnv := by
    simp [dotOps, dotOps', enter, reads]
  refine c97_calm_partial e dot_honest (fun o ho => ⟨(hq o ho).1, (hq o ho).2 ▸ cursorEnv_ample⟩) trivial h1 h2
    (calm_of h3) (fun hm => by simp [hm] at h4) (fun hn => by rw [hn] at h5; cases h5) (fun hn => by rw [hn] at h6; cases h6)
    h7 ?_ h9 h10 h11
  rintro ⟨ch, b, pl, hm⟩
  have := List.all_eq_true.1 h8 _ hm
  cases this

end Verif.Formats
