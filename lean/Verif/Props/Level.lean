import Verif.Props.Formats

/-!
# C124: frames are in the quality that their client wants
-/

namespace Verif.Formats

open Verif.Server Verif.System

variable {table : List Nat} {env : Env}

/-- a step as far as the quality is concerned: either the client names its encodings or the quality stays, and frames
that begin have it -/
structure Levels (s s' : St) : Prop where
  log : ∃ es, s'.log = s.log ++ es ∧ ((∀ x, .encodings x ∉ es) → s'.cl.quality = s.cl.quality) ∧
    ∀ e j f q, .encode e j f q ∈ es → q = s.cl.quality ∧ ∀ x, .encodings x ∉ es
  range : 0 ≤ s.cl.quality ∧ s.cl.quality ≤ 10 → 0 ≤ s'.cl.quality ∧ s'.cl.quality ≤ 10

theorem Levels.quiet {s s' : St} (h : s'.cl.quality = s.cl.quality)
    (hl : ∃ es, s'.log = s.log ++ es ∧ ∀ x ∈ es, ∀ e j f q, x ≠ .encode e j f q) : Levels s s' := by
  obtain ⟨es, h1, h2⟩ := hl
  exact ⟨⟨es, h1, fun _ => h, fun e j f q hx => absurd rfl (h2 _ hx e j f q)⟩, by rw [h]; exact id⟩

theorem Steady.levels {s s' : St} (h : Steady s s') : Levels s s' := by
  obtain ⟨es, h1, h2⟩ := h.log
  exact .quiet h.ql ⟨es, h1, fun x hx => dull_other (h2 x hx)⟩

theorem pix_levels {s s' : St} {a : Bytes} {n : Nat} (e : onSetPixelFormat s a = .ok (s', n)) : Levels s s' := by
  unfold onSetPixelFormat at e
  split at e
  · cases e
    split
    · exact .quiet rfl ⟨[_], rfl, by simp⟩
    · have h1 := Steady.send (emit (.pixFmt cookedFmt) (s.upd fun k => { k with pix := cookedFmt }))
        .colourMap rgb332Map
      obtain ⟨es, h2, h3⟩ := h1.log
      refine .quiet (by simp [St.upd, emit]) ⟨.pixFmt cookedFmt :: es, ?_, ?_⟩
      · rw [St.upd_log, h2]; simp [emit, St.upd]
      · intro x hx
        rcases List.mem_cons.1 hx with rfl | hx
        · exact nofun
        · exact dull_other (h3 x hx)
  · cases e; exact (Steady.refl _).levels

theorem scan_range {x : Bool} : ∀ (b : Bytes) (acc : List Int) (q : Int), 0 ≤ q ∧ q ≤ 10 →
    0 ≤ (scanEncodings x b acc q).2 ∧ (scanEncodings x b acc q).2 ≤ 10
  | b0 :: b1 :: b2 :: b3 :: rest, acc, q, h => by
    unfold scanEncodings
    dsimp only
    split
    · exact h
    · refine scan_range rest _ _ ?_
      split <;> omega
  | [], _, _, h | [_], _, _, h | [_, _], _, _, h | [_, _, _], _, _, h => by
    unfold scanEncodings; exact h

theorem encs_levels {s s' : St} {a : Bytes} {n : Nat} (e : onSetEncodings env s a = .ok (s', n)) : Levels s s' := by
  unfold onSetEncodings at e
  split at e
  · dsimp only at e
    split at e
    · cases e; exact (Steady.refl _).levels
    · rename_i body _
      have hr := scan_range (x := env.experimental) body [] 10 (by decide)
      generalize scanEncodings env.experimental body [] 10 = res at e hr
      obtain ⟨encs, q⟩ := res
      dsimp only at e hr
      obtain ⟨t, ht, e⟩ := Outcome.bind_eq_ok.1 e
      cases e
      have h2 : Steady (emit (.encodings encs)
          (s.upd fun k => { k with encodings := encs, quality := q, formatsChanged := true })) s' := by
        refine .trans ?_ (sendPing_steady ht)
        refine .trans (t := notifyCont (emit (.encodings encs)
            (s.upd fun k => { k with encodings := encs, quality := q, formatsChanged := true }))) ?_ ?_
        · unfold notifyCont
          split
          · exact (Steady.upd _).trans (.send _ .endOfCont _)
          · exact .refl _
        · split
          · exact .send _ .clip _
          · exact .refl _
      obtain ⟨es, h3, h4⟩ := h2.log
      refine ⟨⟨.encodings encs :: es, by rw [h3]; simp [emit, St.upd], fun h => absurd (List.mem_cons_self) (h encs),
        fun e j f q hx => ?_⟩, fun _ => by rw [h2.ql]; exact hr⟩
      rcases List.mem_cons.1 hx with hx | hx
      · cases hx
      · exact absurd rfl (dull_other (h4 _ hx) e j f q)
  · cases e; exact (Steady.refl _).levels

theorem frame_levels {fb : Fb} {s s' : St} (e : stageFrame env fb s = .ok s') : Levels s s' := by
  unfold stageFrame at e
  rcases ite_cases e with ⟨-, e⟩ | ⟨-, e⟩
  · cases e; exact (Steady.refl _).levels
  rcases ite_cases e with ⟨-, e⟩ | ⟨-, e⟩
  · cases e; exact (Steady.refl _).levels
  cases he : ensureEncoder env fb s with
  | mk t b =>
  obtain ⟨n, en, i, k, m, hf⟩ := ensureEncoder_frame env fb s
  rw [he] at hf e
  dsimp only at hf
  subst hf
  cases b with
  | false =>
    dsimp only at e
    split at e
    · cases e
    · cases e
      exact .quiet rfl ⟨[], by simp, by simp⟩
  | true =>
    dsimp only at e
    split at e
    · cases e
    · split at e
      · cases e
        split <;>
        · refine ⟨⟨[_], rfl, fun _ => rfl, fun e j f q hx => ?_⟩, id⟩
          have hx := List.mem_singleton.1 hx
          injection hx with _ _ _ hq
          exact ⟨hq, by simp⟩
      · cases e
        exact .quiet rfl ⟨[_], rfl, by simp⟩

theorem micro_levels {lp s s'} (hm : Micro lp table s s') : Levels s s' := by
  cases hm with
  | fenceOut => exact (Steady.send _ _ _).levels
  | pfFire => exact ((Steady.upd _).trans (.send _ _ _)).levels
  | ext => exact ((Steady.upd _).trans (sendExtSupport_steady _)).levels
  | cursor env => exact (sendCursor_steady env s).levels
  | led hr => exact (sendLed_steady s).levels
  | frame env fb hr e => exact frame_levels e
  | sendFrame f hr hd _ hf =>
    obtain ⟨-, -, ⟨_, _, _, h1, -⟩, h2⟩ := sendFrame_frame f s
    obtain ⟨es, h3, h4⟩ := h2
    refine .quiet (by rw [h1]) ⟨es, h3, fun x hx => ?_⟩
    obtain ⟨-, k, b, -, rfl⟩ := h4 x hx
    exact nofun
  | hs env r a h1 h2 =>
    have hf := hs_frame h1 h2
    obtain ⟨_, _, _, _, _, _, _, _, _, _, _, h3⟩ := hf.cl
    obtain ⟨es, h4, h5⟩ := hf.log
    refine .quiet (by rw [h3]) ⟨es, h4, fun x hx => ?_⟩
    cases h5 x hx <;> exact nofun
  | simple env a h1 h2 =>
    rcases simple_cases h2 with e | e | e
    · exact pix_levels e
    · exact encs_levels e
    · exact e.levels
  | fbReq inc r => exact (fbReqPre_steady inc r s).levels
  | contOn => exact ((Steady.upd _).trans (.emit _)).levels
  | contOff => exact ((Steady.upd _).trans (.send _ _ _)).levels
  | fenceReq flags payload h1 hp h2 => exact (fenceReq_steady h2).levels
  | consume => exact ((Steady.upd _).trans (.emit _)).levels
  | bigCut env c d hr hc h1 h2 => exact (bigCutText_steady h2).levels
  | remoteClosed => exact ((streamClose_steady s).trans (deferClose_steady _)).levels
  | flushed => exact (streamClose_steady s).levels
  | free hl h1 => exact (freeClient_steady s).levels
  | idle hl h1 h2 => exact ((Steady.upd s).trans (freeClient_steady _)).levels
  | encoded f hr he => exact .quiet rfl ⟨[_], rfl, by simp⟩
  | setLed v => exact ((Steady.upd _).trans (.emit _)).levels
  | damage r => exact ((Steady.upd _).trans (.emit _)).levels
  | net => exact .quiet rfl ⟨[], by simp, by simp⟩
  | display => exact .quiet rfl ⟨[], by simp, by simp⟩
  | setCursor => exact .quiet rfl ⟨[], by simp, by simp⟩
  | _ => exact (Steady.upd _).levels

/-- frames that begin in `es` have quality `q0`, which is still the client's, unless it names its encodings before -/
def Since (l0 : List Eff) (q0 : Int) (c : Client) (l : List Eff) : Prop :=
  ∃ es, l = l0 ++ es ∧ ((∀ x, .encodings x ∉ es) → c.quality = q0) ∧
    ∀ a e j f q b, es = a ++ .encode e j f q :: b → (∀ x, .encodings x ∉ a) → q = q0

theorem append_eq_cons {α} {x y a b : List α} {z : α} (h : x ++ y = a ++ z :: b) :
    (∃ d, x = a ++ z :: d ∧ b = d ++ y) ∨ ∃ c, a = x ++ c ∧ y = c ++ z :: b := by
  rcases List.append_eq_append_iff.1 h with ⟨c, h1, h2⟩ | ⟨c, h1, h2⟩
  · exact .inr ⟨c, h1, h2⟩
  · cases c with
    | nil =>
      rw [List.append_nil] at h1
      exact .inr ⟨[], by simp [h1], by simpa using h2.symm⟩
    | cons w c =>
      rw [List.cons_append, List.cons.injEq] at h2
      obtain ⟨rfl, h2⟩ := h2
      exact .inl ⟨c, h1, h2⟩

theorem Since.levels {l0 : List Eff} {q0 : Int} {s s' : St} (h : Since l0 q0 s.cl s.log) (hl : Levels s s') :
    Since l0 q0 s'.cl s'.log := by
  obtain ⟨es, h1, h2, h3⟩ := h
  obtain ⟨ds, g1, g2, g3⟩ := hl.log
  refine ⟨es ++ ds, by rw [g1, h1, List.append_assoc], fun hn => ?_, fun a e j f q b he hn => ?_⟩
  · rw [g2 fun x hx => hn x (List.mem_append_right _ hx)]
    exact h2 fun x hx => hn x (List.mem_append_left _ hx)
  · rcases append_eq_cons he with ⟨d, h4, -⟩ | ⟨c, rfl, h5⟩
    · exact h3 a e j f q d h4 hn
    · have := (g3 e j f q (by rw [h5]; simp)).1
      rw [this]
      exact h2 fun x hx => hn x (List.mem_append_left _ hx)

theorem since_stays (l0 : List Eff) (q0 : Int) : Stays table (Since l0 q0) :=
  ⟨fun _ _ hm _ h => h.levels (micro_levels hm), fun s text _ h => by
    rw [← cutTextTo_cl text s]
    exact h.levels (cutTextTo_steady text s).levels⟩

/-- the quality is in range, also of all frames that have begun -/
theorem range_stays : Stays table fun c l => (0 ≤ c.quality ∧ c.quality ≤ 10) ∧
    ∀ e j f q, .encode e j f q ∈ l → 0 ≤ q ∧ q ≤ 10 := by
  have key : ∀ {s s' : St}, Levels s s' → ((0 ≤ s.cl.quality ∧ s.cl.quality ≤ 10) ∧
      ∀ e j f q, .encode e j f q ∈ s.log → 0 ≤ q ∧ q ≤ 10) → (0 ≤ s'.cl.quality ∧ s'.cl.quality ≤ 10) ∧
      ∀ e j f q, .encode e j f q ∈ s'.log → 0 ≤ q ∧ q ≤ 10 := by
    intro s s' hl h
    refine ⟨hl.range h.1, fun e j f q hx => ?_⟩
    obtain ⟨es, h1, -, h3⟩ := hl.log
    rw [h1] at hx
    rcases List.mem_append.1 hx with hx | hx
    · exact h.2 e j f q hx
    · rw [(h3 e j f q hx).1]; exact h.1
  refine ⟨fun _ _ hm _ h => key (micro_levels hm) h, fun s text _ h => ?_⟩
  rw [← cutTextTo_cl text s]
  exact key (cutTextTo_steady text s).levels h

/-- as long as a client does not name its encodings, all its frames are of the same quality -/
theorem same_stays : Stays table fun c l => ∀ a e j f q b, l = a ++ .encode e j f q :: b →
    Since (a ++ [.encode e j f q]) q c l := by
  have key : ∀ {s s' : St}, Levels s s' →
      (∀ a e j f q b, s.log = a ++ .encode e j f q :: b → Since (a ++ [.encode e j f q]) q s.cl s.log) →
      ∀ a e j f q b, s'.log = a ++ .encode e j f q :: b → Since (a ++ [.encode e j f q]) q s'.cl s'.log := by
    intro s s' hl h a e j f q b he
    obtain ⟨es, h1, h2, h3⟩ := hl.log
    rw [h1] at he
    rcases append_eq_cons he with ⟨d, h4, -⟩ | ⟨c, rfl, h5⟩
    · exact (h a e j f q d h4).levels hl
    · obtain ⟨hq, hn⟩ := h3 e j f q (by rw [h5]; simp)
      refine ⟨b, by rw [h1, h5]; simp, fun _ => (h2 hn).trans hq.symm, fun a' e' j' f' q' b' hb _ => ?_⟩
      rw [hq]
      exact (h3 e' j' f' q' (by rw [h5, hb]; simp)).1
  refine ⟨fun _ _ hm _ h => key (micro_levels hm) h, fun s text _ h => ?_⟩
  rw [← cutTextTo_cl text s]
  exact key (cutTextTo_steady text s).levels h

/-- **C124**: frames for a client that has not named its encodings are lossless. -/
theorem c124_lossless {s0 s : Sys} {ops : List SysOp} (h0 : s0.peers = []) (e : sysRun table ops s0 = .ok s)
    {p : Peer} (hp : p ∈ s.peers) {a b : List Eff} {enc : Int} {j : Job} {f : PixFmt} {q : Int}
    (hl : p.log = a ++ .encode enc j f q :: b) (hn : ∀ x, .encodings x ∉ a) : q = 10 := by
  have h : Since [] 10 p.cl p.log := (since_stays [] 10).all (fun srv => ⟨_, rfl, fun _ => rfl, ?_⟩) h0 e hp
  · obtain ⟨es, h1, -, h3⟩ := h
    exact h3 a enc j f q b (by rw [← hl, h1]; rfl) hn
  · intro a e j f q b he
    have : Eff.encode e j f q ∈ [Eff.send .plain .version versionMsg] := by rw [he]; simp
    simp at this

/-- **C124**: every frame is of one of the ten qualities that clients can ask for, or lossless. -/
theorem c124_range {s0 s : Sys} {ops : List SysOp} (h0 : s0.peers = []) (e : sysRun table ops s0 = .ok s)
    {p : Peer} (hp : p ∈ s.peers) {enc : Int} {j : Job} {f : PixFmt} {q : Int}
    (hl : .encode enc j f q ∈ p.log) : 0 ≤ q ∧ q ≤ 10 :=
  (range_stays.all (fun srv => ⟨⟨by show (0 : Int) ≤ 10; decide, by show (10 : Int) ≤ 10; decide⟩,
    fun e j f q h => by simp [start] at h⟩) h0 e hp).2 enc j f q hl

/-- **C124**: the quality of a client's frames changes only when the client names its encodings. -/
theorem c124_same {s0 s : Sys} {ops : List SysOp} (h0 : s0.peers = []) (e : sysRun table ops s0 = .ok s)
    {p : Peer} (hp : p ∈ s.peers) {a b c : List Eff} {e1 e2 : Int} {j1 j2 : Job} {f1 f2 : PixFmt} {q1 q2 : Int}
    (hl : p.log = a ++ .encode e1 j1 f1 q1 :: b ++ .encode e2 j2 f2 q2 :: c) (hn : ∀ x, .encodings x ∉ b) :
    q2 = q1 := by
  have h := same_stays.all (fun srv a e j f q b he => by
    have : Eff.encode e j f q ∈ (start srv).log := by rw [he]; simp
    simp [start] at this) h0 e hp a e1 j1 f1 q1 (b ++ .encode e2 j2 f2 q2 :: c) (by rw [hl]; simp)
  obtain ⟨es, h1, -, h3⟩ := h
  refine h3 b e2 j2 f2 q2 c ?_ hn
  rw [hl] at h1
  exact (List.append_cancel_left (as := a ++ [.encode e1 j1 f1 q1]) (by rw [← h1]; simp)).symm

/-- **C124**, the part that holds of the rest: when a ready client names its encodings, all frames that begin from then
on, until it does so again, are of the quality that it named last in that message, and lossless if it named none.

Missing: levels behind 32 supported encodings, see `c12_encodings_violated`. -/
theorem c124_asked_partial {s t s' : St} (hr : s.cl.st = .ready) {p : UInt8} {es : List Int} {rest : Bytes} {n : Nat}
    (hf : (Msg.setEncodings p es).Fits)
    (hs : (es.filter fun e => decide (e ∈ supported env.experimental)).length < 32)
    (e1 : tryRead env table reenterInHandler s ((Msg.setEncodings p es).wire ++ rest) = .ok (t, n))
    {evs : List (Op × Env × List Read)} (e2 : run table evs t = .ok s') {a b : List Eff} {enc : Int} {j : Job}
    {f : PixFmt} {q : Int} (hl : s'.log = t.log ++ a ++ .encode enc j f q :: b) (hn : ∀ x, .encodings x ∉ a) :
    q = ((es.filter fun e => decide (-32 ≤ e ∧ e ≤ -23)).getLast?.map (· + 32)).getD 10 := by
  have hq := (c12_encodings_partial hr hf e1).2.2 hs
  have ht : t.cl.st = .ready := by
    rw [msg_setEncodings hr hf.1] at e1
    generalize scanEncodings env.experimental (es.flatMap wire32) [] 10 = sc at e1
    obtain ⟨encs, q⟩ := sc
    dsimp only at e1
    obtain ⟨u, hu, e1⟩ := Outcome.bind_eq_ok.1 e1
    cases e1
    have h1 : ∀ v : St, (notifyCont v).cl.st = v.cl.st := by
      intro v; unfold notifyCont; split
      · simp only [send_cl]; rfl
      · rfl
    rw [(sendPing_steady hu).st]
    split
    · rw [sendClipCaps, send_cl, h1]; exact hr
    · rw [h1]; exact hr
  have h := (run_inv (I := fun s => Since t.log t.cl.quality s.cl s.log)
    (fun _ _ hm hb h => h.levels (micro_levels hm)) evs (s := t) (fun h => absurd ht h)
    ⟨[], by simp, fun _ => rfl, fun a e j f q b he => by simp at he⟩ e2).2
  obtain ⟨ds, h1, -, h3⟩ := h
  rw [← hq]
  refine h3 a enc j f q b ?_ hn
  rw [hl, List.append_assoc] at h1
  exact (List.append_cancel_left h1).symm

/-- A client gets a lossless frame, names a quality, gets a frame of it, names others, of which the last counts, and
none, and gets lossless frames again. -/
example : runCheck ((enter []).take 3 ++ [reads fullReq, (.encoded demoFrame, cursorEnv, []), (.written, cursorEnv, []),
      reads (Msg.setEncodings 0 [7, -29]).wire, reads fullReq, (.encoded demoFrame, cursorEnv, []),
      (.written, cursorEnv, []), reads (Msg.setEncodings 0 [-32, 7, -23]).wire, reads fullReq,
      (.encoded demoFrame, cursorEnv, []), (.written, cursorEnv, []), reads (Msg.setEncodings 0 [7]).wire,
      reads fullReq])
    (fun s => (s.log.filterMap fun e => match e with
      | .encode _ _ _ q => some q
      | .encodings _ => some (-1)
      | _ => none) == [10, -1, 3, -1, 9, -1, 10]) = true := by decide +kernel

end Verif.Formats
