import Verif.Props.Updates

/-!
# C24: damage is never lost
-/

namespace Verif.Server

variable {table : List Nat}

/-- the pixel is still to be sent, or a frame handed to the encoder since the log was `l` took care of
it: it was in its damage, or its buffer had no such pixel; or the encoder refused a frame -/
def Tracked (l : List Eff) (px py : Nat) (t : St) : Prop :=
  ∃ es, t.log = l ++ es ∧ (t.cl.damage.Has px py ∨
    (∃ e j f q, .encode e j f q ∈ es ∧ (j.dmg.Has px py ∨ ¬ (px < j.fb.w ∧ py < j.fb.h))) ∨
    .encodeFail ∈ es)

theorem Has.append {r q : Region} {px py} (h : r.Has px py) : Region.Has (r ++ q) px py := by
  obtain ⟨c, hc, h⟩ := h
  exact ⟨c, List.mem_append_left _ hc, h⟩

/-- clipping keeps the pixels inside -/
theorem Has.clip {r : Region} {px py w h : Nat} (hr : r.Has px py) (hx : px < w) (hy : py < h) :
    (r.clip { x := 0, y := 0, w := w, h := h }).Has px py := by
  obtain ⟨c, hc, h1, h2, h3, h4⟩ := hr
  refine ⟨c.inter { x := 0, y := 0, w := w, h := h }, List.mem_map.2 ⟨c, hc, rfl⟩, ?_⟩
  simp only [Rect.inter, Nat.max_def, Nat.min_def]
  refine ⟨?_, ?_, ?_, ?_⟩ <;> (repeat' split) <;> omega

variable {l : List Eff} {px py : Nat}

theorem Tracked.grow {s s'} (h : Tracked l px py s) (hl : ∃ es, s'.log = s.log ++ es)
    (hd : ∃ q, s'.cl.damage = s.cl.damage ++ q) : Tracked l px py s' := by
  obtain ⟨es, h1, h2⟩ := h
  obtain ⟨fs, h3⟩ := hl
  obtain ⟨q, h4⟩ := hd
  refine ⟨es ++ fs, by rw [h3, h1, List.append_assoc], ?_⟩
  rcases h2 with h2 | ⟨e, j, f, q, h2, h5⟩ | h2
  · rw [h4]; exact .inl (Has.append h2)
  · exact .inr (.inl ⟨e, j, f, q, List.mem_append_left _ h2, h5⟩)
  · exact .inr (.inr (List.mem_append_left _ h2))

theorem Tracked.same {s s'} (h : Tracked l px py s) (hl : ∃ es, s'.log = s.log ++ es)
    (hd : s'.cl.damage = s.cl.damage) : Tracked l px py s' :=
  h.grow hl ⟨[], by rw [hd, List.append_nil]⟩

/-- a frame takes the whole damage along -/
theorem stageFrame_tracked {env fb s s'} (h : Tracked l px py s)
    (e : stageFrame env fb s = .ok s') : Tracked l px py s' := by
  unfold stageFrame at e
  rcases ite_cases e with ⟨-, e⟩ | ⟨-, e⟩
  · cases e; exact h
  rcases ite_cases e with ⟨-, e⟩ | ⟨-, e⟩
  · cases e; exact h
  obtain ⟨n, en, ni, nk, nm, hf⟩ := ensureEncoder_frame env fb s
  generalize ensureEncoder env fb s = res at e hf
  obtain ⟨t, b⟩ := res
  dsimp only at hf
  cases b
  · dsimp only at e
    rcases ite_cases e with ⟨-, e⟩ | ⟨-, e⟩
    · cases e
    cases e; subst hf; exact h
  · dsimp only at e
    rcases ite_cases e with ⟨-, e⟩ | ⟨-, e⟩
    · cases e
    have h0 : Tracked l px py t := by subst hf; exact h
    clear h hf
    obtain ⟨es, h1, h2⟩ := h0
    rcases ite_cases e with ⟨-, e⟩ | ⟨-, e⟩
    · injection e with e
      have hl : ∃ en f q, s'.log = l ++ (es ++
          [.encode en ⟨fb, t.cl.damage.clip { x := 0, y := 0, w := fb.w, h := fb.h }, t.cl.encId⟩ f q]) := by
        rw [← e]
        split
        · exact ⟨_, _, _, by show t.log ++ _ = _; rw [h1, List.append_assoc]; rfl⟩
        · exact ⟨_, _, _, by show t.log ++ _ = _; rw [h1, List.append_assoc]; rfl⟩
      obtain ⟨en, f, q, hl⟩ := hl
      refine ⟨_, hl, .inr ?_⟩
      rcases h2 with h2 | ⟨e, j, f, q, h2, h5⟩ | h2
      · refine .inl ⟨_, _, _, _, List.mem_append_right _ (List.mem_singleton.2 rfl), ?_⟩
        by_cases hin : px < fb.w ∧ py < fb.h
        · exact .inl (Has.clip h2 hin.1 hin.2)
        · exact .inr hin
      · exact .inl ⟨e, j, f, q, List.mem_append_left _ h2, h5⟩
      · exact .inr (List.mem_append_left _ h2)
    · cases e
      exact ⟨es ++ [.encodeFail], by show t.log ++ _ = _; rw [h1, List.append_assoc],
        .inr (.inr (by simp))⟩

theorem micro_tracked {lp s s'} (hm : Micro lp table s s') (h : Tracked l px py s) :
    Tracked l px py s' := by
  have hs : ∀ (k b) (t : St), ∃ es, (send k b t).log = t.log ++ es := by
    intro k b t
    rw [send_log]
    split
    · exact ⟨[], by simp⟩
    · exact ⟨_, rfl⟩
  have free : ∀ t : St, Tracked l px py t → Tracked l px py (freeClient t) := by
    intro t ht
    obtain ⟨h1, h2, -, -⟩ := freeClient_frame t
    obtain ⟨-, -, ⟨_, _, _, _, _, _, _, _, _, _, _, h3⟩, es, h4, -⟩ := streamClose_frame (b := .error) t
    exact ht.same ⟨es, h2.trans h4⟩ (by rw [h1, h3])
  cases hm with
  | fenceOut => exact h.same (hs _ _ _) (by simp)
  | pfFire => exact h.same (hs _ _ (s.upd _)) (by simp)
  | ext =>
    obtain ⟨-, -, h3, h4⟩ := sendExtSupport_frame (s.upd fun k => { k with extNotified := true })
    refine h.same ?_ (by rw [h3]; rfl)
    rcases h4 with h4 | ⟨-, b, h4⟩
    · exact ⟨[], by rw [h4]; simp⟩
    · exact ⟨_, h4⟩
  | cursor env =>
    obtain ⟨-, -, ⟨_, h3⟩, h4⟩ := sendCursor_frame env s
    refine h.same ?_ (by rw [h3])
    rcases h4 with h4 | ⟨-, b, h4⟩
    · exact ⟨[], by rw [h4]; simp⟩
    · exact ⟨_, h4⟩
  | led =>
    obtain ⟨-, -, ⟨_, h3⟩, h4⟩ := sendLed_frame s
    refine h.same ?_ (by rw [h3])
    rcases h4 with h4 | ⟨-, b, h4⟩
    · exact ⟨[], by rw [h4]; simp⟩
    · exact ⟨_, h4⟩
  | frame env fb hr e => exact stageFrame_tracked h e
  | sendFrame f =>
    obtain ⟨-, -, ⟨_, _, dm, h3, h4⟩, es, h5, -⟩ := sendFrame_frame f s
    refine h.grow ⟨es, h5⟩ ?_
    rw [h3]
    rcases h4 with h4 | ⟨q, h4⟩
    · exact ⟨[], by simp [h4]⟩
    · exact ⟨_, h4⟩
  | hs env r a h1 h2 =>
    obtain ⟨-, -, ⟨_, _, _, _, _, _, _, _, _, _, _, h3⟩, es, h4, -⟩ := hs_frame h1 h2
    exact h.same ⟨es, h4⟩ (by rw [h3])
  | simple env a h1 h2 =>
    obtain ⟨-, -, ⟨_, _, _, _, _, _, _, _, _, h3⟩, es, h4, -⟩ := h2.frame
    exact h.same ⟨es, h4⟩ (by rw [h3])
  | fbReq inc r =>
    obtain ⟨-, -, ⟨_, _, h3⟩, h4⟩ := fbReqPre_frame inc r s
    refine h.grow ⟨_, h4⟩ ?_
    rw [h3]
    cases inc
    · exact ⟨[r], rfl⟩
    · exact ⟨[], by simp⟩
  | contOn => exact h.same ⟨_, rfl⟩ rfl
  | contOff =>
    refine h.same ?_ (by simp)
    obtain ⟨es, he⟩ := hs .endOfCont [150] (s.upd fun k => { k with
      cont := false, contRect := { x := 0, y := 0, w := 0, h := 0 } })
    exact ⟨es, he⟩
  | fenceReq flags payload h1 hp h2 =>
    obtain ⟨-, -, ⟨_, _, _, _, _, h3⟩, h4⟩ := fenceSeen_frame h2
    refine h.same ?_ (by rw [h3])
    rcases h4 with h4 | h4 | ⟨-, b, h4⟩ <;> exact ⟨_, h4⟩
  | consume => exact h.same ⟨_, rfl⟩ rfl
  | bigCut env c d hr hc h1 h2 =>
    obtain ⟨-, -, ⟨_, _, _, _, _, _, _, _, _, h3⟩, es, h4, -⟩ := bigCutText_frame h2
    exact h.same ⟨es, h4⟩ (by rw [h3])
  | remoteClosed =>
    obtain ⟨-, -, ⟨_, _, _, _, _, _, _, _, _, _, _, h3⟩, es, h4, -⟩ := remoteClosed_frame (b := .error) s
    exact h.same ⟨es, h4⟩ (by rw [h3])
  | flushed =>
    obtain ⟨-, -, ⟨_, _, _, _, _, _, _, _, _, _, _, h3⟩, es, h4, -⟩ := streamClose_frame (b := .error) s
    exact h.same ⟨es, h4⟩ (by rw [h3])
  | free hl h1 => exact free s h
  | idle hl h1 h2 => exact free _ h
  | encoded => exact h.same ⟨_, rfl⟩ rfl
  | setLed => exact h.same ⟨_, rfl⟩ rfl
  | damage r => exact h.grow ⟨_, rfl⟩ ⟨r, rfl⟩
  | _ => exact h

/-- C24: a pixel damaged while the client is connected is, after anything that may follow, still
pending, or a frame handed to the client's encoder since then had it in its damage (or was of a buffer
too small to have such a pixel) - unless the encoder refused a frame.  Nested reads may find anything.

Missing: encoders that refuse a frame, see `c24_damage_violated`. -/
theorem c24_damage_partial {srv : Srv} {pre post : List (Op × Env × List Read)} {r : Region} {env : Env}
    {net : List Read} {s₀ s₁ s₂ : St} (h0 : run table pre (start srv) = .ok s₀)
    (hc : s₀.cl.closed = false) (hf : s₀.cl.freed = false)
    (h1 : step table (.damage r) env net s₀ = .ok s₁) (h2 : run table post s₁ = .ok s₂)
    (hok : .encodeFail ∉ s₂.log) {px py : Nat} (hp : r.Has px py) :
    ∃ es, s₂.log = s₀.log ++ es ∧ (s₂.cl.damage.Has px py ∨ ∃ e j f q, .encode e j f q ∈ es ∧
      (j.dmg.Has px py ∨ ¬ (px < j.fb.w ∧ py < j.fb.h))) := by
  have hb := (run_inv (I := fun _ => True) (fun _ _ _ _ _ => trivial) pre (start_base srv) trivial h0).1
  have key : ∀ s s', Micro true table s s' → Base s → Tracked s₀.log px py s → Tracked s₀.log px py s' :=
    fun s s' hm _ h => micro_tracked hm h
  have hk : ∀ s s', Micro true table s s' → (Base s ∧ Tracked s₀.log px py s) →
      (Base s' ∧ Tracked s₀.log px py s') := fun _ _ hm ht => ⟨micro_base hm ht.1, key _ _ hm ht.1 ht.2⟩
  have hd : Base s₁ ∧ Tracked s₀.log px py s₁ := by
    unfold step event at h1
    rw [if_neg (by show ¬ s₀.cl.freed = true; rw [hf]; decide)] at h1
    dsimp only at h1
    rw [if_neg (by show ¬ s₀.cl.closed = true; rw [hc]; decide)] at h1
    have hfu : (emit (.damaged r) (St.upd { s₀ with net := net } fun k =>
        { k with damage := k.damage ++ r })).cl.freed = false := hf
    have hu : Base (emit (.damaged r) (St.upd { s₀ with net := net } fun k =>
        { k with damage := k.damage ++ r })) ∧ Tracked s₀.log px py (emit (.damaged r)
          (St.upd { s₀ with net := net } fun k => { k with damage := k.damage ++ r })) := by
      refine ⟨micro_base (wd := true) (table := table) (.damage (lp := true) { s₀ with net := net } r hc)
        (micro_base (wd := true) (table := table) (.net (lp := true) s₀ net) hb), _, rfl, .inl ?_⟩
      obtain ⟨c, hc, hp⟩ := hp
      exact ⟨c, List.mem_append_right _ hc, hp⟩
    generalize emit (.damaged r) (St.upd { s₀ with net := net } fun k =>
      { k with damage := k.damage ++ r }) = u at h1 hu hfu
    by_cases hst : u.cl.st = .ready
    · exact (processFb_inv (fun _ h => h.2.2) (micro_alive hk) (reenterTop_keeps hk) ⟨hu, hfu, hst⟩ h1).1
    · rw [processFb_idle (hu.1 hst)] at h1; cases h1; exact hu
  obtain ⟨-, es, g1, g2⟩ := run_inv key post hd.1 hd.2 h2
  refine ⟨es, g1, ?_⟩
  rcases g2 with g2 | g2 | g2
  · exact .inl g2
  · exact .inr g2
  · exact absurd (by rw [g1]; exact List.mem_append_right _ g2) hok

/-- damage during a frame goes out with the next one -/
example : runCheck (enter [0] ++ [reads fullReq]) (fun s => !s.cl.closed && !s.cl.freed) = true ∧
    runCheck (enter [0] ++ [reads fullReq, (.damage [⟨1, 2, 1, 1⟩], cursorEnv, []),
      (.encoded demoFrame, cursorEnv, []), reads (Msg.fbRequest 1 ⟨0, 0, 4, 3⟩).wire,
      (.written, cursorEnv, [])])
      (fun s => !s.log.contains .encodeFail && s.cl.damage == [] && s.log.getLast? ==
        some (.encode 0 ⟨demoFb, [⟨1, 2, 1, 1⟩], 0⟩ demoFmt 10)) = true := by decide +kernel

/-- C24 is false: when the encoder refuses a frame its damage is gone (server.c 922-954 moves the
damage out of the client before `encoder_encode` and does not put it back) -/
theorem c24_damage_violated : ∃ s, run [] (enter [0] ++ [(.damage [⟨1, 2, 1, 1⟩], cursorEnv, []),
      (.readable (.data fullReq), { cursorEnv with encodeOk := false }, []),
      reads (Msg.fbRequest 1 ⟨0, 0, 4, 3⟩).wire]) (start demoSrv) = .ok s ∧
    s.cl.closed = false ∧ s.cl.damage = [] ∧ s.cl.encoding = false ∧
    s.log.all (fun | .encode .. => false | _ => true) = true := by
  obtain ⟨s, h1, h2⟩ := runCheck_iff.1 (show runCheck (enter [0] ++ [
      (.damage [⟨1, 2, 1, 1⟩], cursorEnv, []),
      (.readable (.data fullReq), { cursorEnv with encodeOk := false }, []),
      reads (Msg.fbRequest 1 ⟨0, 0, 4, 3⟩).wire])
      (fun s => decide (s.cl.closed = false ∧ s.cl.damage = [] ∧ s.cl.encoding = false ∧
        s.log.all (fun | .encode .. => false | _ => true) = true)) = true from by decide +kernel)
  exact ⟨s, h1, of_decide_eq_true h2⟩

end Verif.Server
