import Verif.Lemmas.Access

/-!
# Which messages disconnect the other clients
-/

namespace Verif.Server

variable {table : List Nat}

/-- neither a demand to disconnect the others nor a ClientInit message -/
def Mild (e : Eff) : Prop := e ≠ .disconnectOthers ∧ ∀ ch b pl, e ≠ .msg .init ch b pl

/-- since `l`: the others were disconnected if and only if a ClientInit message asked for it -/
def Excl (l : List Eff) (s : St) : Prop :=
  ∃ es, s.log = l ++ es ∧ (.disconnectOthers ∈ es ↔ ∃ ch pl, .msg .init ch [0] pl ∈ es)

theorem Excl.append {l s s'} (h : Excl l s) (h2 : ∃ fs, s'.log = s.log ++ fs ∧ ∀ e ∈ fs, Mild e) :
    Excl l s' := by
  obtain ⟨es, h1, h3⟩ := h
  obtain ⟨fs, h4, h5⟩ := h2
  refine ⟨es ++ fs, by rw [h4, h1, List.append_assoc], ?_⟩
  constructor
  · intro h
    rcases List.mem_append.1 h with h | h
    · obtain ⟨ch, pl, h⟩ := h3.1 h
      exact ⟨ch, pl, List.mem_append_left _ h⟩
    · exact absurd rfl (h5 _ h).1
  · rintro ⟨ch, pl, h⟩
    rcases List.mem_append.1 h with h | h
    · exact List.mem_append_left _ (h3.2 ⟨ch, pl, h⟩)
    · exact absurd rfl ((h5 _ h).2 ch _ pl)

theorem Excl.same {l s s'} (h : Excl l s) (h2 : s'.log = s.log) : Excl l s' :=
  h.append ⟨[], by simp [h2], by simp⟩

theorem KeepEff.mild {s e} (h : KeepEff false s e) : Mild e := by
  rcases h with ⟨-, h⟩ | h | ⟨_, _, _, h, -⟩
  · cases h <;> exact ⟨by simp, by simp⟩
  · cases h <;> exact ⟨by simp, by simp⟩
  · cases h

theorem HsEff.mild {b e} (h : HsEff b e) (hb : b ≠ .init) : Mild e := by
  cases h with
  | newClient h => exact absurd h hb
  | disconnectOthers h => exact absurd h hb
  | _ => exact ⟨by simp, by simp⟩

theorem micro_mild {s s'} (h : Micro false table s s') (hi : s.cl.st ≠ .init) :
    ∃ fs, s'.log = s.log ++ fs ∧ ∀ e ∈ fs, Mild e := by
  rcases micro_keep h with h | h
  · obtain ⟨fs, h1, h2⟩ := h.frame.log
    exact ⟨fs, h1, fun e he => (h2 e he).mild hi⟩
  · obtain ⟨fs, h1, h2⟩ := h.log
    exact ⟨fs, h1, fun e he => (h2 e he).mild⟩

theorem onInit_eff {s s' : St} {f rest n} (e : onInit s (f :: rest) = .ok (s', n)) :
    s'.cl.st = .ready ∧ n = 1 ∧
      ∃ es, s'.log = s.log ++ es ∧ (.disconnectOthers ∈ es ↔ f = 0) ∧
        ∀ st ch b pl, .msg st ch b pl ∉ es := by
  unfold onInit at e
  dsimp only at e
  split at e
  · cases e
  · rename_i t ht
    cases e
    refine ⟨rfl, rfl, ?_⟩
    have h1 : ∀ u v, sendServerInit u = some v → ∃ es, v.log = u.log ++ es ∧
        Eff.disconnectOthers ∉ es ∧ ∀ st ch b pl, .msg st ch b pl ∉ es := by
      intro u v h
      unfold sendServerInit at h
      split at h
      · cases h
      · split at h
        · cases h
        · cases h
          refine ⟨_, send_log _ _ _, ?_⟩
          split <;> simp
    obtain ⟨es, h2, h3, h4⟩ := h1 _ _ ht
    by_cases hf : f = 0
    · rw [if_pos hf] at h2
      exact ⟨[.disconnectOthers] ++ es ++ [.newClient], by
        show t.log ++ _ = _
        rw [h2]; simp [emit], by simp [hf], by simp [h4]⟩
    · rw [if_neg hf] at h2
      exact ⟨es ++ [.newClient], by
        show t.log ++ _ = _
        rw [h2]; simp, by simp [hf, h3], by simp [h4]⟩

theorem micro_excl_ready (l) : ∀ s s', Micro false table s s' → (Excl l s ∧ s.cl.st = .ready) →
    Excl l s' ∧ s'.cl.st = .ready :=
  fun _ _ hm h => ⟨h.1.append (micro_mild hm (by rw [h.2]; decide)), micro_ready hm h.2⟩

theorem loop_excl {env l} (fuel : Nat) : ∀ {s s'}, Excl l s → loop env table fuel s = .ok s' →
    Excl l s' := by
  induction fuel with
  | zero => intro s s' hs e; cases e; exact hs
  | succ fuel ih =>
    intro s s' hs e
    unfold loop at e
    split at e
    · cases e; exact hs
    · dsimp only at e
      have hs : Excl l (s.upd fun k => { k with blocked := k.mustBlock, mustBlock := false }) :=
        hs.same rfl
      generalize (s.upd fun k => { k with blocked := k.mustBlock, mustBlock := false }) = s at e hs
      obtain ⟨⟨t, n⟩, ht, e⟩ := Outcome.bind_eq_ok.1 e
      dsimp only at e
      by_cases hi : s.cl.st = .init
      · unfold tryRead at ht
        rw [hi] at ht
        dsimp only at ht
        generalize ha : s.cl.buf.drop s.cl.idx = a at ht e
        cases a with
        | nil => cases ht; rw [if_pos rfl] at e; cases e; exact hs
        | cons f rest =>
          obtain ⟨-, hn, es, h1, h2, h3⟩ := onInit_eff ht
          subst hn
          rw [if_neg (by decide)] at e
          rcases ite_cases e with ⟨-, e⟩ | ⟨-, e⟩
          · cases e
          · refine ih ?_ e
            obtain ⟨gs, g1, g2⟩ := hs
            refine ⟨gs ++ es ++ [.msg .init s.cl.chan [f] (min 1 t.cl.plain)], ?_, ?_⟩
            · show t.log ++ [_] = _
              rw [h1, g1, hi]
              simp
            · constructor
              · intro h
                rw [List.append_assoc] at h
                rcases List.mem_append.1 h with h | h
                · obtain ⟨ch, pl, h⟩ := g2.1 h
                  exact ⟨ch, pl, by simp [h]⟩
                · rcases List.mem_append.1 h with h | h
                  · exact ⟨s.cl.chan, min 1 t.cl.plain, by rw [h2.1 h]; simp⟩
                  · simp at h
              · rintro ⟨ch, pl, h⟩
                rw [List.append_assoc] at h
                rcases List.mem_append.1 h with h | h
                · exact List.mem_append_left _ (List.mem_append_left _ (g2.2 ⟨ch, pl, h⟩))
                · rcases List.mem_append.1 h with h | h
                  · exact absurd h (h3 _ _ _ _)
                  · simp at h
                    exact List.mem_append_left _ (List.mem_append_right _ (h2.2 h.2.1.symm))
      · have h1 : Excl l t := by
          by_cases hst : s.cl.st = .ready
          · exact (tryRead_inv (lp := false) (I := fun s => Excl l s ∧ s.cl.st = .ready)
              (micro_excl_ready l) (reenterInHandler_ready (micro_excl_ready (table := table) l) fun _ _ h => h)
              ⟨hs, hst⟩ (fun _ _ h => h) ht).1
          · exact hs.append (micro_mild (.hs s _ _ _ hst ht) hi)
        rcases ite_cases e with ⟨-, e⟩ | ⟨-, e⟩
        · cases e; exact h1
        · rcases ite_cases e with ⟨-, e⟩ | ⟨-, e⟩
          · cases e
          · refine ih (h1.append ⟨[_], by exact rfl, ?_⟩) e
            intro x hx
            rw [List.mem_singleton] at hx
            subst hx
            exact ⟨by simp, fun ch b pl h => by injection h with h; exact hi h⟩

theorem streamClose_mild (s) : ∃ fs, (streamClose s).log = s.log ++ fs ∧ ∀ e ∈ fs, Mild e := by
  obtain ⟨fs, h1, h2⟩ := streamClose_log s
  exact ⟨fs, h1, fun e he => by rw [h2 e he]; exact ⟨by simp, by simp⟩⟩

theorem remoteClosed_mild (s) : ∃ fs, (remoteClosed s).log = s.log ++ fs ∧ ∀ e ∈ fs, Mild e := by
  obtain ⟨fs, h1, h2⟩ := remoteClosed_log s
  exact ⟨fs, h1, fun e he => by rw [h2 e he]; exact ⟨by simp, by simp⟩⟩

theorem freeClient_mild (s) : ∃ fs, (freeClient s).log = s.log ++ fs ∧ ∀ e ∈ fs, Mild e := by
  rw [(freeClient_frame s).2.1]; exact streamClose_mild s

theorem onReadable_excl {l env rd s s'} (hb : Base s) (hs : Excl l s)
    (e : onReadable env table rd s = .ok s') : Excl l s' := by
  unfold onReadable at e
  split at e
  · rename_i c hc
    split at e
    · cases e
    · rename_i hlen
      cases rd with
      | again => cases e; exact hs
      | closed => cases e; exact hs.append (remoteClosed_mild s)
      | err => cases e; exact hs.append (freeClient_mild s)
      | data d =>
        cases d with
        | nil => cases e; exact hs
        | cons b d =>
          have hr : s.cl.st = .ready := Classical.byContradiction fun hn => by
            rw [(hb hn).cut] at hc; cases hc
          refine (micro_excl_ready (table := table) l _ _ (.bigCut s env c _ hr hc ?_ e)
            ⟨hs, hr⟩).1
          have := List.length_take_le (min (c.len - c.data.length) msgBufferSize) (b :: d)
          have := Nat.min_le_left (c.len - c.data.length) msgBufferSize
          omega
  · split at e
    · cases e
    · cases rd with
      | again => cases e; exact hs
      | closed => cases e; exact hs.append (remoteClosed_mild s)
      | err => cases e; exact hs.append (freeClient_mild s)
      | data d =>
        cases d with
        | nil => cases e; exact hs
        | cons b d =>
          simp only at e
          split at e
          · split at e <;> cases e
            · exact hs.append (remoteClosed_mild s)
            · exact hs.append (freeClient_mild s)
            · exact hs
          · obtain ⟨t, ht, e⟩ := Outcome.bind_eq_ok.1 e
            cases e
            exact (loop_excl _ (hs.same (s' := s.upd _) rfl) ht).same rfl

theorem nextRead_log (s : St) : (nextRead s).2.log = s.log := by
  unfold nextRead; split
  · rfl
  · dsimp only; split
    · split <;> rfl
    · rfl

theorem micro_excl_alive (l) : ∀ s s', Micro false table s s' → Alive (Excl l) s →
    Alive (Excl l) s' :=
  fun s s' hm hs => ⟨(micro_excl_ready l s s' hm ⟨hs.1, hs.2.2⟩).1,
    (micro_buf hm).2.2.2.trans hs.2.1, micro_ready hm hs.2.2⟩

theorem reenterTop_excl {l env} : Keeps (Alive (Excl l)) (reenterTop env table) := by
  intro s s' hs e
  unfold reenterTop at e
  have h1 : Excl l (nextRead s).2 := hs.1.same (nextRead_log s)
  have h2 := (nextRead_freed s).trans hs.2.1
  have h3 := nextRead_inv (wd := true) (table := table) (I := fun s => s.cl.st = .ready)
    (fun _ _ hm => micro_ready hm) hs.2.2
  have h4 := nextRead_closed s
  generalize nextRead s = res at e h1 h2 h3 h4
  obtain ⟨rd, t⟩ := res
  dsimp only at e h3
  obtain ⟨u, hu, e⟩ := Outcome.bind_eq_ok.1 e
  split at e
  · cases e
  · rename_i hf
    cases e
    exact ⟨onReadable_excl (fun hn => absurd h3 hn) h1 hu, by simpa using hf,
      onReadable_inv (wd := true) (I := fun s => s.cl.st = .ready) (fun _ _ hm => micro_ready hm)
        (fun hn => absurd h3 hn) h2 h4 h3 hu⟩

/-- the others are disconnected exactly if the client asks for it in its ClientInit message -/
theorem step_excl {o env net s s'} (hb : Base s) (e : step table o env net s = .ok s') :
    Excl s.log s' := by
  unfold step event at e
  have h0 : Excl s.log { s with net := net } := ⟨[], by simp, by simp⟩
  have hb : Base { s with net := net } := hb
  generalize ({ s with net := net } : St) = t at e h0 hb
  generalize s.log = l at h0 ⊢
  split at e
  · split at e
    · split at e <;> cases e; exact h0
    · cases e; exact h0
  · rename_i hf
    have hf : t.cl.freed = false := by simpa using hf
    have hm := micro_excl_alive (table := table) l
    have hr := reenterTop_excl (table := table) (l := l) (env := env)
    have flow : ∀ u u', Micro false table t u → (∃ fs, u.log = t.log ++ fs ∧ ∀ e ∈ fs, Mild e) →
        processFb env (reenterTop env table) u = .ok u' → Excl l u' := by
      intro u u' hmu hl eu
      have hu := micro_base hmu hb
      by_cases hst : u.cl.st = .ready
      · exact (processFb_inv (fun _ h => h.2.2) hm hr
          ⟨h0.append hl, (micro_buf hmu).2.2.2.trans hf, hst⟩ eu).1
      · rw [processFb_idle (hu hst)] at eu; cases eu; exact h0.append hl
    cases o with
    | readable rd =>
      dsimp only at e
      split at e
      · cases e; exact h0
      · exact onReadable_excl hb h0 e
    | written =>
      dsimp only at e
      split at e
      · rename_i hw
        have hst : t.cl.st = .ready := Classical.byContradiction fun hn => by
          rw [(hb hn).writing] at hw; cases hw
        exact (completeFb_inv (fun _ h => h.2.2) hm hr
          (hm _ _ (.written t hst hw) ⟨h0, hf, hst⟩) e).1
      · cases e; exact h0
    | encoded f =>
      dsimp only at e
      split at e
      · rename_i hw
        have hst : t.cl.st = .ready := Classical.byContradiction fun hn => by
          rw [(hb hn).encoding] at hw; cases hw
        exact (finishFb_inv (fun _ h => h.2.2) hm hr (by simp [emit])
          (hm _ _ (.encoded t f hst hw) ⟨h0, hf, hst⟩) e).1
      · cases e; exact h0
    | flushed =>
      dsimp only at e
      split at e
      · cases e; exact h0.append (streamClose_mild t)
      · cases e; exact h0
    | idle =>
      dsimp only at e
      split at e
      · cases e; exact h0
      · cases e
        exact (h0.same (s' := t.upd _) rfl).append (freeClient_mild _)
    | appClose => cases e; exact h0.append (freeClient_mild t)
    | damage r =>
      dsimp only at e
      by_cases hc : t.cl.closed = true
      · rw [if_pos hc] at e; exact flow _ _ (.net t t.net) ⟨[], by simp, by simp⟩ e
      · rw [if_neg hc] at e; exact flow _ _ (.damage t r (by simpa using hc)) ⟨_, rfl, by simp [Mild]⟩ e
    | display fb => cases e; exact h0.same rfl
    | cursor => exact flow _ _ (.setCursor t) ⟨[], by simp, by simp⟩ e
    | setLed v => exact flow _ _ (.setLed t v) ⟨_, rfl, by simp [Mild]⟩ e

end Verif.Server
