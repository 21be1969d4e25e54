import Verif.Spec.Owed
import Verif.Props.Updates
import Verif.Props.Frames

/-!
# C77: a client that is owed an update is not kept waiting
-/

namespace Verif.Server

variable {table : List Nat} {env : Env} {r : St → Outcome St}

/-! ## Damage -/

theorem notEmpty_iff (g : Region) : g.notEmpty = true ↔ ∃ px py, Region.Has g px py := by
  unfold Region.notEmpty Region.Has
  rw [List.any_eq_true]
  constructor
  · rintro ⟨q, hq, h⟩
    simp only [Bool.and_eq_true, decide_eq_true_eq] at h
    exact ⟨q.x, q.y, q, hq, Nat.le_refl _, by omega, Nat.le_refl _, by omega⟩
  · rintro ⟨px, py, q, hq, h1, h2, h3, h4⟩
    refine ⟨q, hq, ?_⟩
    simp only [Bool.and_eq_true, decide_eq_true_eq]
    omega

theorem has_clip (g : Region) (q : Rect) (px py : Nat) :
    Region.Has (g.clip q) px py ↔ Region.Has g px py ∧ Region.Has [q] px py := by
  unfold Region.Has Region.clip
  simp only [List.mem_map, List.mem_singleton]
  constructor
  · rintro ⟨_, ⟨p, hp, rfl⟩, h⟩
    simp only [Rect.inter] at h
    exact ⟨⟨p, hp, by omega⟩, q, rfl, by omega⟩
  · rintro ⟨⟨p, hp, h⟩, _, rfl, h'⟩
    refine ⟨_, ⟨p, hp, rfl⟩, ?_⟩
    simp only [Rect.inter]
    omega

/-- client_has_damage finds every pixel the client is owed -/
theorem hasDamage_iff (c : Client) : hasDamage c = true ↔
    ∃ px py, Region.Has c.damage px py ∧ (c.cont = true → Region.Has [c.contRect] px py) := by
  unfold hasDamage
  by_cases h1 : c.damage.notEmpty = true
  · rw [h1]
    by_cases h2 : c.cont = true
    · rw [h2]
      simp only [Bool.not_true, Bool.false_eq_true, if_false, true_implies]
      rw [notEmpty_iff]
      simp only [has_clip]
    · have h2 : c.cont = false := by simpa using h2
      rw [h2]
      simp only [Bool.not_true, Bool.not_false, Bool.false_eq_true, if_false, if_true, true_iff,
        false_implies, and_true]
      exact (notEmpty_iff _).1 h1
  · have h3 : c.damage.notEmpty = false := by simpa using h1
    rw [h3]
    simp only [Bool.not_false, if_true, Bool.false_eq_true, false_iff]
    rintro ⟨px, py, h, -⟩
    exact h1 ((notEmpty_iff _).2 ⟨px, py, h⟩)

/-! ## Serving -/

/-- an update is under way for a client that is owed one, or the estimate of the bandwidth holds it back -/
def Serves (env : Env) (s : St) : Prop :=
  Owed s → s.cl.isUpdating = true ∨ ∃ m, env.maxInflight = some m ∧ m < s.cl.inflight

def Served (s : St) : Prop := Owed s → s.cl.isUpdating = true

theorem Serves.served {s} (ha : Ample env) (h : Serves env s) : Served s := by
  intro ho
  refine (h ho).resolve_right ?_
  rintro ⟨m, hm, -⟩
  rw [ha.2.2] at hm; cases hm

theorem stageFrame_serves {fb s s'} (hn : ∀ e, env.encNew e = true) (hk : env.encodeOk = true)
    (e : stageFrame env fb s = .ok s') : Serves env s' := by
  intro ho
  unfold stageFrame at e
  rcases ite_cases e with ⟨hd, e⟩ | ⟨-, e⟩
  · cases e
    have := (hasDamage_iff s.cl).2 ho.2.2.2.2
    rw [this] at hd; cases hd
  rcases ite_cases e with ⟨hm, e⟩ | ⟨-, e⟩
  · cases e
    split at hm
    · rename_i m h; exact .inr ⟨m, h, by simpa using hm⟩
    · cases hm
  have hb : (ensureEncoder env fb s).2 = true := by
    unfold ensureEncoder
    dsimp only
    split
    · rfl
    · split
      · rfl
      · rw [hn]; rfl
  generalize ensureEncoder env fb s = res at e hb
  obtain ⟨t, b⟩ := res
  dsimp only at hb
  subst hb
  dsimp only at e
  rcases ite_cases e with ⟨-, e⟩ | ⟨-, e⟩
  · cases e
  rw [if_pos hk] at e
  injection e with e
  refine .inl ?_
  subst e
  split <;> rfl

theorem Stage.due {s s' b} (h : Stage s s' b) (hp : s.cl.cont = true ∨ 0 < s.cl.nPending) :
    (b = true → s'.cl.cont = true ∨ 0 < s'.cl.nPending) ∧
    (b = false → s'.cl.cont = false ∧ s'.cl.nPending = 0) := by
  obtain ⟨-, h1, -, -, -, es, -, -, -, -, -, h2⟩ := h
  rw [h1]
  rcases h2 with ⟨hb, h2, -⟩ | ⟨hc, -, h2, hb⟩
  · subst hb
    rw [h2]
    exact ⟨fun _ => hp, nofun⟩
  · rw [hc] at hp ⊢
    have := hp.resolve_left (by decide)
    constructor
    · intro h; rw [h] at hb; exact .inr (by simpa using hb.symm)
    · intro h; rw [h] at hb
      have : ¬ 0 < s'.cl.nPending := by simpa using hb.symm
      exact ⟨rfl, by omega⟩

/-- process_fb_update_requests serves the client -/
theorem processFb_serves (hr : Quiet r) {s s'} (hn : s.net = []) (hp : 0 ≤ s.cl.nPending)
    (he : ∀ e, env.encNew e = true) (hk : env.encodeOk = true)
    (e : processFb env r s = .ok s') : Serves env s' := by
  unfold processFb at e
  rcases ite_cases e with ⟨hc, e⟩ | ⟨-, e⟩
  · cases e
    intro ho; rw [ho.1] at hc; cases hc
  split at e
  · rename_i hf; cases e
    intro ho; exact absurd hf ho.2.1
  rcases ite_cases e with ⟨hu, e⟩ | ⟨hu, e⟩
  · cases e; exact fun _ => .inl hu
  rcases ite_cases e with ⟨hq, e⟩ | ⟨hq, e⟩
  · cases e
    intro ho
    rcases ho.2.2.2.1 with h | h
    · rw [h] at hq; exact absurd hq.1 (by decide)
    · exact absurd hq.2 h
  have d0 : s.cl.cont = true ∨ 0 < s.cl.nPending := by
    cases hc : s.cl.cont with
    | true => exact .inl rfl
    | false =>
      refine .inr ?_
      have : s.cl.nPending ≠ 0 := fun h => hq ⟨by simp [hc], h⟩
      omega
  have none : ∀ {t : St}, t.cl.cont = false ∧ t.cl.nPending = 0 → Serves env t := by
    intro t ht ho
    rcases ho.2.2.2.1 with h | h
    · rw [ht.1] at h; cases h
    · exact absurd ht.2 h
  obtain ⟨⟨t, b⟩, h1, e⟩ := Outcome.bind_eq_ok.1 e
  have g1 := stageExt_stage hr hn h1
  obtain ⟨d1, z1⟩ := g1.due d0
  cases b
  · cases e; exact none (z1 rfl)
  obtain ⟨⟨u, b⟩, h2, e⟩ := Outcome.bind_eq_ok.1 e
  have g2 := stageCursor_stage hr (g1.net.trans hn) h2
  obtain ⟨d2, z2⟩ := g2.due (d1 rfl)
  cases b
  · cases e; exact none (z2 rfl)
  obtain ⟨⟨v, b⟩, h3, e⟩ := Outcome.bind_eq_ok.1 e
  have g3 := stageLed_stage hr ((g2.net.trans g1.net).trans hn) h3
  obtain ⟨d3, z3⟩ := g3.due (d2 rfl)
  cases b
  · cases e; exact none (z3 rfl)
  exact stageFrame_serves he hk e

theorem processFb_served (hr : Quiet r) {s s'} (hn : s.net = []) (hp : 0 ≤ s.cl.nPending)
    (ha : Ample env) (e : processFb env r s = .ok s') : Served s' :=
  (processFb_serves hr hn hp ha.1 ha.2.1 e).served ha

/-! ## What does not matter -/

/-- what decides whether a client is owed an update is as it was -/
structure Unmoved (s s' : St) : Prop where
  fb : s'.srv.fb = s.srv.fb
  closed : s'.cl.closed = s.cl.closed
  cont : s'.cl.cont = s.cl.cont
  rect : s'.cl.contRect = s.cl.contRect
  nPending : s'.cl.nPending = s.cl.nPending
  damage : s'.cl.damage = s.cl.damage
  isUpdating : s'.cl.isUpdating = s.cl.isUpdating
  freed : s'.cl.freed = s.cl.freed

theorem Unmoved.served {s s'} (h : Unmoved s s') (hs : Served s) : Served s' := by
  intro ho
  rw [h.isUpdating]
  unfold Owed at ho
  rw [h.fb, h.closed, h.cont, h.rect, h.nPending, h.damage, h.freed] at ho
  exact hs ho

theorem Unmoved.refl (s : St) : Unmoved s s := ⟨rfl, rfl, rfl, rfl, rfl, rfl, rfl, rfl⟩

theorem Unmoved.trans {s t u : St} (h1 : Unmoved s t) (h2 : Unmoved t u) : Unmoved s u :=
  ⟨h2.1.trans h1.1, h2.2.trans h1.2, h2.3.trans h1.3, h2.4.trans h1.4, h2.5.trans h1.5,
    h2.6.trans h1.6, h2.7.trans h1.7, h2.8.trans h1.8⟩

theorem SimpleFrame.unmoved {s s' : St} (h : SimpleFrame s s') : Unmoved s s' := by
  obtain ⟨h1, -, ⟨_, _, _, _, _, _, _, _, _, h3⟩, -⟩ := h
  exact ⟨by rw [h1], by rw [h3], by rw [h3], by rw [h3], by rw [h3], by rw [h3], by rw [h3],
    by rw [h3]⟩

theorem unmoved_send (s k b) : Unmoved s (send k b s) := by
  unfold send
  split
  · exact .refl s
  · exact ⟨rfl, rfl, rfl, rfl, rfl, rfl, rfl, rfl⟩

theorem ppf_unmoved (hr : Quiet r) {s s'} (hn : s.net = []) (e : processPendingFence r s = .ok s') :
    Unmoved s s' := by
  unfold processPendingFence at e
  rcases ite_cases e with ⟨-, e⟩ | ⟨-, e⟩
  · rcases ite_cases e with ⟨-, e⟩ | ⟨-, e⟩ <;> cases e
    exact .refl _
  · dsimp only at e
    rcases ite_cases e with ⟨-, e⟩ | ⟨-, e⟩
    · cases e
      exact ⟨rfl, rfl, rfl, rfl, rfl, rfl, rfl, rfl⟩
    · obtain ⟨t, ht, e⟩ := Outcome.bind_eq_ok.1 e
      unfold sendFence at ht
      rcases ite_cases ht with ⟨-, ht⟩ | ⟨-, ht⟩
      · cases ht
      injection ht with ht
      have h2 : Unmoved s t ∧ t.net = [] := by
        subst ht
        refine ⟨Unmoved.trans ?_ (unmoved_send _ _ _), ?_⟩
        · exact ⟨rfl, rfl, rfl, rfl, rfl, rfl, rfl, rfl⟩
        · simpa using hn
      have h3 : Unmoved s (t.upd fun k => { k with pfN := 0, pfFlags := 0, pfPayload := [], blocked := false }) :=
        h2.1.trans ⟨rfl, rfl, rfl, rfl, rfl, rfl, rfl, rfl⟩
      have := hr _ _ (by exact h2.2) e
      subst this
      exact h3

theorem closed_served {s : St} (h : s.cl.closed = true) : Served s := by
  intro ho; rw [ho.1] at h; cases h

theorem fresh_served {s : St} (h : Fresh s.cl) : Served s := by
  intro ho
  rcases ho.2.2.2.1 with h' | h'
  · rw [h.cont] at h'; cases h'
  · exact absurd h.nPending h'

theorem streamClose_closed (s : St) : (streamClose s).cl.closed = true := by
  unfold streamClose
  split
  · assumption
  · dsimp only; split <;> rfl

theorem remoteClosed_served (s : St) : Served (remoteClosed s) := closed_served (streamClose_closed s)

theorem freeClient_served (s : St) : Served (freeClient s) := closed_served (streamClose_closed s)

/-! ## The update flow -/

theorem completeFb_served (hr : Quiet r) {s s'} (hn : s.net = []) (hp : 0 ≤ s.cl.nPending)
    (ha : Ample env) (hu : s.cl.isUpdating = true) (e : completeFb env r s = .ok s') : Served s' := by
  unfold completeFb at e
  rw [hu] at e
  exact processFb_served hr (by exact hn) (by exact hp) ha e

theorem finishFb_served (hr : Quiet r) {f s s'} (hn : s.net = []) (hp : 0 ≤ s.cl.nPending)
    (ha : Ample env) (hu : s.cl.isUpdating = true) (e : finishFb env r f s = .ok s') : Served s' := by
  unfold finishFb at e
  rcases ite_cases e with ⟨-, e⟩ | ⟨-, e⟩
  · exact completeFb_served hr hn hp ha hu e
  rcases ite_cases e with ⟨-, e⟩ | ⟨-, e⟩
  · refine completeFb_served hr ?_ ?_ ha ?_ e
    · exact hn
    · show 0 ≤ s.cl.nPending + 1; omega
    · exact hu
  rcases ite_cases e with ⟨-, e⟩ | ⟨-, e⟩
  · cases e
  obtain ⟨-, g2, ⟨_, _, _, g3, -⟩, -⟩ := sendFrame_frame f s
  have q1 : (sendFrame f s).net = [] := g2.trans hn
  have q2 : (sendFrame f s).cl.isUpdating = true := by rw [g3]; exact hu
  have q3 : 0 ≤ (sendFrame f s).cl.nPending := by rw [g3]; exact hp
  dsimp only at e
  generalize sendFrame f s = v at e q1 q2 q3
  obtain ⟨w, hw, e⟩ := Outcome.bind_eq_ok.1 e
  have b3 : w.net = [] ∧ Served w := by
    rcases ite_cases hw with ⟨-, hw⟩ | ⟨-, hw⟩
    · exact ⟨(completeFb_flow hr q1 hw).net.trans q1, completeFb_served hr q1 q3 ha q2 hw⟩
    · cases hw
      exact ⟨q1, fun _ => q2⟩
  obtain ⟨x, hx, e⟩ := Outcome.bind_eq_ok.1 e
  have h1 := sendPing_frame hx
  exact (ppf_unmoved hr (h1.net.trans b3.1) e).served (h1.unmoved.served b3.2)

/-! ## Messages -/

theorem onFence_served {s a s' n} (hn : s.net = []) (hp : 0 ≤ s.cl.nPending) (ha : Ample env)
    (hs : Served s) (e : onFence env reenterInHandler s a = .ok (s', n)) : Served s' := by
  unfold onFence at e
  split at e
  · dsimp only at e
    generalize _ ++ List.map env.stale (List.range 80) = more at e
    split at e
    · cases e; exact hs
    · split at e
      · cases e
      · split at e
        · obtain ⟨⟨t, b⟩, ht, e⟩ := Outcome.bind_eq_ok.1 e
          obtain ⟨h1, -, ⟨_, _, _, _, _, h3⟩, -⟩ := fenceSeen_frame ht
          have : Unmoved s t :=
            ⟨by rw [h1], by rw [h3], by rw [h3], by rw [h3], by rw [h3], by rw [h3], by rw [h3],
    by rw [h3]⟩
          cases b <;> cases e <;> exact this.served hs
        · obtain ⟨t, ht, e⟩ := Outcome.bind_eq_ok.1 e
          cases e
          unfold onFenceResponse at ht
          split at ht
          · dsimp only at ht
            split at ht
            · cases ht; exact hs
            · split at ht
              · cases ht; exact hs
              · exact processFb_served reenterInHandler_quiet (by exact hn) (by exact hp) ha ht
          · cases ht
  · cases e; exact hs

theorem onMessage_served {s a s' n} (hn : s.net = []) (hp : 0 ≤ s.cl.nPending) (ha : Ample env)
    (hs : Served s) (e : onMessage env table reenterInHandler s a = .ok (s', n)) :
    Served s' ∨ (n = 10 ∧ ∃ b, a = 150 :: 0 :: b) := by
  have simple : ∀ {b}, Simple env table s b s' n → Served s' := fun hm => hm.frame.unmoved.served hs
  unfold onMessage at e
  split at e
  · cases e; exact .inl hs
  · rename_i t rest
    by_cases hc : t = 0
    · rw [if_pos hc] at e; exact .inl (simple (.pix e))
    rw [if_neg hc] at e; clear hc
    by_cases hc : t = 2
    · rw [if_pos hc] at e; exact .inl (simple (.encs e))
    rw [if_neg hc] at e; clear hc
    by_cases hc : t = 3
    · rw [if_pos hc] at e
      unfold onFbRequest at e
      split at e
      · split at e
        · cases e; exact .inl hs
        · obtain ⟨t, ht, e⟩ := Outcome.bind_eq_ok.1 e
          cases e
          refine .inl ?_
          refine processFb_served reenterInHandler_quiet ?_ ?_ ha ht
          · rw [(fbReqPre_frame _ _ s).2.1, hn]
          · obtain ⟨-, -, ⟨_, _, g3⟩, -⟩ := fbReqPre_frame _ _ s
            rw [g3]
            show 0 ≤ s.cl.nPending + 1
            omega
      · cases e; exact .inl hs
    rw [if_neg hc] at e; clear hc
    by_cases hc : t = 4
    · rw [if_pos hc] at e; exact .inl (simple (.key e))
    rw [if_neg hc] at e; clear hc
    by_cases hc : t = 5
    · rw [if_pos hc] at e; exact .inl (simple (.pointer e))
    rw [if_neg hc] at e; clear hc
    by_cases hc : t = 6
    · rw [if_pos hc] at e; exact .inl (simple (.cut e))
    rw [if_neg hc] at e; clear hc
    by_cases hc : t = 150
    · rw [if_pos hc] at e
      subst hc
      unfold onContUpdates at e
      split at e
      · rename_i heq
        injection heq with h1 h2
        subst h2
        split at e
        · obtain ⟨t, ht, e⟩ := Outcome.bind_eq_ok.1 e
          cases e
          exact .inl (processFb_served reenterInHandler_quiet (by exact hn) (by exact hp) ha ht)
        · rename_i hz
          cases e
          have hz := Classical.not_not.1 hz
          subst hz
          exact .inr ⟨rfl, _, rfl⟩
      · cases e; exact .inl hs
    rw [if_neg hc] at e; clear hc
    by_cases hc : t = 255
    · rw [if_pos hc] at e; exact .inl (simple (.qemu e))
    rw [if_neg hc] at e; clear hc
    by_cases hc : t = 251
    · rw [if_pos hc] at e; exact .inl (simple (.size e))
    rw [if_neg hc] at e; clear hc
    by_cases hc : t = 160
    · rw [if_pos hc] at e; exact .inl (simple (.ntp (h := by rw [hc]; rfl) e))
    rw [if_neg hc] at e; clear hc
    by_cases hc : t = 248
    · rw [if_pos hc] at e; exact .inl (onFence_served hn hp ha hs e)
    rw [if_neg hc] at e; clear hc
    cases e

theorem tryRead_served {s a s' n} (hn : s.net = []) (hp : 0 ≤ s.cl.nPending) (hb : Base s) (ha : Ample env)
    (hs : Served s) (e : tryRead env table reenterInHandler s a = .ok (s', n)) :
    Served s' ∨ (s.cl.st = .ready ∧ n = 10 ∧ ∃ b, a = 150 :: 0 :: b) := by
  by_cases hst : s.cl.st = .ready
  · unfold tryRead at e; rw [hst] at e
    exact (onMessage_served hn hp ha hs e).imp id fun h => ⟨hst, h⟩
  · exact .inl (fresh_served ((hs_frame hst e).fresh (hb hst)))

/-! ## Events -/

theorem turnedOff_mono {l l' : List Eff} (h : TurnedOff l) (he : ∃ es, l' = l ++ es) : TurnedOff l' := by
  obtain ⟨ch, b, pl, h⟩ := h
  obtain ⟨es, rfl⟩ := he
  exact ⟨ch, b, pl, List.mem_append_left _ h⟩

theorem micro_turnedOff {lp s s'} (hm : Micro lp table s s') (h : TurnedOff s.log) : TurnedOff s'.log :=
  turnedOff_mono h (log_grows hm)

theorem balanced_upd {s : St} {f : Client → Client} (hs : Balanced s)
    (h : (f s.cl).nPending = s.cl.nPending ∧ (f s.cl).cont = s.cl.cont ∧
      (f s.cl).isUpdating = s.cl.isUpdating ∧ (f s.cl).encoding = s.cl.encoding ∧
      (f s.cl).writing = s.cl.writing) : Balanced (s.upd f) := (Same.upd s h).balanced hs

theorem loop_served (ha : Ample env) (fuel : Nat) : ∀ {s s'}, Holds Balanced s → Base s → Served s →
    loop env table fuel s = .ok s' → Served s' ∨ TurnedOff s'.log := by
  induction fuel with
  | zero => intro s s' _ _ hs e; cases e; exact .inl hs
  | succ fuel ih =>
    intro s s' hb hba hs e
    unfold loop at e
    split at e
    · cases e; exact .inl hs
    · rename_i hbl
      have hbl : s.cl.blocked = false := by simpa using hbl
      dsimp only at e
      obtain ⟨⟨t, n⟩, ht, e⟩ := Outcome.bind_eq_ok.1 e
      generalize hu : (s.upd fun k => { k with blocked := k.mustBlock, mustBlock := false }) = u at ht e
      have k0 : Unmoved s u := by subst hu; exact ⟨rfl, rfl, rfl, rfl, rfl, rfl, rfl, rfl⟩
      have u0 : Holds Balanced u := by
        subst hu
        exact holds_step (fun s s' hn hb hs => big_balanced hn hb hs) hb
          (.same _ _ (.quiet rfl rfl ⟨rfl, rfl, rfl, rfl, rfl⟩))
      have u1 : Base u := by
        subst hu
        exact micro_base (wd := true) (table := table) (lp := true) (.head s (by assumption)) hba
      have t0 : Holds Balanced t := tryRead_big (fun s s' hn hb hs => big_balanced hn hb hs) u0 ht
      have t1 : Base t :=
        tryRead_inv (wd := true) (table := table) (I := Base) (lp := true) (fun _ _ hm h => micro_base hm h)
          (reenterInHandler_ready (wd := true) (table := table) (fun _ _ hm h => micro_base hm h) (fun _ _ h => h.mono))
          u1 (fun _ _ h => h.mono) ht
      have t2 := tryRead_served u0.1 u0.2.pending u1 ha (k0.served hs) ht
      dsimp only at e
      split at e
      · rename_i hz
        cases e
        refine .inl (t2.resolve_right ?_)
        rintro ⟨-, h, -⟩
        rw [h] at hz; cases hz
      · split at e
        · cases e
        · rcases t2 with t2 | ⟨h1, h2, b, h3⟩
          · refine ih ?_ ?_ ?_ e
            · exact holds_step (fun s s' hn hb hs => big_balanced hn hb hs) t0
                (.same _ _ (.one _ (by rfl) rfl rfl ⟨rfl, rfl, rfl, rfl, rfl⟩))
            · intro hst
              obtain ⟨a1, a2, a3, a4, a5, a6, a7, a8, a9, b1, b2, b3, b4, b5⟩ := t1 hst
              exact ⟨a1, a2, a3, a4, a5, a6, a7, a8, a9, b1, b2, b3, b4, b5⟩
            · exact Unmoved.served ⟨rfl, rfl, rfl, rfl, rfl, rfl, rfl, rfl⟩ t2
          · refine .inr (loop_inv (I := fun s => TurnedOff s.log)
              (fun _ _ hm h => micro_turnedOff hm h) fuel ?_ e)
            refine ⟨u.cl.chan, b.take 8, min n t.cl.plain, List.mem_append_right _ (List.mem_singleton.2 ?_)⟩
            rw [h1, h2, h3]
            rfl

theorem onReadable_served (ha : Ample env) {rd s s'} (hb : Holds Balanced s) (hba : Base s) (hs : Served s)
    (e : onReadable env table rd s = .ok s') : Served s' ∨ TurnedOff s'.log := by
  have rem : Served (remoteClosed s) := remoteClosed_served s
  have fre : Served (freeClient s) := freeClient_served s
  unfold onReadable at e
  split at e
  · split at e
    · cases e
    · cases rd with
      | again => cases e; exact .inl hs
      | closed => cases e; exact .inl rem
      | err => cases e; exact .inl fre
      | data d =>
        cases d with
        | nil => cases e; exact .inl hs
        | cons b d => exact .inl ((bigCutText_frame e).unmoved.served hs)
  · split at e
    · cases e
    · cases rd with
      | again => cases e; exact .inl hs
      | closed => cases e; exact .inl rem
      | err => cases e; exact .inl fre
      | data d =>
        cases d with
        | nil => cases e; exact .inl hs
        | cons b d =>
          simp only at e
          split at e
          · split at e <;> cases e
            · exact .inl rem
            · exact .inl fre
            · exact .inl hs
          · obtain ⟨t, ht, e⟩ := Outcome.bind_eq_ok.1 e
            cases e
            refine (loop_served ha _ ?_ ?_ ?_ ht).imp ?_ id
            · exact holds_step (fun s s' hn hb hs => big_balanced hn hb hs) hb
                (.same _ _ (.quiet rfl rfl ⟨rfl, rfl, rfl, rfl, rfl⟩))
            · intro hst
              obtain ⟨a1, a2, a3, a4, a5, a6, a7, a8, a9, b1, b2, b3, b4, b5⟩ := hba hst
              exact ⟨a1, a2, a3, a4, a5, a6, a7, a8, a9, b1, b2, b3, b4, b5⟩
            · exact Unmoved.served ⟨rfl, rfl, rfl, rfl, rfl, rfl, rfl, rfl⟩ hs
            · exact Unmoved.served ⟨rfl, rfl, rfl, rfl, rfl, rfl, rfl, rfl⟩

/-- events that end in process_fb_update_requests -/
def Op.serves : Op → Bool
  | .damage _ | .cursor | .setLed _ => true
  | _ => false

theorem step_serves {o s s'} (hp : 0 ≤ s.cl.nPending) (he : ∀ e, env.encNew e = true)
    (hk : env.encodeOk = true) (ho : o.serves = true) (hf : s.cl.freed = false)
    (e : step table o env [] s = .ok s') : Serves env s' := by
  have q := reenterTop_quiet (env := env) (table := table)
  unfold step event at e
  rw [if_neg (by rw [hf]; decide)] at e
  cases o with
  | damage q' =>
    dsimp only at e
    generalize hu : @ite St _ (instDecidableEqBool s.cl.closed true) _ _ = u at e
    have : u.net = [] ∧ 0 ≤ u.cl.nPending := by
      subst hu; split <;> exact ⟨rfl, hp⟩
    exact processFb_serves q this.1 this.2 he hk e
  | cursor => exact processFb_serves q (by rfl) (by exact hp) he hk e
  | setLed v => exact processFb_serves q (by rfl) (by exact hp) he hk e
  | _ => cases ho

theorem step_served (ha : Ample env) {o s s'} (hb : Balanced s) (hba : Base s)
    (hd : ∀ fb, o ≠ .display (some fb)) (hs : o.serves = true ∨ Served s)
    (e : step table o env [] s = .ok s') : Served s' ∨ TurnedOff s'.log := by
  have e0 := e
  unfold step event at e
  have h0 : Holds Balanced { s with net := [] } :=
    ⟨rfl, hb.pending, hb.enc, hb.wr, hb.opened, hb.alt, hb.count⟩
  have b0 : Base { s with net := [] } := hba
  have q := reenterTop_quiet (env := env) (table := table)
  by_cases hf : s.cl.freed = true
  · rw [if_pos (by exact hf)] at e
    have fin : Served { s with net := [] } := fun ho => by
      have h : s.cl.freed = false := ho.2.2.1
      rw [hf] at h; cases h
    split at e
    · split at e <;> cases e; exact .inl fin
    · cases e; exact .inl fin
  · have hf : s.cl.freed = false := by simpa using hf
    rcases hs with ho | hs
    · exact .inl ((step_serves hb.pending ha.1 ha.2.1 ho hf e0).served ha)
    have s0 : Served { s with net := [] } := Unmoved.served ⟨rfl, rfl, rfl, rfl, rfl, rfl, rfl, rfl⟩ hs
    clear hs
    rw [if_neg (by show ¬ s.cl.freed = true; rw [hf]; decide)] at e
    generalize ({ s with net := [] } : St) = t at e h0 b0 s0
    obtain ⟨n0, h0⟩ := h0
    cases o with
    | readable rd =>
      dsimp only at e
      split at e
      · cases e; exact .inl s0
      · exact onReadable_served ha ⟨n0, h0⟩ b0 s0 e
    | written =>
      dsimp only at e
      split at e
      · rename_i hw
        exact .inl (completeFb_served q (by exact n0) (by exact h0.pending) ha (by exact h0.wr hw) e)
      · cases e; exact .inl s0
    | encoded f =>
      dsimp only at e
      split at e
      · rename_i hw
        exact .inl (finishFb_served q (by exact n0) (by exact h0.pending) ha (by exact (h0.enc hw).1) e)
      · cases e; exact .inl s0
    | flushed =>
      dsimp only at e
      split at e
      · cases e; exact .inl (closed_served (streamClose_closed t))
      · cases e; exact .inl s0
    | idle =>
      dsimp only at e
      split at e
      · cases e; exact .inl s0
      · cases e; exact .inl (freeClient_served _)
    | appClose => cases e; exact .inl (freeClient_served _)
    | damage q' => exact .inl ((step_serves hb.pending ha.1 ha.2.1 rfl (by assumption) e0).served ha)
    | display fb =>
      cases fb with
      | some fb => exact absurd rfl (hd fb)
      | none => cases e; exact .inl fun ho => absurd rfl ho.2.1
    | cursor => exact .inl ((step_serves hb.pending ha.1 ha.2.1 rfl (by assumption) e0).served ha)
    | setLed v => exact .inl ((step_serves hb.pending ha.1 ha.2.1 rfl (by assumption) e0).served ha)

/-! ## C77 -/

theorem run_served : ∀ (ops : List (Op × Env × List Read)) {s s' : St}, (∀ o ∈ ops, o.2.2 = []) →
    (∀ o ∈ ops, Ample o.2.1) → Shown ops → Balanced s → Base s → Served s ∨ TurnedOff s.log →
    run table ops s = .ok s' → Served s' ∨ TurnedOff s'.log
  | [], s, s', _, _, _, _, _, hs, e => by cases e; exact hs
  | (o, env, net) :: ops, s, s', hq, ha, hsh, hb, hba, hs, e => by
    have e0 := e
    obtain ⟨t, ht, e'⟩ := Outcome.bind_eq_ok.1 e
    have off : TurnedOff s.log → TurnedOff s'.log := fun h =>
      (run_inv (table := table) (I := fun s => TurnedOff s.log)
        (fun _ _ hm _ h => micro_turnedOff hm h) _ hba h e0).2
    have hn : net = [] := hq (o, env, net) (by simp)
    subst hn
    have bal : ∀ {o env s t}, Balanced s → step table o env [] s = .ok t → Balanced t := fun hs ht =>
      (step_big (I := Balanced) (fun s s' hn hb hs => big_balanced hn hb hs) hs
        (fun s n hs => ⟨hs.pending, hs.enc, hs.wr, hs.opened, hs.alt, hs.count⟩) ht).2
    have bas : ∀ {o env s t}, Base s → step table o env [] s = .ok t → Base t := fun hs ht =>
      (step_inv (table := table) (I := fun _ => True) (fun _ _ _ _ _ => trivial) hs trivial ht).1
    rcases hs with hs | hs
    · by_cases hd : ∃ fb, o = .display (some fb)
      · obtain ⟨fb, rfl⟩ := hd
        cases ops with
        | nil => cases hsh
        | cons o2 ops =>
          obtain ⟨o2, env2, net2⟩ := o2
          cases o2 with
          | damage q =>
            have hn : net2 = [] := hq (.damage q, env2, net2) (by simp)
            subst hn
            obtain ⟨u, hu, e'⟩ := Outcome.bind_eq_ok.1 e'
            have h1 := step_served (ha (.damage q, env2, []) (by simp)) (bal hb ht) (bas hba ht)
              (fun _ h => by cases h) (.inl rfl) hu
            exact run_served ops (fun o ho => hq o (by simp [ho])) (fun o ho => ha o (by simp [ho]))
              hsh (bal (bal hb ht) hu) (bas (bas hba ht) hu) h1 e'
          | _ => cases hsh
      · have h1 := step_served (ha (o, env, []) (by simp)) hb hba (fun fb h => hd ⟨fb, h⟩) (.inr hs) ht
        have hsh : Shown ops := by
          unfold Shown at hsh
          split at hsh
          · rename_i h; cases h
          · rename_i h; injection h with h _; injection h with h _; exact absurd ⟨_, h⟩ hd
          · cases hsh
          · rename_i h; injection h with _ h; subst h; exact hsh
        exact run_served ops (fun o ho => hq o (by simp [ho])) (fun o ho => ha o (by simp [ho])) hsh
          (bal hb ht) (bas hba ht) h1 e'
    · exact .inr (off hs)

/-- C77, the part that holds: as long as encoders are available, the bandwidth estimate does not hold
the client back and the client does not turn continuous updates off, a client that is owed an update
has one under way after every event.

Missing: the case in which continuous updates are turned off, see `c77_off_violated`; nested reads that
find more messages. -/
theorem c77_served_partial {srv : Srv} {ops : List (Op × Env × List Read)} {s : St}
    (hq : ∀ o ∈ ops, o.2.2 = []) (ha : ∀ o ∈ ops, Ample o.2.1) (hd : Shown ops)
    (e : run table ops (start srv) = .ok s) (ho : Owed s) (hc : ¬ TurnedOff s.log) :
    s.cl.isUpdating = true :=
  ((run_served ops hq ha hd (start_balanced srv) (start_base srv)
    (.inl (fresh_served (start_base srv nofun))) e).resolve_right hc) ho

/-- C77, after a shortage: whatever encoders and estimates did before, the next damage, cursor or LED
state with an encoder at hand gets a client that is owed an update its update, unless the estimate of
the bandwidth holds it back.

Missing: nested reads that find more messages. -/
theorem c77_resumed_partial {srv : Srv} {ops : List (Op × Env × List Read)} {s s' : St}
    (hq : ∀ o ∈ ops, o.2.2 = []) (e : run table ops (start srv) = .ok s)
    {o : Op} (ho : (∃ d, o = .damage d) ∨ o = .cursor ∨ ∃ v, o = .setLed v)
    (hn : ∀ e, env.encNew e = true) (hk : env.encodeOk = true)
    (e' : step table o env [] s = .ok s') (hw : Owed s') :
    s'.cl.isUpdating = true ∨ ∃ m, env.maxInflight = some m ∧ m < s'.cl.inflight := by
  have hb := run_balanced ops hq (start_balanced srv) e
  have hs : o.serves = true := by
    rcases ho with ⟨d, rfl⟩ | rfl | ⟨v, rfl⟩ <;> rfl
  by_cases hf : s.cl.freed = true
  · have hfr : s'.cl.freed = true := by
      unfold step event at e'
      rw [if_pos (by exact hf)] at e'
      split at e'
      · split at e' <;> cases e'; exact hf
      · cases e'; exact hf
    rw [hw.2.2.1] at hfr; cases hfr
  · exact step_serves hb.pending hn hk hs (by simpa using hf) e' hw

/-! ## Runs -/

/-- a client with continuous updates for half of the screen -/
def contMsg (on : UInt8) (x y w h : Nat) : Bytes := [150, on] ++ be16 x ++ be16 y ++ be16 w ++ be16 h

theorem cursorEnv_ample : Ample cursorEnv := ⟨fun _ => rfl, rfl, rfl⟩

/-- while a frame is being encoded more of the screen is damaged; the frame is sent, and the next one
is under way -/
example : (∀ o ∈ enter [0] ++ [reads fullReq, reads fullReq, (.damage [⟨1, 1, 2, 1⟩], cursorEnv, []),
      (.encoded demoFrame, cursorEnv, [])], o.2.2 = [] ∧ o.2.1 = cursorEnv) ∧
    runCheck (enter [0] ++ [reads fullReq, reads fullReq, (.damage [⟨1, 1, 2, 1⟩], cursorEnv, []),
      (.encoded demoFrame, cursorEnv, [])])
      (fun s => !s.cl.closed && s.srv.fb.isSome && s.cl.nPending == 1 && s.cl.damage.notEmpty &&
        s.cl.isUpdating) = true := by
  refine ⟨?_, by decide +kernel⟩
  simp [enter, reads]

/-- the run above meets the condition on buffers, as does one in which a buffer is shown -/
example : Shown (enter [0] ++ [reads fullReq, (.display (some demoFb), cursorEnv, []),
    (.damage [⟨1, 1, 2, 1⟩], cursorEnv, []), (.encoded demoFrame, cursorEnv, [])]) := trivial

/-- a request is made while no encoder can be had; when one can, the next damage is sent -/
example : runCheck (enter [0] ++ [(.readable (.data fullReq), { cursorEnv with encNew := fun _ => false }, [])])
      (fun s => s.cl.nPending == 1 && s.cl.damage.notEmpty && !s.cl.isUpdating) = true ∧
    runCheck (enter [0] ++ [(.readable (.data fullReq), { cursorEnv with encNew := fun _ => false }, []),
        (.damage [], cursorEnv, [])])
      (fun s => s.cl.nPending == 0 && s.cl.isUpdating) = true := by decide +kernel

/-- C77 is false: when continuous updates are turned off, the requests that are pending are not
processed (server.c 1438-1447).  The client has asked for an update, outside the rectangle it was
interested in before, but nothing is under way and nothing happens until the next event. -/
theorem c77_off_violated : ∃ s, run [] (enter [0] ++ [reads (contMsg 1 0 0 2 3),
      reads (Msg.fbRequest 0 ⟨3, 0, 1, 1⟩).wire, reads (contMsg 0 0 0 0 0)]) (start demoSrv) = .ok s ∧ Owed s ∧ s.cl.isUpdating = false := by
  obtain ⟨s, h1, h2⟩ := runCheck_iff.1 (show runCheck (enter [0] ++ [reads (contMsg 1 0 0 2 3),
      reads (Msg.fbRequest 0 ⟨3, 0, 1, 1⟩).wire, reads (contMsg 0 0 0 0 0)])
      (fun s => decide (s.cl.closed = false ∧ s.srv.fb ≠ none ∧ s.cl.freed = false ∧ s.cl.cont = false ∧
        s.cl.nPending ≠ 0 ∧ s.cl.damage = [⟨3, 0, 1, 1⟩] ∧ s.cl.isUpdating = false)) = true from by
    decide +kernel)
  obtain ⟨a1, a2, a3, a4, a5, a6, a7⟩ := of_decide_eq_true h2
  refine ⟨s, h1, ⟨a1, a2, a3, .inr a5, 3, 0, ?_, ?_⟩, a7⟩
  · rw [a6]; exact ⟨_, List.mem_singleton.2 rfl, by decide⟩
  · intro h; rw [a4] at h; cases h

/-- Nor is a request answered that asks for a part of the screen outside the rectangle of the
continuous updates (client_has_damage, server.c 841-861): the request stands, the part asked for is
damaged, and nothing is under way. -/
theorem c77_outside_violated : ∃ s, run [] (enter [0] ++ [reads (contMsg 1 0 0 2 3),
      reads (Msg.fbRequest 0 ⟨2, 0, 2, 3⟩).wire]) (start demoSrv) = .ok s ∧
    s.cl.closed = false ∧ s.cl.freed = false ∧ s.srv.fb ≠ none ∧ s.cl.nPending = 1 ∧
    Region.Has s.cl.damage 2 0 ∧ s.cl.isUpdating = false := by
  obtain ⟨s, h1, h2⟩ := runCheck_iff.1 (show runCheck (enter [0] ++ [reads (contMsg 1 0 0 2 3),
      reads (Msg.fbRequest 0 ⟨2, 0, 2, 3⟩).wire])
      (fun s => decide (s.cl.closed = false ∧ s.cl.freed = false ∧ s.srv.fb ≠ none ∧
        s.cl.nPending = 1 ∧ s.cl.damage = [⟨2, 0, 2, 3⟩] ∧ s.cl.isUpdating = false)) = true from by
    decide +kernel)
  obtain ⟨a1, a2, a3, a4, a5, a6⟩ := of_decide_eq_true h2
  exact ⟨s, h1, a1, a2, a3, a4, by rw [a5]; exact ⟨_, List.mem_singleton.2 rfl, by decide⟩, a6⟩

end Verif.Server
