import Verif.Lemmas.Tls

/-! # Properties of the TLS stream (C78-C83) -/

namespace Verif.Tls

open Verif.Tcp (Status Reaction)

/-! ## C78: sending -/

/-- C78.  Whatever was left in the queue of the TCP stream, whatever the handshake, GnuTLS, the peer and
re-entrant callbacks do: what went out is the beginning of what was handed over, in that order, and on a
stream that is open the queue is the rest. -/
theorem c78_in_order (old : List (Bytes × Reaction)) (h : HsAns) (ops : List Op) (s : State)
    (e : run ops (upgrade old h) = .ok s) :
    s.wire <+: s.submitted ∧ (s.phase ≠ .closed → s.wire ++ s.waiting = s.submitted) := by
  obtain ⟨dn, rest, part, k⟩ := run_inv (upgrade_inv old h) e
  have full : s.phase ≠ .closed → s.wire ++ s.waiting = s.submitted := by
    intro hc
    have := (k.opn hc).2.bytes
    unfold State.waiting State.submitted
    rw [k.wire, k.acc, List.append_assoc, this]
    simp
  refine ⟨?_, full⟩
  by_cases hc : s.phase = .closed
  · have := (k.cls hc).2.2.1
    unfold State.submitted
    rw [k.wire, k.acc]
    simp only [List.map_append, List.flatten_append]
    exact (List.prefix_append_right_inj _).mpr this
  · exact ⟨_, full hc⟩

/-- C78.  Every request completes once.  On an open stream each is either completed, with success, or
still queued; on a closed one each is completed, with success exactly those that had gone out in full. -/
theorem c78_exactly_once (old : List (Bytes × Reaction)) (h : HsAns) (ops : List Op) (s : State)
    (e : run ops (upgrade old h) = .ok s) :
    s.log.map Prod.fst ++ s.queue.map Req.id = List.range s.accepted.length ∧
    (s.phase = .closed → s.queue = []) ∧
    ∃ n, (∀ x ∈ s.log.take n, x.2 = .done) ∧ (∀ x ∈ s.log.drop n, x.2 = .failed) ∧
      (s.phase ≠ .closed → n = s.log.length) ∧
      ((s.accepted.take n).map fun x => x.2.1).flatten <+: s.wire := by
  obtain ⟨dn, rest, part, k⟩ := run_inv (upgrade_inv old h) e
  have num := k.num
  unfold Numbered at num
  have hw : ((s.accepted.take dn.length).map fun x => x.2.1).flatten <+: s.wire := by
    rw [k.acc, List.take_left, k.wire]; exact List.prefix_append _ _
  by_cases hc : s.phase = .closed
  · obtain ⟨hq, _, _, hl⟩ := k.cls hc
    refine ⟨?_, fun _ => hq, dn.length, ?_, ?_, fun e => absurd hc e, hw⟩
    · rw [← num, hl, hq, k.acc]; simp [Function.comp_def]
    · rw [hl, List.take_left' (by simp)]
      simp only [List.mem_map]; rintro x ⟨a, _, rfl⟩; rfl
    · rw [hl, List.drop_left' (by simp)]
      simp only [List.mem_map]; rintro x ⟨a, _, rfl⟩; rfl
  · obtain ⟨hl, hq⟩ := k.opn hc
    refine ⟨?_, fun e => absurd e hc, dn.length, ?_, ?_, fun _ => by simp [hl], hw⟩
    · rw [← num, hl, hq.ids, k.acc]; simp [Function.comp_def]
    · rw [hl]
      intro x hx
      have := List.mem_of_mem_take hx
      simp only [List.mem_map] at this
      obtain ⟨a, _, rfl⟩ := this; rfl
    · rw [hl, List.drop_of_length_le (by simp)]; nofun

/-- callbacks that do nothing -/
def Hush (s : State) : Prop := ∀ r ∈ s.queue, r.onDone = .stop

theorem close_hush (s : State) (h : Hush s) : Hush (close s) ∧ (close s).accepted = s.accepted := by
  unfold close
  split
  · exact ⟨h, rfl⟩
  · exact ⟨nofun, rfl⟩

theorem recordSend_hush {a b : SendAns} {d : Bytes} {s t : State} (e : recordSend a d s = .ok (t, b)) :
    t.queue = s.queue ∧ t.accepted = s.accepted := by
  unfold recordSend at e
  split at e
  · cases e; exact ⟨rfl, rfl⟩
  · split at e
    · cases e
    · split at e <;> (cases e; exact ⟨rfl, rfl⟩)

theorem flushN_hush : ∀ (n : Nat) (as : List SendAns) (s t : State) (as' : List SendAns),
    flushN n as s = .ok (t, as') → Hush s → Hush t ∧ t.accepted = s.accepted
  | 0, as, s, t, as', e, h => by cases e; exact ⟨h, rfl⟩
  | n + 1, as, s, t, as', e, h => by
    unfold flushN at e
    split at e
    · cases e
      split
      · exact ⟨h, rfl⟩
      · exact ⟨h, rfl⟩
    · rename_i r rest hq
      have hr : r.onDone = .stop := h r (by simp [hq])
      have hrest : ∀ x ∈ rest, x.onDone = .stop := fun x hx => h x (by simp [hq, hx])
      split at e
      · cases e
      · split at e
        · cases e
          have := recordSend_hush ‹_›
          have k := close_hush _ (fun x hx => h x (this.1 ▸ hx))
          exact ⟨k.1, k.2.trans this.2⟩
        · cases e
          have := recordSend_hush ‹_›
          exact ⟨fun x hx => h x (this.1 ▸ hx), this.2⟩
        · have := recordSend_hush ‹_›
          split at e
          · cases e
            refine ⟨fun x hx => ?_, this.2⟩
            simp only [List.mem_cons] at hx
            rcases hx with rfl | hx
            · exact hr
            · exact hrest x hx
          · rw [hr] at e
            simp only [react] at e
            have k := flushN_hush n _ _ _ _ e hrest
            exact ⟨k.1, k.2.trans this.2⟩
        · cases e
        · cases e

theorem flush_hush {as : List SendAns} {s t : State} (e : flush as s = .ok t) (h : Hush s) :
    Hush t ∧ t.accepted = s.accepted := by
  unfold flush at e
  split at e
  · cases e; exact flushN_hush _ _ _ _ _ ‹_› h
  · cases e
  · cases e

theorem tryAccept_keeps (h : HsAns) (s : State) :
    (tryAccept h s).1.queue = s.queue ∧ (tryAccept h s).1.accepted = s.accepted ∧
    (tryAccept h s).1.net = s.net ∧ (tryAccept h s).1.buf = s.buf ∧
    (tryAccept h s).1.arrived = s.arrived ∧ (tryAccept h s).1.got = s.got ∧
    (tryAccept h s).1.notes = s.notes ∧ (tryAccept h s).1.freed = s.freed ∧
    (tryAccept h s).1.wire = s.wire := by
  unfold tryAccept
  split
  · simp
  · cases h <;> simp

theorem read_hush {space : Nat} {s t : State} (e : read space s = .ok t) (h : Hush s) :
    Hush t ∧ t.accepted = s.accepted := by
  unfold read at e
  split at e
  · cases e
  · split at e
    · split at e
      · cases e
      · cases e; exact close_hush s h
    · split at e
      · cases e; exact ⟨h, rfl⟩
      · split at e
        · cases e; exact ⟨h, rfl⟩
        · cases e; exact ⟨h, rfl⟩
        · cases e
          exact close_hush { s with net := _, writing := false } h
        · cases e
          exact close_hush { s with net := _, writing := false } h

theorem onReadable_hush {h : HsAns} {space : Nat} {s t : State} (e : onReadable h space s = .ok t)
    (k : Hush s) : Hush t ∧ t.accepted = s.accepted := by
  unfold onReadable at e
  split at e
  · split at e
    · cases e; exact ⟨k, rfl⟩
    · exact read_hush e k
  · split at e
    · cases e; exact ⟨k, rfl⟩
    · exact read_hush e k
  · cases e
    have := tryAccept_keeps h s
    exact ⟨fun r hr => k r (this.1 ▸ hr), this.2.1⟩
  · cases e; exact ⟨k, rfl⟩

theorem onWritable_hush {h : HsAns} {as : List SendAns} {s t : State} (e : onWritable h as s = .ok t)
    (k : Hush s) : Hush t ∧ t.accepted = s.accepted := by
  unfold onWritable at e
  split at e
  · cases e
  · split at e
    · exact flush_hush e k
    · exact flush_hush e k
    · cases e
      have := tryAccept_keeps h s
      exact ⟨fun r hr => k r (this.1 ▸ hr), this.2.1⟩
    · cases e; exact ⟨k, rfl⟩

/-- what an operation hands over -/
def Op.data : Op → Option Bytes
  | .send d _ _ => some d
  | _ => none

/-- the callback an operation passes does nothing -/
def Op.Quiet : Op → Prop
  | .send _ cb _ => cb = .stop
  | _ => True

/-- closed is for good -/
theorem step_closed {o : Op} {s t : State} (e : step o s = .ok t) (hc : s.phase = .closed) :
    t.phase = .closed := by
  have hr : ∀ h space u, onReadable h space s = .ok u → u = s := by
    intro h space u hu
    unfold onReadable at hu
    rw [hc] at hu
    cases hu; rfl
  refine step_cases (P := fun t => t.phase = .closed) (fun x _ => hc) hc
    (fun _ _ _ _ _ _ u _ _ h => ?_) (fun _ _ _ _ _ _ u t _ hu _ h => ?_) (fun _ _ _ h => ?_)
    (fun d cb as t _ hc' h => absurd hc hc') (fun _ => close_closed s) e
  · rw [hr _ _ _ h]; exact hc
  · unfold onWritable at h
    split at h
    · cases h
    · rw [hu] at h; cases h; exact hu
  · unfold read at h
    rw [if_pos hc] at h
    cases h

theorem step_hush {o : Op} {s t : State} (e : step o s = .ok t) (h : Hush s) (hq : o.Quiet)
    (hi : Inv s) (ht : t.phase ≠ .closed) :
    Hush t ∧ t.accepted.map (fun x => x.2.1) = s.accepted.map (fun x => x.2.1) ++ o.data.toList := by
  have hc : s.phase ≠ .closed := fun hc => ht (step_closed e hc)
  have hf : s.freed = false := by
    obtain ⟨_, _, _, k⟩ := hi
    cases hf : s.freed with
    | false => rfl
    | true => exact absurd (k.frd hf) hc
  by_cases hs : ∃ d cb as, o = .send d cb as
  · obtain ⟨d, cb, as, rfl⟩ := hs
    unfold step at e
    rw [hf] at e
    simp only [Bool.false_eq_true, if_false, if_neg hc] at e
    have hcb : cb = .stop := hq
    have := flush_hush e (s := enqueue s d cb) (fun r hr => by
      simp only [enqueue, List.mem_append, List.mem_singleton] at hr
      rcases hr with hr | rfl
      · exact h r hr
      · exact hcb)
    refine ⟨this.1, ?_⟩
    rw [this.2]
    simp [enqueue, Op.data]
  · have key : Hush t ∧ t.accepted = s.accepted := by
      refine step_cases (P := fun t => Hush t ∧ t.accepted = s.accepted) (fun x _ => ⟨h, rfl⟩) ⟨h, rfl⟩
        (fun _ _ _ _ _ _ u _ _ k => onReadable_hush k h) (fun _ _ _ _ _ _ u t _ hu _ k => ?_)
        (fun _ _ _ k => read_hush k h)
        (fun d cb as t ho _ k => absurd ⟨d, cb, as, ho⟩ hs) (fun _ => close_hush s h) e
      have := onWritable_hush k hu.1
      exact ⟨this.1, this.2.trans hu.2⟩
    refine ⟨key.1, ?_⟩
    rw [key.2]
    cases o <;> simp [Op.data]
    exact absurd ⟨_, _, _, rfl⟩ hs

/-- C78.  Nothing is dropped on the way in: as long as the stream is open, what was handed over is what
the TCP stream had left followed by all data passed to send since (callbacks that do nothing). -/
theorem c78_accepts_everything (old : List Bytes) (h : HsAns) (ops : List Op) (s : State)
    (e : run ops (upgrade (old.map fun d => (d, .stop)) h) = .ok s) (ho : s.phase ≠ .closed)
    (hq : ∀ o ∈ ops, o.Quiet) :
    s.wire ++ s.waiting = old.flatten ++ (ops.filterMap Op.data).flatten := by
  rw [(c78_in_order _ h ops s e).2 ho]
  have gen : ∀ (ops : List Op) (u : State), Hush u → Inv u → run ops u = .ok s → (∀ o ∈ ops, o.Quiet) →
      u.phase ≠ .closed ∧
      s.accepted.map (fun x => x.2.1) = u.accepted.map (fun x => x.2.1) ++ ops.filterMap Op.data := by
    intro ops
    induction ops with
    | nil => intro u _ _ e _; cases e; exact ⟨ho, by simp⟩
    | cons o ops ih =>
      intro u hu hi e hq
      obtain ⟨v, e1, e2⟩ := run_cons e
      have hi2 := step_inv hi e1
      by_cases hv : v.phase = .closed
      · exfalso
        have : ∀ (ops : List Op) (v : State), v.phase = .closed → run ops v = .ok s → s.phase = .closed := by
          intro ops
          induction ops with
          | nil => intro v hv e; cases e; exact hv
          | cons o ops ih => intro v hv e; obtain ⟨w, h1, h2⟩ := run_cons e; exact ih w (step_closed h1 hv) h2
        exact ho (this ops v hv e2)
      · obtain ⟨k1, k2⟩ := step_hush e1 hu (hq o (by simp)) hi hv
        obtain ⟨_, k3⟩ := ih v k1 hi2 e2 (fun o ho => hq o (by simp [ho]))
        refine ⟨fun hc => hv (step_closed e1 hc), ?_⟩
        rw [k3, k2]
        cases hd : o.data <;> simp [hd]
  have start : ∀ (l : List Bytes) (u : State), Hush u →
      Hush ((l.map fun d => (d, Reaction.stop)).foldl (fun s r => enqueue s r.1 r.2) u) ∧
      ((l.map fun d => (d, Reaction.stop)).foldl (fun s r => enqueue s r.1 r.2) u).accepted.map
        (fun x => x.2.1) = u.accepted.map (fun x => x.2.1) ++ l := by
    intro l
    induction l with
    | nil => intro u hu; exact ⟨hu, by simp⟩
    | cons d l ih =>
      intro u hu
      obtain ⟨k1, k2⟩ := ih (enqueue u d .stop) (fun r hr => by
        simp only [enqueue, List.mem_append, List.mem_singleton] at hr
        rcases hr with hr | rfl
        · exact hu r hr
        · rfl)
      refine ⟨k1, ?_⟩
      simp only [List.map_cons, List.foldl_cons]
      rw [k2]
      simp [enqueue]
  obtain ⟨k1, k2⟩ := start old {} nofun
  have hup : Hush (upgrade (old.map fun d => (d, .stop)) h) ∧
      (upgrade (old.map fun d => (d, .stop)) h).accepted.map (fun x => x.2.1) = old := by
    have keep := tryAccept_keeps h ((old.map fun d => (d, Reaction.stop)).foldl (fun s r => enqueue s r.1 r.2) {})
    unfold upgrade
    dsimp only
    generalize tryAccept h _ = x at keep
    obtain ⟨v, b⟩ := x
    have hv : Hush v := fun r hr => k1 r (keep.1 ▸ hr)
    have ha : v.accepted.map (fun x => x.2.1) = old := by rw [keep.2.1, k2]; rfl
    cases b
    · have := close_hush v hv
      exact ⟨this.1, by rw [← ha]; exact congrArg _ this.2⟩
    · exact ⟨hv, ha⟩
  obtain ⟨_, k⟩ := gen ops _ hup.1 (upgrade_inv _ h) e hq
  unfold State.submitted
  rw [k, hup.2]
  simp

/-- a handshake in three steps, partial writes, a repeated call and a send by a callback -/
def demo : List Op :=
  [.event true false .wantWrite .fatal 9 [], .event false true .fatal .success 9 [],
    .send [1, 2, 3] (.send [9] .stop .stop) [.sent 2], .send [4, 5] .stop [.again],
    .event false true .fatal .fatal 9 [.sent 1, .sent 2, .again]]

structure View where
  phase : Phase
  wire : Bytes
  log : List (Nat × Status)
  queue : Nat
  maskW : Bool
  deriving DecidableEq

def view : Outcome State → Option View
  | .ok s => some ⟨s.phase, s.wire, s.log, s.queue.length, s.maskW⟩
  | _ => none

example : view (run demo (upgrade [] .wantRead)) =
    some ⟨.ready, [1, 2, 3, 4, 5], [(0, .done), (1, .done)], 1, true⟩ := by decide +kernel

example : view (run (demo ++ [.event false true .fatal .fatal 9 [.sent 1]]) (upgrade [] .wantRead)) =
    some ⟨.ready, [1, 2, 3, 4, 5, 9], [(0, .done), (1, .done), (2, .done)], 0, false⟩ := by decide +kernel

example : view (run (demo ++ [.close]) (upgrade [] .wantRead)) =
    some ⟨.closed, [1, 2, 3, 4, 5], [(0, .done), (1, .done), (2, .failed)], 0, true⟩ := by decide +kernel

/-! ## C79: what is queued goes out without a further send -/

theorem prefix_late {s t : State} (h : s.accepted <+: t.accepted) (k : t.Late) : s.Late :=
  fun e he => k e (h.subset he)

/-- before the handshake is over nothing is queued, if nothing was handed over until then -/
theorem late_empty {s : State} (hi : Inv s) (hp : s.phase = .normal ∨ s.phase = .handshake)
    (hl : s.Late) : s.queue = [] := by
  obtain ⟨dn, rest, part, k⟩ := hi
  have ha : s.accepted = [] := by
    rw [List.eq_nil_iff_forall_not_mem]
    exact fun e he => k.early hp e he (hl e he)
  have hc : s.phase ≠ .closed := by rcases hp with e | e <;> simp [e]
  have hq := (k.opn hc).2
  rw [k.acc, List.append_eq_nil_iff] at ha
  rw [ha.2] at hq
  cases hqq : s.queue with
  | nil => rfl
  | cons r q => rw [hqq] at hq; simp [QMatch] at hq

theorem read_acc {space : Nat} {s t : State} (e : read space s = .ok t) :
    t.accepted = s.accepted ∧ (t.phase = .closed ∨ t.phase = s.phase ∧ t.queue = s.queue ∧ t.maskW = s.maskW) := by
  have hcl : ∀ s : State, (close s).accepted = s.accepted := by
    intro s; unfold close; split <;> rfl
  unfold read at e
  split at e
  · cases e
  · split at e
    · split at e
      · cases e
      · cases e; exact ⟨hcl s, .inl (close_closed s)⟩
    · split at e
      · cases e; exact ⟨rfl, .inr ⟨rfl, rfl, rfl⟩⟩
      · split at e
        · cases e; exact ⟨rfl, .inr ⟨rfl, rfl, rfl⟩⟩
        · cases e; exact ⟨rfl, .inr ⟨rfl, rfl, rfl⟩⟩
        · cases e
          exact ⟨hcl { s with net := _, writing := false },
            .inl (close_closed { s with net := _, writing := false })⟩
        · cases e
          exact ⟨hcl { s with net := _, writing := false },
            .inl (close_closed { s with net := _, writing := false })⟩

/-- acceptance only grows, and the stream stays armed -/
structure Ready (s t : State) : Prop where
  acc : s.accepted <+: t.accepted
  armed : t.Late → Armed t

theorem tryAccept_ready {h : HsAns} {s : State} (hi : Inv s)
    (hp : s.phase = .normal ∨ s.phase = .handshake) : Ready s (tryAccept h s).1 := by
  have k := tryAccept_keeps h s
  refine ⟨k.2.1 ▸ List.prefix_refl _, fun hl _ hq => ?_⟩
  rw [k.1] at hq
  exact absurd (late_empty hi hp (fun e he => hl e (k.2.1 ▸ he))) hq

theorem onReadable_ready {h : HsAns} {space : Nat} {s u : State} (hi : Inv s) (ha : s.Late → Armed s)
    (e : onReadable h space s = .ok u) : Ready s u := by
  have rd : ∀ {u}, read space s = .ok u → Ready s u := by
    intro u e
    obtain ⟨h1, h2⟩ := read_acc e
    refine ⟨h1 ▸ List.prefix_refl _, fun hl hp hq => ?_⟩
    rcases h2 with h2 | ⟨h2, h3, h4⟩
    · simp [h2] at hp
    · rw [h4]
      exact ha (fun x hx => hl x (h1 ▸ hx)) (h2 ▸ hp) (h3 ▸ hq)
  unfold onReadable at e
  split at e
  · split at e
    · cases e; exact ⟨List.prefix_refl _, ha⟩
    · exact rd e
  · split at e
    · cases e; exact ⟨List.prefix_refl _, ha⟩
    · exact rd e
  · cases e; exact tryAccept_ready hi (.inr ‹_›)
  · cases e; exact ⟨List.prefix_refl _, ha⟩

theorem onWritable_ready {h : HsAns} {as : List SendAns} {s u : State} (hi : Inv s) (ha : s.Late → Armed s)
    (e : onWritable h as s = .ok u) : Ready s u := by
  have fl : ∀ {u}, flush as s = .ok u → Ready s u := by
    intro u e
    obtain ⟨t', e', h', k, hw⟩ := flush_inv (as := as) hi
    rw [e'] at e; cases e
    exact ⟨k.acc, fun _ hp hq => hw (by simp [hp]) hq⟩
  unfold onWritable at e
  split at e
  · cases e
  · split at e
    · exact fl e
    · exact fl e
    · cases e; exact tryAccept_ready hi (.inr ‹_›)
    · cases e; exact ⟨List.prefix_refl _, ha⟩

theorem step_ready {o : Op} {s t : State} (hi : Inv s) (ha : s.Late → Armed s) (e : step o s = .ok t) :
    Ready s t := by
  have close_ready : Ready s (close s) :=
    ⟨(close_same s).acc, fun _ hp => by simp [close_closed] at hp⟩
  refine step_cases (P := Ready s) (fun x _ => ⟨List.prefix_refl _, ha⟩) ⟨List.prefix_refl _, ha⟩
    (fun _ _ _ _ _ _ u _ _ h => onReadable_ready hi ha h) (fun _ _ _ _ _ _ u t _ hu hs h => ?_)
    (fun space t _ h => ?_) (fun d cb as t _ hc h => ?_) (fun _ => close_ready) e
  · have hiu : Inv u := by
      rcases hs with rfl | hs
      · exact hi
      · exact onReadable_inv hi hs
    have := onWritable_ready hiu hu.armed h
    exact ⟨hu.acc.trans this.acc, this.armed⟩
  · obtain ⟨h1, h2⟩ := read_acc h
    refine ⟨h1 ▸ List.prefix_refl _, fun hl hp hq => ?_⟩
    rcases h2 with h2 | ⟨h2, h3, h4⟩
    · simp [h2] at hp
    · rw [h4]
      exact ha (fun x hx => hl x (h1 ▸ hx)) (h2 ▸ hp) (h3 ▸ hq)
  · obtain ⟨t', e', h', k, hw⟩ := flush_inv (as := as) (enqueue_inv hi hc d cb)
    rw [e'] at h; cases h
    exact ⟨(List.prefix_append _ _).trans k.acc, fun _ hp hq => hw (by simp [hp]) hq⟩

theorem run_ready {os : List Op} {s t : State} (hi : Inv s) (ha : s.Late → Armed s)
    (e : run os s = .ok t) : Ready s t := by
  induction os generalizing s with
  | nil => cases e; exact ⟨List.prefix_refl _, ha⟩
  | cons o os ih =>
    obtain ⟨u, h1, h2⟩ := run_cons e
    have k := step_ready hi ha h1
    have k2 := ih (step_inv hi h1) k.armed h2
    exact ⟨k.acc.trans k2.acc, k2.armed⟩

/-- C79, partly.  If nothing was handed over before the end of the handshake: whenever data is queued on
a stream that is ready, the event loop waits for the socket to be writable, and it always waits for
it to be readable. -/
theorem c79_waits_partial (old : List (Bytes × Reaction)) (h : HsAns) (ops : List Op) (s : State)
    (e : run ops (upgrade old h) = .ok s) (hr : s.phase = .ready) (hl : s.Late) :
    s.handler = true ∧ s.maskR = true ∧ (s.queue ≠ [] → s.maskW = true) := by
  have hi := upgrade_inv old h
  have ha : (upgrade old h).Late → Armed (upgrade old h) := by
    intro hl hp hq
    -- before the handshake the phase is `normal`, so nothing in the queue was accepted in time
    exfalso
    have start : ∀ (l : List (Bytes × Reaction)) (u : State), u.phase = .normal →
        (∀ x ∈ u.accepted, x.2.2 = .normal) → (u.accepted = [] → u.queue = []) →
        ∀ v, v = l.foldl (fun s r => enqueue s r.1 r.2) u →
          (∀ x ∈ v.accepted, x.2.2 = .normal) ∧ (v.accepted = [] → v.queue = []) := by
      intro l
      induction l with
      | nil => intro u _ h1 h2 v hv; subst hv; exact ⟨h1, h2⟩
      | cons r l ih =>
        intro u h0 h1 h2 v hv
        refine ih (enqueue u r.1 r.2) h0 (fun x hx => ?_) (fun hx => ?_) v hv
        · simp only [enqueue, List.mem_append, List.mem_singleton] at hx
          rcases hx with hx | rfl
          · exact h1 x hx
          · exact h0
        · simp [enqueue] at hx
    obtain ⟨k1, k2⟩ := start old {} rfl nofun (fun _ => rfl) _ rfl
    have keep := tryAccept_keeps h (old.foldl (fun s r => enqueue s r.1 r.2) {})
    unfold upgrade at hl hp hq
    dsimp only at hl hp hq
    generalize tryAccept h _ = x at keep hl hp hq
    obtain ⟨v, b⟩ := x
    cases b
    · simp [destroy, close_closed] at hp
    · have hacc : v.accepted = [] := by
        rw [List.eq_nil_iff_forall_not_mem]
        intro y hy
        have h1 := hl y hy
        have h2 := k1 y (keep.2.1 ▸ hy)
        rw [h1] at h2; cases h2
      exact hq (by rw [keep.1]; exact k2 (keep.2.1 ▸ hacc))
  have k := (run_ready hi ha e).armed hl hr
  obtain ⟨dn, rest, part, hi'⟩ := run_inv hi e
  exact ⟨(hi'.rdy hr).1, (hi'.rdy hr).2, k⟩

example : ∃ s, run demo (upgrade [] .wantRead) = .ok s ∧ s.phase = .ready ∧ s.Late ∧ s.queue ≠ [] := by
  refine ⟨_, rfl, rfl, ?_, nofun⟩
  have : ∀ l : List (Nat × Bytes × Phase), (l.all fun e => decide (e.2.2 = .ready)) = true →
      ∀ e ∈ l, e.2.2 = .ready := fun l h e he => by simpa using List.all_eq_true.mp h e he
  exact this _ rfl

/-- no event moves the stream -/
def Asleep (s : State) : Prop :=
  ∀ r w hr hw space as, step (.event r w hr hw space as) s = .ok s

/-- C79 is violated: what the TCP stream has not sent when the switch to TLS is made (the byte that
accepts the subtype, vencrypt.c 90-92, if the socket would block) is left in the queue without waiting
for the socket to be writable.  The handshake may be over, but the data stays until something else
is sent. -/
theorem c79_upgrade_violated :
    ∃ s, run [] (upgrade [([1], .stop)] .success) = .ok s ∧ s.phase = .ready ∧ s.queue ≠ [] ∧ Asleep s := by
  refine ⟨_, rfl, rfl, nofun, ?_⟩
  intro r w hr hw space as
  cases r <;> cases w <;> rfl

/-- C79 is violated as well by data handed over during the handshake (a clipboard, for example, is sent
to all clients, server.c 1557-1590), if GnuTLS only puts that off. -/
theorem c79_handshake_violated :
    ∃ s, run [.send [7] .stop [.again], .event true false .success .fatal 9 []] (upgrade [] .wantRead) = .ok s ∧
      s.phase = .ready ∧ s.queue ≠ [] ∧ Asleep s := by
  refine ⟨_, rfl, rfl, nofun, ?_⟩
  intro r w hr hw space as
  cases r <;> cases w <;> rfl

/-! ## C80: the owner learns that the connection is gone -/

/-- no callback in the queue closes the stream -/
def Tame (s : State) : Prop := ∀ r ∈ s.queue, r.onDone.NoClose

/-- a stream in use -/
structure Up (s : State) : Prop where
  phase : s.phase = .ready
  handler : s.handler = true
  tame : Tame s

theorem not_fatal_tail {as : List SendAns} (h : .fatal ∉ as) : .fatal ∉ as.tail :=
  fun k => h (List.mem_of_mem_tail k)

theorem enqueue_up {s : State} (h : Up s) (d : Bytes) {cb : Reaction} (hcb : cb.NoClose) :
    Up (enqueue s d cb) :=
  ⟨h.phase, h.handler, fun r hr => by
    simp only [enqueue, List.mem_append, List.mem_singleton] at hr
    rcases hr with hr | rfl
    · exact h.tame r hr
    · exact hcb⟩

theorem react_up {f : List SendAns → State → Outcome (State × List SendAns)}
    (hf : ∀ as s t as', f as s = .ok (t, as') → Up s → .fatal ∉ as → Up t ∧ .fatal ∉ as') :
    ∀ (R : Reaction) (as : List SendAns) (s t : State) (as' : List SendAns),
      react f R as s = .ok (t, as') → R.NoClose → Up s → .fatal ∉ as → Up t ∧ .fatal ∉ as'
  | .stop, as, s, t, as', e, _, hs, ha => by cases e; exact ⟨hs, ha⟩
  | .close k, as, s, t, as', e, h, _, _ => absurd h (by simp [Reaction.NoClose])
  | .send d cb k, as, s, t, as', e, h, hs, ha => by
    unfold react at e
    rw [if_neg (by simp [hs.phase])] at e
    split at e
    · rename_i u as2 hu
      have := hf _ _ _ _ hu (enqueue_up hs d h.1) ha
      exact react_up hf k _ _ _ _ e h.2 this.1 this.2
    · cases e
    · cases e

theorem flushN_up : ∀ (n : Nat) (as : List SendAns) (s t : State) (as' : List SendAns),
    flushN n as s = .ok (t, as') → Up s → .fatal ∉ as → Up t ∧ .fatal ∉ as'
  | 0, as, s, t, as', e, hs, ha => by cases e; exact ⟨hs, ha⟩
  | n + 1, as, s, t, as', e, hs, ha => by
    have head : as.headD .again ≠ .fatal := by
      cases as with
      | nil => nofun
      | cons a l => intro k; exact ha (by simp only [List.headD_cons] at k; simp [k])
    unfold flushN at e
    split at e
    · cases e
      rw [if_neg (by simp [hs.phase])]
      exact ⟨⟨hs.phase, hs.handler, hs.tame⟩, ha⟩
    · rename_i r rest hq
      have hr : r.onDone.NoClose := hs.tame r (by simp [hq])
      have hrest : ∀ x ∈ rest, x.onDone.NoClose := fun x hx => hs.tame x (by simp [hq, hx])
      rw [if_neg (by simp [hs.phase])] at e
      unfold recordSend at e
      rw [if_neg (by simp [hs.phase])] at e
      split at e
      · rename_i hx
        split at hx
        · cases hx
        · split at hx <;> first | (cases hx; done) | exact absurd ‹_› head
      · rename_i hx
        split at hx
        · cases hx
        · split at hx <;> cases hx
          cases e
          exact ⟨⟨hs.phase, hs.handler, hs.tame⟩, not_fatal_tail ha⟩
      · rename_i hx
        split at hx
        · cases hx
        · split at hx <;> cases hx
          split at e
          · cases e
            refine ⟨⟨hs.phase, hs.handler, fun x hx => ?_⟩, not_fatal_tail ha⟩
            simp only [List.mem_cons] at hx
            rcases hx with rfl | hx
            · exact hr
            · exact hrest x hx
          · split at e
            · rename_i hu
              have := react_up (flushN_up n) _ _ _ _ _ hu hr ⟨hs.phase, hs.handler, hrest⟩
                (not_fatal_tail ha)
              exact flushN_up n _ _ _ _ e this.1 this.2
            · cases e
            · cases e
      · cases e
      · cases e

theorem flush_up {as : List SendAns} {s t : State} (e : flush as s = .ok t) (hs : Up s)
    (ha : .fatal ∉ as) : Up t := by
  unfold flush at e
  split at e
  · cases e; exact (flushN_up _ _ _ _ _ ‹_› hs ha).1
  · cases e
  · cases e

/-- in use, in the handshake, or reported -/
def Known (s : State) : Prop :=
  s.notes ≠ [] ∨ Up s ∨ (s.phase = .handshake ∧ s.handler = true)

theorem tryAccept_known {h : HsAns} {s : State} (hi : Inv s) (hp : s.phase = .handshake)
    (hh : s.handler = true) (hf : h ≠ .fatal) (hl : s.Late) : Known (tryAccept h s).1 := by
  have hq := late_empty hi (.inr hp) hl
  unfold tryAccept
  rw [if_neg (by simp [hh])]
  cases h with
  | success => exact .inr (.inl ⟨rfl, hh, fun r hr => by rw [hq] at hr; cases hr⟩)
  | fatal => exact absurd rfl hf
  | wantRead => exact .inr (.inr ⟨rfl, hh⟩)
  | wantWrite => exact .inr (.inr ⟨rfl, hh⟩)

theorem read_known {space : Nat} {s t : State} (k : Known s) (e : read space s = .ok t) : Known t := by
  unfold read at e
  split at e
  · cases e
  · split at e
    · split at e
      · cases e
      · cases e; exact .inl (by simp)
    · split at e
      · cases e
        exact k.imp id (Or.imp (fun k => ⟨k.phase, k.handler, k.tame⟩) id)
      · split at e
        · cases e; exact k.imp id (Or.imp (fun k => ⟨k.phase, k.handler, k.tame⟩) id)
        · cases e; exact k.imp id (Or.imp (fun k => ⟨k.phase, k.handler, k.tame⟩) id)
        · cases e; exact .inl (by simp)
        · cases e; exact .inl (by simp)

theorem read_notes {space : Nat} {s t : State} (e : read space s = .ok t) : s.notes <+: t.notes := by
  unfold read at e
  split at e
  · cases e
  · split at e
    · split at e
      · cases e
      · cases e; exact List.prefix_append _ _
    · split at e
      · cases e; exact List.prefix_refl _
      · split at e
        · cases e; exact List.prefix_refl _
        · cases e; exact List.prefix_refl _
        · cases e; exact List.prefix_append _ _
        · cases e; exact List.prefix_append _ _

theorem onReadable_known {h : HsAns} {space : Nat} {s t : State} (hi : Inv s) (k : Known s)
    (hf : h ≠ .fatal) (hl : t.Late) (e : onReadable h space s = .ok t) : Known t := by
  unfold onReadable at e
  split at e
  · split at e
    · cases e; exact k
    · exact read_known k e
  · split at e
    · cases e; exact k
    · exact read_known k e
  · cases e
    have keep := tryAccept_keeps h s
    rcases k with k | k | ⟨k1, k2⟩
    · exact .inl (by rw [keep.2.2.2.2.2.2.1]; exact k)
    · rename_i hp
      rw [k.phase] at hp; cases hp
    · exact tryAccept_known hi k1 k2 hf (fun x hx => hl x (keep.2.1 ▸ hx))
  · cases e; exact k

theorem onWritable_known {h : HsAns} {as : List SendAns} {s t : State} (hi : Inv s) (k : Known s)
    (hf : h ≠ .fatal) (ha : .fatal ∉ as) (hl : t.Late) (e : onWritable h as s = .ok t) : Known t := by
  have fl : ∀ {t}, s.phase ≠ .handshake → flush as s = .ok t → Known t := by
    intro t hp e
    rcases k with k | k | ⟨k1, k2⟩
    · obtain ⟨t', e', _, h, _⟩ := flush_inv (as := as) hi
      rw [e'] at e; cases e
      exact .inl (by rw [h.notes]; exact k)
    · exact .inr (.inl (flush_up e k ha))
    · exact absurd k1 hp
  unfold onWritable at e
  split at e
  · cases e
  · split at e
    · exact fl (by simp [*]) e
    · exact fl (by simp [*]) e
    · cases e
      have keep := tryAccept_keeps h s
      rcases k with k | k | ⟨k1, k2⟩
      · exact .inl (by rw [keep.2.2.2.2.2.2.1]; exact k)
      · rename_i hp
        rw [k.phase] at hp; cases hp
      · exact tryAccept_known hi k1 k2 hf (fun x hx => hl x (keep.2.1 ▸ hx))
    · cases e; exact k

theorem step_known {o : Op} {s t : State} (hi : Inv s) (ha : s.Late → Armed s) (k : Known s)
    (ho : o.Fair) (hl : t.Late) (e : step o s = .ok t) : Known t := by
  refine step_cases (P := fun t => t.Late → Known t)
    (fun x _ _ => k.imp id (Or.imp (fun k => ⟨k.phase, k.handler, k.tame⟩) id)) (fun _ => k)
    (fun r w hr hw space as u hop hh h hl => ?_) (fun r w hr hw space as u t hop hu hs h hl => ?_)
    (fun _ _ _ h _ => read_known k h) (fun d cb as t hop hc h hl => ?_) (fun hop => ?_) e hl
  · subst hop
    exact onReadable_known hi k ho.1 hl h
  · subst hop
    have hiu : Inv u ∧ (u.Late → Armed u) := by
      rcases hs with rfl | hs
      · exact ⟨hi, ha⟩
      · exact ⟨onReadable_inv hi hs, (onReadable_ready hi ha hs).armed⟩
    have hlu : u.Late := prefix_late (onWritable_ready hiu.1 hiu.2 h).acc hl
    exact onWritable_known hiu.1 (hu hlu) ho.2.1 ho.2.2 hl h
  · subst hop
    obtain ⟨t', e', _, hsame, _⟩ := flush_inv (as := as) (enqueue_inv hi hc d cb)
    have h0 := h
    rw [e'] at h; cases h
    rcases k with k | k | ⟨k1, k2⟩
    · exact .inl (by rw [hsame.notes]; exact k)
    · exact .inr (.inl (flush_up h0 (enqueue_up k d ho.1) ho.2))
    · exfalso
      have := prefix_late hsame.acc hl (s.accepted.length, d, s.phase) (by simp [enqueue])
      simp [k1] at this
  · subst hop
    exact absurd ho (by simp [Op.Fair])

/-- C80, partly.  If nothing is handed over before the handshake is over, no send and no handshake fails
for good and neither the owner nor a callback closes the stream, then a stream that is closed or no longer
watched has been reported to the owner. -/
theorem c80_reported_partial (h : HsAns) (hh : h ≠ .fatal) (ops : List Op) (s : State)
    (e : run ops (upgrade [] h) = .ok s) (hf : ∀ o ∈ ops, o.Fair) (hl : s.Late)
    (gone : s.phase = .closed ∨ s.handler = false) : s.notes ≠ [] := by
  have gen : ∀ (ops : List Op) (u : State), Inv u → (u.Late → Armed u) → Known u → run ops u = .ok s →
      (∀ o ∈ ops, o.Fair) → Known s := by
    intro ops
    induction ops with
    | nil => intro u _ _ k e _; cases e; exact k
    | cons o ops ih =>
      intro u hi ha k e hf
      obtain ⟨v, e1, e2⟩ := run_cons e
      have r1 := step_ready hi ha e1
      have r2 := run_ready (step_inv hi e1) r1.armed e2
      exact ih v (step_inv hi e1) r1.armed (step_known hi ha k (hf o (by simp)) (prefix_late r2.acc hl) e1)
        e2 (fun o ho => hf o (by simp [ho]))
  have k0 : Known (upgrade [] h) ∧ Armed (upgrade [] h) := by
    cases h with
    | success => exact ⟨.inr (.inl ⟨rfl, rfl, nofun⟩), fun _ hq => absurd rfl hq⟩
    | fatal => exact absurd rfl hh
    | wantRead => exact ⟨.inr (.inr ⟨rfl, rfl⟩), fun _ hq => absurd rfl hq⟩
    | wantWrite => exact ⟨.inr (.inr ⟨rfl, rfl⟩), fun _ hq => absurd rfl hq⟩
  rcases gen ops _ (upgrade_inv [] h) (fun _ => k0.2) k0.1 e hf with k | k | ⟨k1, k2⟩
  · exact k
  · rcases gone with g | g
    · simp [k.phase] at g
    · simp [k.handler] at g
  · rcases gone with g | g
    · simp [k1] at g
    · simp [k2] at g

/-- the peer hangs up while data is queued -/
example : ∃ s, run (demo ++ [.arrive (.record [8]), .arrive .eof, .event true false .success .success 9 [],
      .event true false .success .success 9 []]) (upgrade [] .wantRead) = .ok s ∧
    s.phase = .closed ∧ s.got = [8] ∧ s.notes = [.remoteClosed] := ⟨_, rfl, rfl, rfl, rfl⟩

/-- C80 is violated: when sending fails for good, for example because the peer is gone, the stream closes
(gnutls.c 92-95) and nobody is told.  No event will come from it any more, so the client stays. -/
theorem c80_send_violated :
    ∃ s, run [.send [1] .stop [.fatal]] (upgrade [] .success) = .ok s ∧
      s.phase = .closed ∧ s.freed = false ∧ s.notes = [] ∧ Asleep s := by
  refine ⟨_, rfl, rfl, rfl, rfl, ?_⟩
  intro r w hr hw space as
  rfl

/-- C80 is violated: a handshake that fails after its first step stops the handler (gnutls.c 233-236);
the result is ignored (136, 152).  The socket stays open and the client stays. -/
theorem c80_handshake_violated :
    ∃ s, run [.event true false .fatal .fatal 9 []] (upgrade [] .wantRead) = .ok s ∧
      s.phase = .handshake ∧ s.freed = false ∧ s.notes = [] ∧ Asleep s := by
  refine ⟨_, rfl, rfl, rfl, rfl, ?_⟩
  intro r w hr hw space as
  rfl

/-! ## C81: what arrives is handed over -/

/-- the invariant of the receiving side -/
structure RInv (s : State) : Prop where
  pre : s.got <+: s.arrived
  opn : s.phase ≠ .closed → s.arrived = s.got ++ s.buf ++ dataOf s.net

theorem dataOf_append (l m : List In) : dataOf (l ++ m) = dataOf l ++ dataOf m := by
  induction l with
  | nil => rfl
  | cons x l ih => cases x <;> simp [dataOf, ih]

theorem read_rinv {space : Nat} {s t : State} (k : RInv s) (e : read space s = .ok t) : RInv t := by
  have cl : ∀ u : State, (close u).phase = .closed ∧ (close u).got = u.got ∧ (close u).arrived = u.arrived := by
    intro u; unfold close; split <;> simp_all
  unfold read at e
  split at e
  · cases e
  · rename_i hc
    have ko := k.opn hc
    split at e
    · split at e
      · cases e
      · cases e
        have := cl s
        exact ⟨by simp only [destroy]; rw [this.2.1, this.2.2]; exact k.pre, fun h => absurd this.1 h⟩
    · split at e
      · cases e
        refine ⟨?_, fun _ => ?_⟩
        · rw [ko]
          refine ⟨s.buf.drop space ++ dataOf s.net, ?_⟩
          rw [List.append_assoc, ← List.append_assoc (s.buf.take space), List.take_append_drop,
            List.append_assoc]
        · rw [ko, List.append_assoc s.got (s.buf.take space), List.take_append_drop]
      · rename_i hb
        have hb : s.buf = [] := by simpa using hb
        split at e
        · cases e; exact ⟨k.pre, fun _ => ko⟩
        · rename_i b net hn
          cases e
          rw [hb, hn] at ko
          refine ⟨?_, fun _ => ?_⟩
          · rw [ko]
            refine ⟨b.drop space ++ dataOf net, ?_⟩
            rw [List.append_assoc, ← List.append_assoc (b.take space), List.take_append_drop,
              List.append_nil]
            rfl
          · rw [ko, List.append_assoc s.got (b.take space), List.take_append_drop, List.append_nil,
              List.append_assoc]
            rfl
        · rename_i net _
          cases e
          have := cl { s with net := net, writing := false }
          exact ⟨by dsimp only; rw [this.2.1, this.2.2]; exact k.pre, fun h => absurd this.1 h⟩
        · rename_i net _
          cases e
          have := cl { s with net := net, writing := false }
          exact ⟨by simp only [destroy]; rw [this.2.1, this.2.2]; exact k.pre, fun h => absurd this.1 h⟩

theorem same_rinv {s t : State} (h : Same s t) (k : RInv s) : RInv t := by
  refine ⟨by rw [h.got, h.arrived]; exact k.pre, fun hc => ?_⟩
  rw [h.arrived, h.got, h.buf, h.net]
  refine k.opn ?_
  rcases h.phase with e | e
  · rw [← e]; exact hc
  · exact absurd e hc

theorem tryAccept_rinv {h : HsAns} {s : State} (hp : s.phase ≠ .closed) (k : RInv s) :
    RInv (tryAccept h s).1 := by
  have keep := tryAccept_keeps h s
  refine ⟨by rw [keep.2.2.2.2.1, keep.2.2.2.2.2.1]; exact k.pre, fun _ => ?_⟩
  rw [keep.2.2.2.2.1, keep.2.2.2.2.2.1, keep.2.2.2.1, keep.2.2.1]
  exact k.opn hp

theorem onReadable_rinv {h : HsAns} {space : Nat} {s t : State} (k : RInv s)
    (e : onReadable h space s = .ok t) : RInv t := by
  unfold onReadable at e
  split at e
  · split at e
    · cases e; exact k
    · exact read_rinv k e
  · split at e
    · cases e; exact k
    · exact read_rinv k e
  · cases e; exact tryAccept_rinv (by simp [*]) k
  · cases e; exact k

theorem onWritable_rinv {h : HsAns} {as : List SendAns} {s t : State} (hi : Inv s) (k : RInv s)
    (e : onWritable h as s = .ok t) : RInv t := by
  unfold onWritable at e
  split at e
  · cases e
  · split at e
    · obtain ⟨t', e', _, h', _⟩ := flush_inv (as := as) hi
      rw [e'] at e; cases e; exact same_rinv h' k
    · obtain ⟨t', e', _, h', _⟩ := flush_inv (as := as) hi
      rw [e'] at e; cases e; exact same_rinv h' k
    · cases e; exact tryAccept_rinv (by simp [*]) k
    · cases e; exact k

theorem step_rinv {o : Op} {s t : State} (hi : Inv s) (k : RInv s) (e : step o s = .ok t) : RInv t := by
  refine step_cases (P := RInv) (fun x _ => ?_) k (fun _ _ _ _ _ _ u _ _ h => onReadable_rinv k h)
    (fun _ _ _ _ _ _ u t _ hu hs h => ?_) (fun _ _ _ h => read_rinv k h)
    (fun d cb as t _ hc h => ?_) (fun _ => same_rinv (close_same s) k) e
  · refine ⟨k.pre.trans (List.prefix_append _ _), fun hc => ?_⟩
    have := k.opn hc
    dsimp only
    rw [this, dataOf_append]
    cases x <;> simp [dataOf]
  · have hiu : Inv u := by
      rcases hs with rfl | hs
      · exact hi
      · exact onReadable_inv hi hs
    exact onWritable_rinv hiu hu h
  · obtain ⟨t', e', _, h', _⟩ := flush_inv (as := as) (enqueue_inv hi hc d cb)
    rw [e'] at h; cases h
    exact same_rinv ((enqueue_same s d cb).trans h') k

theorem upgrade_fresh (old : List (Bytes × Reaction)) (h : HsAns) :
    (upgrade old h).net = [] ∧ (upgrade old h).buf = [] ∧ (upgrade old h).arrived = [] ∧
    (upgrade old h).got = [] ∧ (upgrade old h).notes = [] ∧ (upgrade old h).wire = [] := by
  have start : ∀ (l : List (Bytes × Reaction)) (u : State),
      (l.foldl (fun s r => enqueue s r.1 r.2) u).net = u.net ∧
      (l.foldl (fun s r => enqueue s r.1 r.2) u).buf = u.buf ∧
      (l.foldl (fun s r => enqueue s r.1 r.2) u).arrived = u.arrived ∧
      (l.foldl (fun s r => enqueue s r.1 r.2) u).got = u.got ∧
      (l.foldl (fun s r => enqueue s r.1 r.2) u).notes = u.notes ∧
      (l.foldl (fun s r => enqueue s r.1 r.2) u).wire = u.wire := by
    intro l
    induction l with
    | nil => intro u; simp
    | cons r l ih => intro u; exact ih (enqueue u r.1 r.2)
  have k := start old {}
  have keep := tryAccept_keeps h (old.foldl (fun s r => enqueue s r.1 r.2) {})
  unfold upgrade
  dsimp only
  generalize tryAccept h _ = x at keep
  obtain ⟨v, b⟩ := x
  have hv : v.net = [] ∧ v.buf = [] ∧ v.arrived = [] ∧ v.got = [] ∧ v.notes = [] ∧ v.wire = [] :=
    ⟨keep.2.2.1.trans k.1, keep.2.2.2.1.trans k.2.1, keep.2.2.2.2.1.trans k.2.2.1,
      keep.2.2.2.2.2.1.trans k.2.2.2.1, keep.2.2.2.2.2.2.1.trans k.2.2.2.2.1,
      keep.2.2.2.2.2.2.2.2.trans k.2.2.2.2.2⟩
  cases b
  · simp only [destroy, close]
    split
    · exact hv
    · exact hv
  · exact hv

theorem run_rinv {os : List Op} {s t : State} (hi : Inv s) (k : RInv s) (e : run os s = .ok t) : RInv t := by
  induction os generalizing s with
  | nil => cases e; exact k
  | cons o os ih =>
    obtain ⟨u, h1, h2⟩ := run_cons e
    exact ih (step_inv hi h1) (step_rinv hi k h1) h2

theorem upgrade_rinv (old : List (Bytes × Reaction)) (h : HsAns) : RInv (upgrade old h) := by
  obtain ⟨h1, h2, h3, h4, _⟩ := upgrade_fresh old h
  exact ⟨by rw [h3, h4]; exact List.prefix_refl _, fun _ => by rw [h1, h2, h3, h4]; rfl⟩

/-- C81.  What the server reads is the beginning of what the peer sent, in order, and on an open stream
nothing of it is lost: the rest is with GnuTLS or in the socket. -/
theorem c81_received_in_order (old : List (Bytes × Reaction)) (h : HsAns) (ops : List Op) (s : State)
    (e : run ops (upgrade old h) = .ok s) :
    s.got <+: s.arrived ∧ (s.phase ≠ .closed → s.arrived = s.got ++ s.buf ++ dataOf s.net) := by
  have := run_rinv (upgrade_inv old h) (upgrade_rinv old h) e
  exact ⟨this.pre, this.opn⟩

/-- nothing decrypted is left lying, and everything in the socket fits -/
def Small (n : Nat) (s : State) : Prop :=
  s.buf = [] ∧ ∀ b, In.record b ∈ s.net → b.length ≤ n

theorem read_small {n space : Nat} {s t : State} (k : Small n s) (hn : n ≤ space)
    (e : read space s = .ok t) : Small n t := by
  have cl : ∀ u : State, (close u).buf = u.buf ∧ (close u).net = u.net := by
    intro u; unfold close; split <;> simp
  have mem_of : ∀ {l m : List In} {c : In}, l = m → c ∈ l → c ∈ m := fun h k => h ▸ k
  unfold read at e
  split at e
  · cases e
  · split at e
    · split at e
      · cases e
      · cases e
        have := cl s
        exact ⟨this.1.trans k.1, fun b hb => k.2 b (this.2 ▸ hb)⟩
    · split at e
      · exact absurd k.1 ‹_›
      · split at e
        · cases e; exact k
        · rename_i b net hnet
          cases e
          have hb := k.2 b (by simp [hnet])
          exact ⟨List.drop_of_length_le (by omega), fun c hc => k.2 c (by simp [hnet, hc])⟩
        · rename_i net hnet
          cases e
          have := cl { s with net := net, writing := false }
          exact ⟨this.1.trans k.1, fun c hc => k.2 c (by rw [hnet]; exact List.mem_cons_of_mem _ (mem_of this.2 hc))⟩
        · rename_i net hnet
          cases e
          have := cl { s with net := net, writing := false }
          exact ⟨this.1.trans k.1, fun c hc => k.2 c (by rw [hnet]; exact List.mem_cons_of_mem _ (mem_of this.2 hc))⟩

theorem same_small {n : Nat} {s t : State} (h : Same s t) (k : Small n s) : Small n t :=
  ⟨h.buf.trans k.1, fun b hb => k.2 b (h.net ▸ hb)⟩

theorem tryAccept_small {n : Nat} {h : HsAns} {s : State} (k : Small n s) : Small n (tryAccept h s).1 := by
  have keep := tryAccept_keeps h s
  exact ⟨keep.2.2.2.1.trans k.1, fun b hb => k.2 b (keep.2.2.1 ▸ hb)⟩

theorem step_small {n : Nat} {o : Op} {s t : State} (hi : Inv s) (k : Small n s) (ho : o.Fits n)
    (e : step o s = .ok t) : Small n t := by
  refine step_cases (P := Small n) (fun x hx => ?_) k (fun r w hr hw space as u hop _ h => ?_)
    (fun r w hr hw space as u t hop hu hs h => ?_) (fun space t hop h => ?_)
    (fun d cb as t _ hc h => ?_) (fun _ => same_small (close_same s) k) e
  · subst hx
    refine ⟨k.1, fun b hb => ?_⟩
    simp only [List.mem_append, List.mem_singleton] at hb
    rcases hb with hb | hb
    · exact k.2 b hb
    · subst hb; exact ho
  · subst hop
    have ho : n ≤ space := ho
    unfold onReadable at h
    split at h
    · split at h
      · cases h; exact k
      · exact read_small k ho h
    · split at h
      · cases h; exact k
      · exact read_small k ho h
    · cases h; exact tryAccept_small k
    · cases h; exact k
  · have hiu : Inv u := by
      rcases hs with rfl | hs
      · exact hi
      · exact onReadable_inv hi hs
    unfold onWritable at h
    split at h
    · cases h
    · split at h
      · obtain ⟨t', e', _, h', _⟩ := flush_inv (as := as) hiu
        rw [e'] at h; cases h; exact same_small h' hu
      · obtain ⟨t', e', _, h', _⟩ := flush_inv (as := as) hiu
        rw [e'] at h; cases h; exact same_small h' hu
      · cases h; exact tryAccept_small hu
      · cases h; exact hu
  · subst hop
    exact read_small k ho h
  · obtain ⟨t', e', _, h', _⟩ := flush_inv (as := as) (enqueue_inv hi hc d cb)
    rw [e'] at h; cases h
    exact same_small ((enqueue_same s d cb).trans h') k

/-- C81, partly.  If every record fits into the room that is left at each read, then all that has arrived
and is not in the socket, where it makes the event loop call, has been handed over; and the loop is
watching. -/
theorem c81_handed_over_partial (n : Nat) (old : List (Bytes × Reaction)) (h : HsAns) (ops : List Op)
    (s : State) (e : run ops (upgrade old h) = .ok s) (hf : ∀ o ∈ ops, o.Fits n) (hr : s.phase = .ready) :
    s.arrived = s.got ++ dataOf s.net ∧ s.handler = true ∧ s.maskR = true := by
  have gen : ∀ (ops : List Op) (u : State), Inv u → Small n u → run ops u = .ok s →
      (∀ o ∈ ops, o.Fits n) → Small n s := by
    intro ops
    induction ops with
    | nil => intro u _ k e _; cases e; exact k
    | cons o ops ih =>
      intro u hi k e hf
      obtain ⟨v, e1, e2⟩ := run_cons e
      exact ih v (step_inv hi e1) (step_small hi k (hf o (by simp)) e1) e2 (fun o ho => hf o (by simp [ho]))
  obtain ⟨h1, h2, _⟩ := upgrade_fresh old h
  have k := gen ops _ (upgrade_inv old h) ⟨h2, by rw [h1]; nofun⟩ e hf
  have ko := (c81_received_in_order old h ops s e).2 (by simp [hr])
  obtain ⟨_, _, _, hi⟩ := run_inv (upgrade_inv old h) e
  refine ⟨?_, hi.rdy hr⟩
  rw [ko, k.1, List.append_nil]

/-- C81.  One event hands over the next record, if it fits. -/
theorem c81_event_reads (s : State) (b : Bytes) (net : List In) (space : Nat) (hr hw : HsAns)
    (as : List SendAns) (hp : s.phase = .ready) (hf : s.freed = false) (hh : s.handler = true)
    (hm : s.maskR = true) (hbuf : s.buf = []) (hn : s.net = .record b :: net) (h0 : 0 < space)
    (hb : b.length ≤ space) :
    ∃ t, step (.event true false hr hw space as) s = .ok t ∧ t.got = s.got ++ b ∧ t.net = net ∧ t.buf = [] := by
  refine ⟨{ s with net := net, writing := false, got := s.got ++ b.take space, buf := b.drop space }, ?_,
    by simp [List.take_of_length_le hb], rfl, by simp [List.drop_of_length_le hb]⟩
  have hz : space ≠ 0 := by omega
  simp [step, onReadable, read, hp, hf, hh, hm, hbuf, hn, hz]

example : ∃ s, run [.arrive (.record [1, 2]), .arrive (.record [3]), .event true false .success .success 2 []]
    (upgrade [] .success) = .ok s ∧ s.got = [1, 2] ∧ s.net = [.record [3]] ∧ s.phase = .ready :=
  ⟨_, rfl, rfl, rfl, rfl⟩

/-- C81 is violated: of a record that does not fit into the room left in the message buffer (4096 bytes at
most, a record holds up to 16384), the rest stays with GnuTLS.  The socket is not readable, no event
comes, and a complete message in that rest is not looked at until the peer sends more. -/
theorem c81_leftover_violated :
    ∃ s, run [.arrive (.record [1, 2, 3]), .event true false .success .success 2 []] (upgrade [] .success) = .ok s ∧
      s.phase = .ready ∧ s.net = [] ∧ s.arrived = [1, 2, 3] ∧ s.got = [1, 2] ∧ Asleep s := by
  refine ⟨_, rfl, rfl, rfl, rfl, rfl, ?_⟩
  intro r w hr hw space as
  cases r <;> cases w <;> rfl

/-! ## C82: what was to go out in the clear -/

theorem flush_acc {s t : State} {as : List SendAns} (hi : Inv s) (e : flush as s = .ok t) :
    ∃ u, t = u ∧ s.accepted <+: u.accepted := by
  obtain ⟨t', e', _, h', _⟩ := flush_inv (as := as) hi
  rw [e'] at e; cases e
  exact ⟨_, rfl, h'.acc⟩

/-- nothing accepted before the handshake began -/
def After (s : State) : Prop := s.phase ≠ .normal ∧ ∀ e ∈ s.accepted, e.2.2 ≠ .normal

theorem close_after {s : State} (h : After s) : After (close s) := by
  unfold close; split
  · exact h
  · exact ⟨nofun, h.2⟩

theorem enqueue_after {s : State} (h : After s) (d : Bytes) (cb : Reaction) : After (enqueue s d cb) := by
  refine ⟨h.1, fun e he => ?_⟩
  simp only [enqueue, List.mem_append, List.mem_singleton] at he
  rcases he with he | rfl
  · exact h.2 e he
  · exact h.1

theorem react_after {f : List SendAns → State → Outcome (State × List SendAns)}
    (hf : ∀ as s t as', f as s = .ok (t, as') → After s → After t) :
    ∀ (R : Reaction) (as : List SendAns) (s t : State) (as' : List SendAns),
      react f R as s = .ok (t, as') → After s → After t
  | .stop, as, s, t, as', e, hs => by cases e; exact hs
  | .close k, as, s, t, as', e, hs => react_after hf k as _ t as' e (close_after hs)
  | .send d cb k, as, s, t, as', e, hs => by
    unfold react at e
    split at e
    · exact react_after hf k as _ t as' e hs
    · split at e
      · rename_i hu
        exact react_after hf k _ _ _ _ e (hf _ _ _ _ hu (enqueue_after hs d cb))
      · cases e
      · cases e

theorem recordSend_after {a b : SendAns} {d : Bytes} {s t : State} (e : recordSend a d s = .ok (t, b))
    (h : After s) : After t := by
  unfold recordSend at e
  split at e
  · cases e; exact h
  · split at e
    · cases e
    · split at e <;> (cases e; exact h)

theorem flushN_after : ∀ (n : Nat) (as : List SendAns) (s t : State) (as' : List SendAns),
    flushN n as s = .ok (t, as') → After s → After t
  | 0, as, s, t, as', e, h => by cases e; exact h
  | n + 1, as, s, t, as', e, h => by
    unfold flushN at e
    split at e
    · cases e
      split
      · exact h
      · exact h
    · split at e
      · cases e
      · split at e
        · cases e; exact close_after (recordSend_after ‹_› h)
        · have k := recordSend_after ‹_› h
          cases e; exact k
        · have k := recordSend_after ‹_› h
          split at e
          · cases e; exact k
          · split at e
            · rename_i hu
              exact flushN_after n _ _ _ _ e (react_after (flushN_after n) _ _ _ _ _ hu k)
            · cases e
            · cases e
        · cases e
        · cases e

theorem flush_after {as : List SendAns} {s t : State} (e : flush as s = .ok t) (h : After s) : After t := by
  unfold flush at e
  split at e
  · cases e; exact flushN_after _ _ _ _ _ ‹_› h
  · cases e
  · cases e

theorem tryAccept_after {h : HsAns} {s : State} (k : After s) : After (tryAccept h s).1 := by
  unfold tryAccept
  split
  · exact k
  · cases h
    · exact ⟨nofun, k.2⟩
    · exact ⟨nofun, k.2⟩
    · exact ⟨nofun, k.2⟩
    · exact k

theorem read_after {space : Nat} {s t : State} (k : After s) (e : read space s = .ok t) : After t := by
  obtain ⟨h1, h2⟩ := read_acc e
  refine ⟨?_, fun x hx => k.2 x (h1 ▸ hx)⟩
  rcases h2 with h2 | h2
  · simp [h2]
  · rw [h2.1]; exact k.1

theorem step_after {o : Op} {s t : State} (k : After s) (e : step o s = .ok t) : After t := by
  refine step_cases (P := After) (fun x _ => k) k (fun r w hr hw space as u hop _ h => ?_)
    (fun r w hr hw space as u t hop hu hs h => ?_) (fun space t hop h => read_after k h)
    (fun d cb as t _ hc h => flush_after h (enqueue_after k d cb)) (fun _ => close_after k) e
  · unfold onReadable at h
    split at h
    · split at h
      · cases h; exact k
      · exact read_after k h
    · split at h
      · cases h; exact k
      · exact read_after k h
    · cases h; exact tryAccept_after k
    · cases h; exact k
  · unfold onWritable at h
    split at h
    · cases h
    · split at h
      · exact flush_after h hu
      · exact flush_after h hu
      · cases h; exact tryAccept_after hu
      · cases h; exact hu

/-- C82, partly.  If the TCP stream has sent everything when the switch is made, then whatever goes
through TLS was handed over after it: each byte belongs to a request accepted by the TLS stream. -/
theorem c82_clear_partial (h : HsAns) (ops : List Op) (s : State) (e : run ops (upgrade [] h) = .ok s) :
    s.wire <+: ((s.accepted.filter fun x => x.2.2 ≠ .normal).map fun x => x.2.1).flatten := by
  have gen : ∀ (ops : List Op) (u : State), After u → run ops u = .ok s → After s := by
    intro ops
    induction ops with
    | nil => intro u k e; cases e; exact k
    | cons o ops ih =>
      intro u k e
      obtain ⟨v, e1, e2⟩ := run_cons e
      exact ih v (step_after k e1) e2
  have k : After s := gen ops _ (by
    cases h
    · exact ⟨nofun, nofun⟩
    · exact ⟨nofun, nofun⟩
    · exact ⟨nofun, nofun⟩
    · exact ⟨nofun, nofun⟩) e
  have : s.accepted.filter (fun x => decide (x.2.2 ≠ .normal)) = s.accepted := by
    rw [List.filter_eq_self]
    intro x hx
    simpa using k.2 x hx
  rw [this]
  exact (c78_in_order [] h ops s e).1

example : view (run [.send [5, 6] .stop [.sent 2]] (upgrade [] .success)) =
    some ⟨.ready, [5, 6], [(0, .done)], 0, false⟩ := by decide +kernel

/-- C82 is violated: the byte that accepts the subtype, queued on the TCP stream because the socket would
block, goes out through TLS.  The peer waits for it in the clear before it starts the handshake. -/
theorem c82_byte_violated :
    ∃ s, run [.event true false .success .success 9 [], .send [2] .stop [.sent 1, .sent 1]]
      (upgrade [([1], .stop)] .wantRead) = .ok s ∧ s.wire = [1, 2] ∧
      s.accepted = [(0, [1], .normal), (1, [2], .ready)] := ⟨_, rfl, rfl, rfl⟩

/-! ## C83: nothing the peer does is fatal to the process -/

/-- C83, partly.  As long as the owner reads only when it is told to, with room to read into, and the
socket is not reported readable and writable at once, no assertion fails, GnuTLS is not misused (a call
that has to be repeated is repeated with the same data) and the stream is not used after it was
destroyed. -/
theorem c83_no_crash_partial (old : List (Bytes × Reaction)) (h : HsAns) (ops : List Op)
    (hp : ∀ o ∈ ops, o.Plain) : ∃ s, run ops (upgrade old h) = .ok s := by
  have one : ∀ (o : Op) (u : State), Inv u → o.Plain → ∃ v, step o u = .ok v := by
    intro o u hi ho
    have rd : ∀ h space, 0 < space → ∃ v, onReadable h space u = .ok v := by
      intro h space hs
      have : u.phase ≠ .closed → ∃ v, read space u = .ok v := by
        intro hc
        unfold read
        rw [if_neg hc, if_neg (by omega)]
        split
        · exact ⟨_, rfl⟩
        · split <;> exact ⟨_, rfl⟩
      unfold onReadable
      split
      · split
        · exact ⟨_, rfl⟩
        · exact this (by simp [*])
      · split
        · exact ⟨_, rfl⟩
        · exact this (by simp [*])
      · exact ⟨_, rfl⟩
      · exact ⟨_, rfl⟩
    unfold step
    split
    · exact ⟨_, rfl⟩
    · rename_i hfr
      cases o with
      | arrive x => exact ⟨_, rfl⟩
      | event r w hr hw space as =>
        dsimp only
        split
        · exact ⟨_, rfl⟩
        · obtain ⟨h1, h2⟩ := ho
          have wr : ∃ v, onWritable hw as u = .ok v := by
            unfold onWritable
            rw [if_neg hfr]
            split
            · obtain ⟨t, e, _⟩ := flush_inv (as := as) hi; exact ⟨t, e⟩
            · obtain ⟨t, e, _⟩ := flush_inv (as := as) hi; exact ⟨t, e⟩
            · exact ⟨_, rfl⟩
            · exact ⟨_, rfl⟩
          cases r with
          | false =>
            simp only [Bool.false_and, Bool.false_eq_true, if_false]
            split
            · exact wr
            · exact ⟨_, rfl⟩
          | true =>
            cases w with
            | true => exact absurd ⟨rfl, rfl⟩ h1
            | false =>
              simp only [Bool.true_and, Bool.false_and, Bool.false_eq_true, if_false]
              obtain ⟨v, hv⟩ := rd hr space h2
              split
              · exact ⟨_, rfl⟩
              · rename_i hx
                split at hx
                · rw [hv] at hx; cases hx
                · cases hx
              · rename_i hx
                split at hx
                · rw [hv] at hx; cases hx
                · cases hx
      | poke space => exact absurd ho (by simp [Op.Plain])
      | send d cb as =>
        dsimp only
        split
        · exact ⟨_, rfl⟩
        · obtain ⟨t, e, _⟩ := flush_inv (as := as) (enqueue_inv hi ‹_› d cb); exact ⟨t, e⟩
      | close => exact ⟨_, rfl⟩
  have gen : ∀ (ops : List Op) (u : State), Inv u → (∀ o ∈ ops, o.Plain) → ∃ s, run ops u = .ok s := by
    intro ops
    induction ops with
    | nil => intro u _ _; exact ⟨u, rfl⟩
    | cons o ops ih =>
      intro u hi hp
      obtain ⟨v, hv⟩ := one o u hi (hp o (by simp))
      obtain ⟨s, hs⟩ := ih v (step_inv hi hv) (fun o ho => hp o (by simp [ho]))
      exact ⟨s, by simp [run, hv, hs]⟩
  exact gen ops _ (upgrade_inv old h) hp

example : ∀ o ∈ demo, o.Plain := by simp [demo, Op.Plain]

/-- C83 is violated: when the socket is readable and writable at once and the read fails, on_client_event
destroys the client and with it the stream (server.c 1966-1971), and `stream_gnutls__on_event` goes on to
flush it (gnutls.c 164-168).  All it takes is a queue that is not empty and a record that does not decrypt. -/
theorem c83_read_write_violated :
    run [.send [1] .stop [.again], .arrive .bad, .event true true .success .success 9 []]
      (upgrade [] .success) = .ub "stream used after stream_destroy" := rfl

/-- C83 is violated: with a full message buffer (a message announced to be longer than it, SetEncodings
for example) the next read has no room.  GnuTLS refuses it without touching the socket, so that after a
send the assertion about the direction (gnutls.c 217) fails. -/
theorem c83_full_buffer_violated :
    run [.arrive (.record [1, 2]), .event true false .success .success 2 [], .send [3] .stop [.sent 1],
        .arrive (.record [4]), .event true false .success .success 0 []]
      (upgrade [] .success) = .abort "gnutls_record_get_direction(self->session) == 0" := rfl

/-- C83 is violated: process_pending_fence reads after sending the fence (server.c 2428-2435).  When that
send fails for good, the session is gone and `gnutls_record_recv` is passed NULL. -/
theorem c83_fence_violated :
    run [.send [248] .stop [.fatal], .poke 9] (upgrade [] .success) = .ub "gnutls_record_recv(NULL)" := rfl

end Verif.Tls
