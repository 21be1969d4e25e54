import Verif.Spec.Tls

namespace Verif.Tls

open Verif.Tcp (Status Reaction)

/-- the queue against what was handed over; of the first, `part` has been sent -/
def QMatch : Bytes → List (Nat × Bytes × Phase) → List Req → Prop
  | part, [], [] => part = []
  | part, a :: as, r :: q => r.id = a.1 ∧ part ++ r.data = a.2.1 ∧ QMatch [] as q
  | _, _, _ => False

theorem QMatch.append {part acc q} (h : QMatch part acc q) (a : Nat × Bytes × Phase) (r : Req)
    (hid : r.id = a.1) (hm : r.data = a.2.1) : QMatch part (acc ++ [a]) (q ++ [r]) := by
  induction acc generalizing part q with
  | nil =>
    cases q with
    | nil => simp only [QMatch] at h; subst h; simp [QMatch, hid, hm]
    | cons => simp [QMatch] at h
  | cons x acc ih =>
    cases q with
    | nil => simp [QMatch] at h
    | cons y q =>
      simp only [QMatch] at h
      simp only [List.cons_append, QMatch]
      exact ⟨h.1, h.2.1, ih h.2.2⟩

theorem QMatch.ids {part acc q} (h : QMatch part acc q) : q.map Req.id = acc.map Prod.fst := by
  induction acc generalizing part q with
  | nil => cases q <;> simp_all [QMatch]
  | cons x acc ih =>
    cases q with
    | nil => simp [QMatch] at h
    | cons y q => simp only [QMatch] at h; simp [h.1, ih h.2.2]

theorem QMatch.bytes {part acc q} (h : QMatch part acc q) :
    part ++ (q.map Req.data).flatten = (acc.map fun e => e.2.1).flatten := by
  induction acc generalizing part q with
  | nil => cases q <;> simp_all [QMatch]
  | cons x acc ih =>
    cases q with
    | nil => simp [QMatch] at h
    | cons y q =>
      simp only [QMatch] at h
      have := ih h.2.2
      simp only [List.nil_append] at this
      simp only [List.map_cons, List.flatten_cons]
      rw [← List.append_assoc, h.2.1, this]

/-- the numbers given to requests are their places -/
def Numbered (acc : List (Nat × Bytes × Phase)) : Prop := acc.map Prod.fst = List.range acc.length

theorem Numbered.push {acc} (h : Numbered acc) (d : Bytes) (p : Phase) :
    Numbered (acc ++ [(acc.length, d, p)]) := by
  unfold Numbered at *
  simp [h, List.range_succ]

/-- the invariant of the sending side -/
structure InvAt (s : State) (dn rest : List (Nat × Bytes × Phase)) (part : Bytes) : Prop where
  acc : s.accepted = dn ++ rest
  num : Numbered s.accepted
  wire : s.wire = (dn.map fun e => e.2.1).flatten ++ part
  opn : s.phase ≠ .closed → s.log = dn.map (fun e => (e.1, Status.done)) ∧ QMatch part rest s.queue
  pend : s.phase ≠ .closed → ∀ p, s.pending = some p → ∃ r q, s.queue = r :: q ∧ p = r.data
  cls : s.phase = .closed → s.queue = [] ∧ s.handler = false ∧
    part <+: (rest.map fun e => e.2.1).flatten ∧
    s.log = dn.map (fun e => (e.1, Status.done)) ++ rest.map (fun e => (e.1, Status.failed))
  early : s.phase = .normal ∨ s.phase = .handshake → ∀ e ∈ s.accepted, e.2.2 ≠ .ready
  rdy : s.phase = .ready → s.handler = true ∧ s.maskR = true
  frd : s.freed = true → s.phase = .closed

def Inv (s : State) : Prop := ∃ dn rest part, InvAt s dn rest part

/-- what sending leaves alone -/
structure Same (s t : State) : Prop where
  freed : t.freed = s.freed
  net : t.net = s.net
  buf : t.buf = s.buf
  arrived : t.arrived = s.arrived
  got : t.got = s.got
  notes : t.notes = s.notes
  acc : s.accepted <+: t.accepted
  phase : t.phase = s.phase ∨ t.phase = .closed

theorem Same.refl (s : State) : Same s s :=
  ⟨rfl, rfl, rfl, rfl, rfl, rfl, List.prefix_refl _, .inl rfl⟩

theorem Same.trans {s t u : State} (h : Same s t) (k : Same t u) : Same s u :=
  ⟨k.freed.trans h.freed, k.net.trans h.net, k.buf.trans h.buf, k.arrived.trans h.arrived,
    k.got.trans h.got, k.notes.trans h.notes, h.acc.trans k.acc, by
      rcases k.phase with e | e
      · rw [e]; exact h.phase
      · exact .inr e⟩

/-- in the ready phase a queue that is not empty waits for the socket to be writable -/
def Armed (s : State) : Prop := s.phase = .ready → s.queue ≠ [] → s.maskW = true

theorem close_inv {s : State} (h : Inv s) : Inv (close s) := by
  obtain ⟨dn, rest, part, h⟩ := h
  unfold close
  split
  · exact ⟨dn, rest, part, h⟩
  · rename_i hc
    obtain ⟨h1, h2⟩ := h.opn hc
    refine ⟨dn, rest, part, h.acc, h.num, h.wire, by simp, by simp, fun _ => ⟨rfl, rfl, ?_, ?_⟩,
      by simp, by simp, by simp⟩
    · exact ⟨_, h2.bytes⟩
    · have e1 : s.queue.map (fun r => (r.id, Status.failed)) =
          (s.queue.map Req.id).map fun i => (i, Status.failed) := by simp
      have e2 : rest.map (fun a => (a.1, Status.failed)) =
          (rest.map Prod.fst).map fun i => (i, Status.failed) := by simp
      simp only [h1]
      rw [e1, e2, h2.ids]

theorem close_same (s : State) : Same s (close s) := by
  unfold close
  split
  · exact .refl s
  · exact ⟨rfl, rfl, rfl, rfl, rfl, rfl, List.prefix_refl _, .inr rfl⟩

theorem close_closed (s : State) : (close s).phase = .closed := by
  unfold close; split <;> simp_all

theorem close_queue {s : State} (h : Inv s) : (close s).queue = [] := by
  obtain ⟨dn, rest, part, h⟩ := h
  unfold close
  split
  · exact (h.cls ‹_›).1
  · rfl

theorem enqueue_inv {s : State} (h : Inv s) (hc : s.phase ≠ .closed) (d : Bytes) (cb : Reaction) :
    Inv (enqueue s d cb) := by
  obtain ⟨dn, rest, part, h⟩ := h
  obtain ⟨h1, h2⟩ := h.opn hc
  refine ⟨dn, rest ++ [(s.accepted.length, d, s.phase)], part, by simp [enqueue, h.acc],
    h.num.push _ _, h.wire, fun _ => ⟨h1, h2.append _ _ rfl rfl⟩, fun _ p hp => ?_,
    fun e => absurd e hc, fun e x hx => ?_, h.rdy, h.frd⟩
  · obtain ⟨r, q, e, e2⟩ := h.pend hc p hp
    exact ⟨r, q ++ [⟨s.accepted.length, d, cb⟩], by simp [enqueue, e], e2⟩
  · simp only [enqueue, List.mem_append, List.mem_singleton] at hx
    rcases hx with hx | rfl
    · exact h.early e x hx
    · intro e2
      simp only [enqueue] at e e2
      simp [e2] at e

theorem enqueue_same (s : State) (d : Bytes) (cb : Reaction) : Same s (enqueue s d cb) :=
  ⟨rfl, rfl, rfl, rfl, rfl, rfl, List.prefix_append _ _, .inl rfl⟩

/-- what a flush achieves -/
structure Flushed (s : State) (as : List SendAns) (t : State) (as' : List SendAns) : Prop where
  inv : Inv t
  same : Same s t
  len : as'.length ≤ as.length

theorem react_inv {f : List SendAns → State → Outcome (State × List SendAns)} {n : Nat}
    (hf : ∀ as s, as.length + 1 ≤ n → Inv s → ∃ t as', f as s = .ok (t, as') ∧ Flushed s as t as') :
    ∀ (R : Reaction) (as : List SendAns) (s : State), as.length + 1 ≤ n → Inv s →
      ∃ t as', react f R as s = .ok (t, as') ∧ Flushed s as t as'
  | .stop, as, s, _, hi => ⟨s, as, rfl, hi, .refl s, Nat.le_refl _⟩
  | .close k, as, s, hl, hi => by
    obtain ⟨t, as', e, h⟩ := react_inv hf k as (close s) hl (close_inv hi)
    exact ⟨t, as', e, h.inv, (close_same s).trans h.same, h.len⟩
  | .send d cb k, as, s, hl, hi => by
    unfold react
    split
    · exact react_inv hf k as s hl hi
    · rename_i hc
      obtain ⟨t, as', e, h⟩ := hf as _ hl (enqueue_inv hi hc d cb)
      rw [e]
      have hlen := h.len
      obtain ⟨t2, as2, e2, h2⟩ := react_inv hf k as' t (by omega) h.inv
      exact ⟨t2, as2, e2, h2.inv, ((enqueue_same s d cb).trans h.same).trans h2.same,
        Nat.le_trans h2.len hlen⟩

/-- changing the event mask -/
theorem mask_inv {s : State} (h : Inv s) (w : Bool) : Inv { s with maskR := true, maskW := w } := by
  obtain ⟨dn, rest, part, h⟩ := h
  exact ⟨dn, rest, part, h.acc, h.num, h.wire, h.opn, h.pend, h.cls, h.early,
    fun e => ⟨(h.rdy e).1, rfl⟩, h.frd⟩

theorem flushN_inv : ∀ (n : Nat) (as : List SendAns) (s : State), as.length + 1 ≤ n → Inv s →
    ∃ t as', flushN n as s = .ok (t, as') ∧ Flushed s as t as' ∧
      (t.phase ≠ .closed → t.queue ≠ [] → t.maskW = true)
  | 0, as, s, hl, _ => by omega
  | n + 1, as, s, hl, hi => by
    unfold flushN
    split
    · rename_i hq
      split
      · exact ⟨s, as, rfl, ⟨hi, .refl s, Nat.le_refl _⟩, by simp_all⟩
      · exact ⟨_, as, rfl, ⟨mask_inv hi false, ⟨rfl, rfl, rfl, rfl, rfl, rfl, List.prefix_refl _, .inl rfl⟩,
          Nat.le_refl _⟩, fun _ h => absurd hq h⟩
    · rename_i r rest hq
      obtain ⟨dn, acc, part, h⟩ := hi
      by_cases hc : s.phase = .closed
      · rw [(h.cls hc).1] at hq; cases hq
      rw [if_neg hc]
      obtain ⟨h1, h2⟩ := h.opn hc
      have hp : s.pending.any (fun p => decide (p ≠ r.data)) = false := by
        cases hpp : s.pending with
        | none => rfl
        | some p =>
          obtain ⟨r', q', e, e2⟩ := h.pend hc p hpp
          rw [hq] at e
          cases e
          simp [e2]
      have htl : as.tail.length ≤ as.length := by simp
      have failed : ∃ t as', (Outcome.ok (close s, as.tail) : Outcome _) = .ok (t, as') ∧
          Flushed s as t as' ∧ (t.phase ≠ .closed → t.queue ≠ [] → t.maskW = true) :=
        ⟨_, _, rfl, ⟨close_inv ⟨dn, acc, part, h⟩, close_same s, htl⟩,
          fun e => absurd (close_closed s) e⟩
      unfold recordSend
      by_cases hr : s.phase = .ready
      · rw [if_neg (by simp [hr]), if_neg (by rw [hp]; exact Bool.false_ne_true)]
        cases ha : as.headD .again with
        | fatal => exact failed
        | again =>
          refine ⟨_, _, rfl, ⟨⟨dn, acc, part, h.acc, h.num, h.wire, h.opn, fun _ p e => ⟨r, rest, hq, ?_⟩,
            h.cls, h.early, fun e => ⟨(h.rdy e).1, rfl⟩, h.frd⟩,
            ⟨rfl, rfl, rfl, rfl, rfl, rfl, List.prefix_refl _, .inl rfl⟩, htl⟩, fun _ _ => rfl⟩
          cases e; rfl
        | sent k =>
          dsimp only
          have hne : as ≠ [] := by intro e; subst e; cases ha
          have hlt : as.tail.length + 1 = as.length := by
            cases as with
            | nil => exact absurd rfl hne
            | cons a l => simp
          cases acc with
          | nil => rw [hq] at h2; simp [QMatch] at h2
          | cons a acc =>
            rw [hq] at h2
            simp only [QMatch] at h2
            split
            · rename_i hlt2
              have ek : min k r.data.length = k := by omega
              refine ⟨_, _, rfl, ⟨⟨dn, a :: acc, part ++ r.data.take k, h.acc, h.num, ?_,
                fun _ => ⟨h1, h2.1, ?_, h2.2.2⟩, fun _ p e => (by cases e), fun e => absurd e hc, h.early,
                fun e => ⟨(h.rdy e).1, rfl⟩, h.frd⟩,
                ⟨rfl, rfl, rfl, rfl, rfl, rfl, List.prefix_refl _, .inl rfl⟩, htl⟩, fun _ _ => rfl⟩
              · simp [h.wire]
              · simp only [ek, List.append_assoc, List.take_append_drop]; exact h2.2.1
            · rename_i hge
              have ek : r.data.take k = r.data := List.take_of_length_le (by omega)
              have hi2 : Inv { s with
                  pending := none, writing := true, wire := s.wire ++ r.data.take k, queue := rest
                  log := s.log ++ [(r.id, .done)] } := by
                refine ⟨dn ++ [a], acc, [], by simp [h.acc], h.num, ?_, fun _ => ⟨?_, h2.2.2⟩,
                  fun _ p e => (by cases e), fun e => absurd e hc, h.early, h.rdy, h.frd⟩
                · simp [h.wire, ek, ← h2.2.1]
                · simp [h1, h2.1]
              obtain ⟨t, as', e, ht⟩ := react_inv (n := n) (f := flushN n)
                (fun as s hl hi => by
                  obtain ⟨t, as', e, ht, _⟩ := flushN_inv n as s hl hi
                  exact ⟨t, as', e, ht⟩) r.onDone as.tail _ (by omega) hi2
              have hlen := ht.len
              obtain ⟨t2, as2, e2, ht2, ha2⟩ := flushN_inv n as' t (by omega) ht.inv
              refine ⟨t2, as2, ?_, ⟨ht2.inv, ?_, ?_⟩, ha2⟩
              · rw [e]; exact e2
              · exact Same.trans (t := _) ⟨ht.same.freed, ht.same.net, ht.same.buf, ht.same.arrived,
                  ht.same.got, ht.same.notes, ht.same.acc, ht.same.phase⟩ ht2.same
              · have := ht2.len; omega
      · rw [if_pos hr]
        by_cases ha : as.headD .again = .again
        · rw [if_pos ha]
          exact ⟨_, _, rfl, ⟨mask_inv ⟨dn, acc, part, h⟩ true,
            ⟨rfl, rfl, rfl, rfl, rfl, rfl, List.prefix_refl _, .inl rfl⟩, htl⟩, fun _ _ => rfl⟩
        · rw [if_neg ha]
          exact failed

/-- the bound on the number of calls is never reached -/
theorem flushN_enough : ∀ (n m : Nat) (as : List SendAns) (s : State), Inv s →
    as.length + 1 ≤ n → as.length + 1 ≤ m → flushN n as s = flushN m as s := by
  have reacts : ∀ (f g : List SendAns → State → Outcome (State × List SendAns)) (n : Nat),
      (∀ as s, as.length + 1 ≤ n → Inv s → f as s = g as s) →
      (∀ as s, as.length + 1 ≤ n → Inv s → ∃ t as', f as s = .ok (t, as') ∧ Flushed s as t as') →
      ∀ (R : Reaction) (as : List SendAns) (s : State), as.length + 1 ≤ n → Inv s →
        react f R as s = react g R as s := by
    intro f g n hfg hf R
    induction R with
    | stop => intro as s _ _; rfl
    | close k ih => intro as s hl hi; exact ih as (close s) hl (close_inv hi)
    | send d cb k _ ih =>
      intro as s hl hi
      unfold react
      split
      · exact ih as s hl hi
      · rename_i hc
        have hi2 := enqueue_inv hi hc d cb
        obtain ⟨t, as', e, ht⟩ := hf as _ hl hi2
        rw [← hfg as _ hl hi2, e]
        have hlen := ht.len
        exact ih as' t (by omega) ht.inv
  intro n
  induction n with
  | zero => intro m as s _ h _; omega
  | succ n ih =>
    intro m as s hi hn hm
    cases m with
    | zero => omega
    | succ m =>
      obtain ⟨t0, as0, e0, _⟩ := flushN_inv (n + 1) as s hn hi
      unfold flushN
      split
      · rfl
      · rename_i r rest hq
        split
        · rfl
        · rename_i hc
          cases hs : recordSend (as.headD .again) r.data s with
          | ub w => rfl
          | abort w => rfl
          | ok x =>
            obtain ⟨s1, a⟩ := x
            cases a with
            | fatal => rfl
            | again => rfl
            | sent k =>
              dsimp only
              split
              · rfl
              · rename_i hge
                have hne : as ≠ [] := by
                  intro e
                  subst e
                  unfold recordSend at hs
                  split at hs
                  · simp at hs
                  · split at hs <;> simp at hs
                have hlt : as.tail.length + 1 = as.length := by
                  cases as with
                  | nil => exact absurd rfl hne
                  | cons a l => simp
                have hi2 : Inv { s1 with queue := rest, log := s1.log ++ [(r.id, Status.done)] } := by
                  obtain ⟨dn, acc, part, h⟩ := hi
                  obtain ⟨h1, h2⟩ := h.opn hc
                  unfold recordSend at hs
                  split at hs
                  · simp only [Outcome.ok.injEq, Prod.mk.injEq] at hs
                    split at hs <;> simp at hs
                  · split at hs
                    · cases hs
                    · split at hs <;> simp only [Outcome.ok.injEq, Prod.mk.injEq, SendAns.sent.injEq,
                        reduceCtorEq, and_false] at hs
                      rename_i n' _
                      obtain ⟨rfl, rfl⟩ := hs
                      cases acc with
                      | nil => rw [hq] at h2; simp [QMatch] at h2
                      | cons a acc =>
                        rw [hq] at h2
                        simp only [QMatch] at h2
                        have ek : r.data.take n' = r.data := List.take_of_length_le (by omega)
                        refine ⟨dn ++ [a], acc, [], by simp [h.acc], h.num, ?_, fun _ => ⟨?_, h2.2.2⟩,
                          fun _ p e => (by cases e), fun e => absurd e hc, h.early, h.rdy, h.frd⟩
                        · simp [h.wire, ek, ← h2.2.1]
                        · simp [h1, h2.1]
                have hr := reacts (flushN n) (flushN m) as.length
                  (fun as s hl hi => ih m as s hi (by omega) (by omega))
                  (fun as s hl hi => by
                    obtain ⟨t, as', e, ht, _⟩ := flushN_inv n as s (by omega) hi
                    exact ⟨t, as', e, ht⟩) r.onDone as.tail _ (by omega) hi2
                rw [← hr]
                obtain ⟨t, as', e, ht⟩ := react_inv (n := n) (f := flushN n)
                  (fun as s hl hi => by
                    obtain ⟨t, as', e, ht, _⟩ := flushN_inv n as s hl hi
                    exact ⟨t, as', e, ht⟩) r.onDone as.tail _ (by omega) hi2
                rw [e]
                have hlen := ht.len
                exact ih m as' t ht.inv (by omega) (by omega)

theorem flush_inv {as : List SendAns} {s : State} (hi : Inv s) :
    ∃ t, flush as s = .ok t ∧ Inv t ∧ Same s t ∧
      (t.phase ≠ .closed → t.queue ≠ [] → t.maskW = true) := by
  obtain ⟨t, as', e, h, ha⟩ := flushN_inv (as.length + 1) as s (Nat.le_refl _) hi
  exact ⟨t, by simp [flush, e], h.inv, h.same, ha⟩

theorem destroy_inv {s : State} (h : Inv s) : Inv (destroy s) := by
  obtain ⟨dn, rest, part, k⟩ := close_inv h
  exact ⟨dn, rest, part, k.acc, k.num, k.wire, k.opn, k.pend, k.cls, k.early, k.rdy,
    fun _ => close_closed s⟩

/-- parts of the state that the sending side does not look at -/
theorem side_inv {s : State} (h : Inv s) (w : Bool) (net : List In) (buf arrived got : Bytes)
    (notes : List Note) :
    Inv { s with writing := w, net := net, buf := buf, arrived := arrived, got := got, notes := notes } := by
  obtain ⟨dn, rest, part, h⟩ := h
  exact ⟨dn, rest, part, h.acc, h.num, h.wire, h.opn, h.pend, h.cls, h.early, h.rdy, h.frd⟩

theorem tryAccept_inv {s : State} {h : HsAns} (hi : Inv s)
    (hp : s.phase = .normal ∨ s.phase = .handshake) : Inv (tryAccept h s).1 := by
  have hc : s.phase ≠ .closed := by rcases hp with e | e <;> simp [e]
  obtain ⟨dn, rest, part, k⟩ := hi
  have hf : s.freed ≠ true := fun e => hc (k.frd e)
  unfold tryAccept
  split
  · exact ⟨dn, rest, part, k⟩
  · rename_i hh
    have hh : s.handler = true := by simpa using hh
    cases h with
    | success =>
      exact ⟨dn, rest, part, k.acc, k.num, k.wire, fun _ => k.opn hc, fun _ => k.pend hc, nofun,
        fun e => (by simp at e), fun _ => ⟨hh, rfl⟩, fun e => absurd e hf⟩
    | fatal =>
      exact ⟨dn, rest, part, k.acc, k.num, k.wire, k.opn, k.pend, fun e => absurd e hc, k.early,
        fun e => (by rcases hp with e2 | e2 <;> simp [e2] at e), k.frd⟩
    | wantRead =>
      exact ⟨dn, rest, part, k.acc, k.num, k.wire, fun _ => k.opn hc, fun _ => k.pend hc, nofun,
        fun _ => k.early hp, nofun, fun e => absurd e hf⟩
    | wantWrite =>
      exact ⟨dn, rest, part, k.acc, k.num, k.wire, fun _ => k.opn hc, fun _ => k.pend hc, nofun,
        fun _ => k.early hp, nofun, fun e => absurd e hf⟩

theorem read_inv {space : Nat} {s t : State} (hi : Inv s) (e : read space s = .ok t) : Inv t := by
  unfold read at e
  split at e
  · cases e
  · split at e
    · split at e
      · cases e
      · cases e
        obtain ⟨dn, rest, part, k⟩ := destroy_inv hi
        exact ⟨dn, rest, part, k.acc, k.num, k.wire, k.opn, k.pend, k.cls, k.early, k.rdy, k.frd⟩
    · split at e
      · cases e
        exact side_inv hi _ _ _ _ _ _
      · split at e
        · cases e; exact side_inv hi _ _ _ _ _ _
        · cases e; exact side_inv hi _ _ _ _ _ _
        · rename_i net _
          cases e
          have := close_inv (side_inv hi false net s.buf s.arrived s.got s.notes)
          obtain ⟨dn, rest, part, k⟩ := this
          exact ⟨dn, rest, part, k.acc, k.num, k.wire, k.opn, k.pend, k.cls, k.early, k.rdy, k.frd⟩
        · rename_i net _
          cases e
          have := destroy_inv (side_inv hi false net s.buf s.arrived s.got s.notes)
          obtain ⟨dn, rest, part, k⟩ := this
          exact ⟨dn, rest, part, k.acc, k.num, k.wire, k.opn, k.pend, k.cls, k.early, k.rdy, k.frd⟩

theorem onReadable_inv {h : HsAns} {space : Nat} {s t : State} (hi : Inv s)
    (e : onReadable h space s = .ok t) : Inv t := by
  unfold onReadable at e
  split at e
  · split at e
    · cases e; exact hi
    · exact read_inv hi e
  · split at e
    · cases e; exact hi
    · exact read_inv hi e
  · cases e; exact tryAccept_inv hi (.inr ‹_›)
  · cases e; exact hi

theorem onWritable_inv {h : HsAns} {as : List SendAns} {s t : State} (hi : Inv s)
    (e : onWritable h as s = .ok t) : Inv t := by
  unfold onWritable at e
  split at e
  · cases e
  · split at e
    · obtain ⟨t', e', h', _⟩ := flush_inv (as := as) hi
      rw [e'] at e; cases e; exact h'
    · obtain ⟨t', e', h', _⟩ := flush_inv (as := as) hi
      rw [e'] at e; cases e; exact h'
    · cases e; exact tryAccept_inv hi (.inr ‹_›)
    · cases e; exact hi

/-- the parts of one operation -/
theorem step_cases {P : State → Prop} {o : Op} {s t : State}
    (arrive : ∀ x, o = .arrive x → P { s with
      net := s.net ++ [x], arrived := s.arrived ++ (match x with | .record b => b | _ => []) })
    (stay : P s)
    (readable : ∀ r w hr hw space as u, o = .event r w hr hw space as → s.handler = true →
      onReadable hr space s = .ok u → P u)
    (writable : ∀ r w hr hw space as u t, o = .event r w hr hw space as → P u →
      (u = s ∨ onReadable hr space s = .ok u) → onWritable hw as u = .ok t → P t)
    (poke : ∀ space t, o = .poke space → read space s = .ok t → P t)
    (send : ∀ d cb as t, o = .send d cb as → s.phase ≠ .closed → flush as (enqueue s d cb) = .ok t → P t)
    (close : o = .close → P (close s))
    (e : step o s = .ok t) : P t := by
  unfold step at e
  split at e
  · cases e; exact stay
  · cases o with
    | arrive x => cases e; exact arrive x rfl
    | event r w hr hw space as =>
      dsimp only at e
      split at e
      · cases e; exact stay
      · rename_i hh
        have hh : s.handler = true := by simpa using hh
        split at e
        · rename_i u hu
          have hP : P u ∧ (u = s ∨ onReadable hr space s = .ok u) := by
            split at hu
            · exact ⟨readable _ _ _ _ _ _ u rfl hh hu, .inr hu⟩
            · cases hu; exact ⟨stay, .inl rfl⟩
          split at e
          · exact writable _ _ _ _ _ _ u t rfl hP.1 hP.2 e
          · cases e; exact hP.1
        · cases e
        · cases e
    | poke space => exact poke _ _ rfl e
    | send d cb as =>
      dsimp only at e
      split at e
      · cases e; exact stay
      · exact send d cb as t rfl ‹_› e
    | close => cases e; exact close rfl

theorem step_inv {o : Op} {s t : State} (hi : Inv s) (e : step o s = .ok t) : Inv t := by
  refine step_cases (P := Inv) (fun x _ => ?_) hi (fun _ _ _ _ _ _ u _ _ h => onReadable_inv hi h)
    (fun _ _ _ _ _ _ u t _ hu _ h => onWritable_inv hu h) (fun _ _ _ h => read_inv hi h)
    (fun d cb as t _ hc h => ?_) (fun _ => close_inv hi) e
  · exact side_inv hi _ _ _ _ _ _
  · obtain ⟨t', e', h', _⟩ := flush_inv (as := as) (enqueue_inv hi hc d cb)
    rw [e'] at h; cases h; exact h'

theorem upgrade_inv (old : List (Bytes × Reaction)) (h : HsAns) : Inv (upgrade old h) := by
  have base : Inv ({} : State) :=
    ⟨[], [], [], rfl, rfl, rfl, fun _ => ⟨rfl, rfl⟩, fun _ _ e => (by cases e), nofun,
      fun _ _ h => (by cases h), nofun, nofun⟩
  have hq : ∀ (l : List (Bytes × Reaction)) (s : State), Inv s → s.phase = .normal →
      Inv (l.foldl (fun s r => enqueue s r.1 r.2) s) ∧
        (l.foldl (fun s r => enqueue s r.1 r.2) s).phase = .normal := by
    intro l
    induction l with
    | nil => intro s hi hp; exact ⟨hi, hp⟩
    | cons r l ih => intro s hi hp; exact ih _ (enqueue_inv hi (by simp [hp]) _ _) hp
  obtain ⟨hi, hp⟩ := hq old {} base rfl
  have := tryAccept_inv (h := h) hi (.inl hp)
  unfold upgrade
  dsimp only
  generalize tryAccept h _ = x at this
  obtain ⟨s, b⟩ := x
  cases b
  · exact destroy_inv this
  · exact this

theorem run_cons {o : Op} {os : List Op} {s t : State} (e : run (o :: os) s = .ok t) :
    ∃ u, step o s = .ok u ∧ run os u = .ok t := by
  unfold run at e
  split at e
  · exact ⟨_, ‹_›, e⟩
  · cases e
  · cases e

theorem run_inv {os : List Op} {s t : State} (hi : Inv s) (e : run os s = .ok t) : Inv t := by
  induction os generalizing s with
  | nil => cases e; exact hi
  | cons o os ih =>
    obtain ⟨u, h1, h2⟩ := run_cons e
    exact ih (step_inv hi h1) h2

end Verif.Tls
