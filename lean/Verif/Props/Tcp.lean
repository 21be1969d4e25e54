import Verif.Lemmas.Tcp

/-! # Properties of the TCP send queue (C26-C28) -/

namespace Verif.Tcp

/-- C26.  After any history of operations, kernel answers and re-entrant callbacks, on a stream that
is still open: the bytes on the wire followed by the bytes still queued (functions being executed at
any time `t`) are exactly one legitimate byte string per accepted submission, in the order of
acceptance: nothing lost, duplicated or reordered. -/
theorem c26_open_conservation (corked : Bool) (t0 : Nat) (hist : List (Op × Kernel)) (s : State)
    (h : run { cork := corked } t0 hist = .ok s) (ho : s.closed = false) (t : Nat) :
    ∃ all, PossAll s.accepted all ∧ s.wire ++ s.queue.flatMap (Req.bytesAt t) = all.flatten := by
  obtain ⟨⟨dn, rest, ps, part, hi⟩, _⟩ := run_inv (init_inv corked) h
  obtain ⟨qs, h1, h2⟩ := (hi.opn ho).2.total t
  refine ⟨ps ++ qs, ?_, ?_⟩
  · rw [hi.acc]; exact hi.poss.concat h1
  · rw [hi.wire, List.flatten_append, ← h2]; simp

/-- C26.  Open or closed, the bytes on the wire are a prefix of one legitimate byte string per
accepted submission in the order of acceptance. -/
theorem c26_wire_prefix (corked : Bool) (t0 : Nat) (hist : List (Op × Kernel)) (s : State)
    (h : run { cork := corked } t0 hist = .ok s) :
    ∃ all, PossAll s.accepted all ∧ s.wire <+: all.flatten := by
  cases hc : s.closed with
  | false =>
    obtain ⟨all, h1, h2⟩ := c26_open_conservation corked t0 hist s h hc 0
    exact ⟨all, h1, _, h2⟩
  | true =>
    obtain ⟨⟨dn, rest, ps, part, hi⟩, _⟩ := run_inv (init_inv corked) h
    obtain ⟨_, hp, _⟩ := hi.cls hc
    obtain ⟨qs, h1, h2⟩ := hp.total
    refine ⟨ps ++ qs, ?_, ?_⟩
    · rw [hi.acc]; exact hi.poss.concat h1
    · rw [hi.wire, List.flatten_append]
      simpa using h2

/-- C26.  The accepted submissions are those the users made, in order (callbacks that send nothing,
stream not created corked). -/
theorem c26_accepts_everything (t0 : Nat) (hist : List (Op × Kernel)) (s : State)
    (h : run {} t0 hist = .ok s) (ho : s.closed = false) (hq : ∀ x ∈ hist, x.1.Quiet) :
    s.accepted.map Prod.snd = hist.filterMap fun x => x.1.submission := by
  simpa using (run_silent h hq (by simp [Silent]) (by simp) ho).2

/-- C26.  For plain data: what the users passed to send, concatenated, is the wire followed by the
queue. -/
theorem c26_plain_data (t0 : Nat) (hist : List (Op × Kernel)) (s : State)
    (h : run {} t0 hist = .ok s) (ho : s.closed = false)
    (hq : ∀ x ∈ hist, x.1.Quiet ∧ x.1.NoExec) :
    s.wire ++ s.queue.flatMap (Req.bytesAt 0) =
      (hist.filterMap fun x => x.1.submission).flatMap Src.bytes := by
  obtain ⟨all, h1, h2⟩ := c26_open_conservation false t0 hist s h ho 0
  have h3 := c26_accepts_everything t0 hist s h ho fun x hx => (hq x hx).1
  have hd : ∀ a ∈ s.accepted, ∃ b, a.2 = .data b := by
    intro a ha
    have : a.2 ∈ s.accepted.map Prod.snd := List.mem_map_of_mem ha
    rw [h3, List.mem_filterMap] at this
    obtain ⟨x, hx, hs⟩ := this
    have := (hq x hx).2
    cases hop : x.1 <;> simp_all [Op.submission, Op.NoExec]
    exact ⟨_, hs.symm⟩
  rw [h2, h1.data hd, ← h3, List.flatMap_map, List.flatMap_def]

/-- a history with partial writes, EAGAIN and a re-entrant send -/
def demo : List (Op × Kernel) :=
  [(.send [1, 2, 3] (.send [9] .stop .stop), .sent 2), (.send [4, 5] .stop, .again), (.writable, .sent 2),
    (.writable, .sent 1)]

def wireOf : Outcome State → Option (Bytes × List (Nat × Status) × Nat × Bool)
  | .ok s => some (s.wire, s.log, s.queue.length, s.pollW)
  | _ => none

example : wireOf (run {} 0 demo) = some ([1, 2, 3, 4, 5], [(0, .done), (1, .done)], 1, false) := by decide

example : wireOf (run {} 0 [(.send [1, 2, 3] .stop, .sent 2), (.send [4] .stop, .sent 2)]) =
    some ([1, 2, 3, 4], [(0, .done), (1, .done)], 0, false) := by decide

/-- C27.  On an open stream every accepted submission is either completed or still queued, never
both and never twice, in order; everything completed was completed with success, and its bytes had
all been written. -/
theorem c27_open_exactly_once (corked : Bool) (t0 : Nat) (hist : List (Op × Kernel)) (s : State)
    (h : run { cork := corked } t0 hist = .ok s) (ho : s.closed = false) :
    s.log.map Prod.fst ++ s.queue.map Req.id = s.accepted.map Prod.fst ∧
    (s.accepted.map Prod.fst).Nodup ∧ (∀ x ∈ s.log, x.2 = .done) ∧
    ∃ ps, PossAll (s.accepted.take s.log.length) ps ∧ ps.flatten <+: s.wire := by
  obtain ⟨⟨dn, rest, ps, part, hi⟩, _⟩ := run_inv (init_inv corked) h
  obtain ⟨hl, hq⟩ := hi.opn ho
  refine ⟨?_, hi.ids.1, ?_, ps, ?_, ?_⟩
  · rw [hl, hq.ids, hi.acc]; simp [Function.comp_def]
  · rw [hl]; simp only [List.mem_map]; rintro x ⟨a, _, rfl⟩; rfl
  · rw [hi.acc, hl, List.length_map, List.take_left]; exact hi.poss
  · rw [hi.wire, List.append_assoc]; exact List.prefix_append _ _

/-- C27.  Once the stream is closed every accepted submission has been completed exactly once, in
order: with success exactly those that were written completely before. -/
theorem c27_closed_exactly_once (corked : Bool) (t0 : Nat) (hist : List (Op × Kernel)) (s : State)
    (h : run { cork := corked } t0 hist = .ok s) (hc : s.closed = true) :
    s.log.map Prod.fst = s.accepted.map Prod.fst ∧ (s.log.map Prod.fst).Nodup ∧
    ∃ n ps, PossAll (s.accepted.take n) ps ∧ ps.flatten <+: s.wire ∧
      (∀ x ∈ s.log.take n, x.2 = .done) ∧ (∀ x ∈ s.log.drop n, x.2 = .failed) := by
  obtain ⟨⟨dn, rest, ps, part, hi⟩, _⟩ := run_inv (init_inv corked) h
  obtain ⟨_, _, hl⟩ := hi.cls hc
  have e : s.log.map Prod.fst = s.accepted.map Prod.fst := by rw [hl, hi.acc]; simp [Function.comp_def]
  refine ⟨e, e ▸ hi.ids.1, dn.length, ps, ?_, ?_, ?_, ?_⟩
  · rw [hi.acc, List.take_left]; exact hi.poss
  · rw [hi.wire, List.append_assoc]; exact List.prefix_append _ _
  · rw [hl, List.take_left' (by simp)]
    simp only [List.mem_map]; rintro x ⟨a, _, rfl⟩; rfl
  · rw [hl, List.drop_left' (by simp)]
    simp only [List.mem_map]; rintro x ⟨a, _, rfl⟩; rfl

example : wireOf (run {} 0 [(.send [1, 2] .stop, .sent 2), (.send [3] (.close .stop), .again), (.send [4] .stop, .epipe)]) =
    some ([1, 2], [(0, .done), (1, .failed), (2, .failed)], 0, true) := by decide

/-- C26, C27.  The closing assertion of the flush loop never fails, whatever the kernel and the
callbacks do. -/
theorem c27_never_asserts (corked : Bool) (t0 : Nat) (hist : List (Op × Kernel)) (why : String) :
    run { cork := corked } t0 hist ≠ .abort why := by
  generalize ({ cork := corked } : State) = s
  induction hist generalizing s t0 with
  | nil => simp [run]
  | cons x hist ih =>
    obtain ⟨op, k⟩ := x
    simp only [run]
    have := step_ne_abort s op k t0
    split
    · exact ih _ _
    · simp
    · simp_all

/-- C27, partly: no undefined behaviour is reached as long as no function is queued and no callback
closes the stream.  Missing: the two cases below, in which the code is wrong. -/
theorem c27_no_ub_partial (corked : Bool) (t0 : Nat) (hist : List (Op × Kernel))
    (h : ∀ x ∈ hist, x.1.NoExec ∧ x.1.NoCloseCb) : ∃ s, run { cork := corked } t0 hist = .ok s := by
  obtain ⟨s, h1, _⟩ := run_tame (s := { cork := corked }) (t := t0) (by simp [Tame]) h
  exact ⟨s, h1⟩

example : ∀ x ∈ demo, x.1.NoExec ∧ x.1.NoCloseCb := by
  simp [demo, Op.NoExec, Op.NoCloseCb, Reaction.NoClose]

/-- C27 is violated: closing a corked stream (WebSocket handshake) with a queued function
dereferences its null payload. -/
theorem c27_close_exec_violated :
    run { cork := true } 0 [(.exec fun _ => [1], .again), (.close, .again)] = .ub "rcbuf_unref(NULL)" := rfl

/-- C27 is violated: a completion callback that closes the stream (as `close_after_write` does)
while a later request is queued behind it makes the loop continue with a freed request. -/
theorem c27_closing_callback_violated :
    run {} 0 [(.send [1] (.close .stop), .again), (.send [2] .stop, .sent 2)] =
      .ub "next request freed by callback" := rfl

/-- C28 is violated: after a write that ends exactly at a request boundary the rest of the queue is
left without waiting for writability, so it stays there until somebody sends again. -/
theorem c28_lost_wakeup_violated :
    ∃ hist s, run {} 0 hist = .ok s ∧ s.closed = false ∧ s.cork = false ∧ s.queue ≠ [] ∧
      s.pollW = false ∧ ∀ k now, step s .writable k now = .ok s := by
  refine ⟨[(.send [1] .stop, .again), (.send [2] .stop, .sent 1)], _, rfl, rfl, rfl, ?_, rfl, ?_⟩
  · exact List.cons_ne_nil _ _
  · intro k now; rfl

/-- C28, partly: whenever the kernel refuses data, the stream waits for writability. -/
theorem c28_again_partial (s : State) (now : Nat) (s' : State)
    (hc : s.cork = false) (h : flush .again now s = .ok s') : s'.queue = [] ∨ s'.pollW = true := by
  unfold flush at h
  rw [if_neg (by simp [hc])] at h
  simp only at h
  split at h
  · rename_i he
    simp only [Outcome.ok.injEq] at h; subst h
    left
    have hl := evalReqs_length now iovMax s.queue
    rw [List.isEmpty_iff.mp he] at hl
    exact List.length_eq_zero_iff.mp hl.symm
  · simp only [Outcome.ok.injEq] at h; subst h; exact .inr rfl

/-- C28, partly: whenever a write ends in the middle of a request, the stream waits for
writability.  Missing: writes ending exactly at a request boundary before the end of the queue,
for which the claim is false. -/
theorem c28_partial_write_partial (s : State) (n now : Nat) (s' : State)
    (hc : s.cork = false) (hne : s.queue ≠ [])
    (hn : n ≤ (((evalReqs now iovMax s.queue).take iovMax).flatMap Req.payload).length)
    (hb : ∀ j, n ≠ (((evalReqs now iovMax s.queue).take j).flatMap Req.payload).length)
    (h : flush (.sent n) now s = .ok s') : s'.pollW = true := by
  unfold flush at h
  rw [if_neg (by simp [hc])] at h
  simp only at h
  have hl := evalReqs_length now iovMax s.queue
  split at h
  · rename_i he
    rw [List.isEmpty_iff.mp he] at hl
    exact absurd (List.length_eq_zero_iff.mp hl.symm) hne
  · obtain ⟨hf, hlen⟩ := flush_front now n s
    generalize hvec : List.flatMap Req.payload (List.take iovMax (evalReqs now iovMax s.queue)) = vec at *
    split at h
    · rename_i s1 l hd
      split at h
      · rename_i hle
        simp only [Outcome.ok.injEq] at h
        rw [hlen] at hd
        have hl0 : l ≠ 0 := by
          rintro rfl
          obtain ⟨j, hj⟩ := drain_zero _ hf (by omega) hd
          rw [← hlen] at hj
          exact hb j (by simp only at hj; omega)
        have := drain_poll _ hd (by omega) (by omega)
        rw [if_neg (by simp [hl0])] at h
        subst h; exact this
      · cases h
    · cases h
    · cases h

example : wireOf (run {} 0 [(.send [1, 2] .stop, .sent 1)]) = some ([1], [], 1, true) := by decide

/-- C28 is violated in a second way: what a completion callback sends is only queued, and if the write took
everything before it, nobody waits for writability. -/
theorem c28_callback_violated :
    ∃ hist s, run {} 0 hist = .ok s ∧ s.closed = false ∧ s.cork = false ∧ s.queue ≠ [] ∧
      s.pollW = false ∧ ∀ k now, step s .writable k now = .ok s := by
  refine ⟨[(.send [1] (.send [2] .stop .stop), .sent 1)], _, rfl, rfl, rfl, ?_, rfl, ?_⟩
  · exact List.cons_ne_nil _ _
  · intro k now; rfl

/-- C28, partly: after any history in which callbacks send nothing, the kernel never fails otherwise than with
EAGAIN or EPIPE, and never takes exactly some of several messages, the stream waits for writability
whenever something is left in its queue.  Missing: `c28_lost_wakeup_violated` and
`c28_callback_violated`, for which the claim is false. -/
theorem c28_waits_partial (t0 : Nat) (hist : List (Op × Kernel)) (s : State)
    (h : run {} t0 hist = .ok s) (hq : ∀ x ∈ hist, x.1.Quiet)
    (hk : ∀ pre op k post u, hist = pre ++ (op, k) :: post → run {} t0 pre = .ok u →
      ¬ Strands (op.offers (t0 + pre.length) u) k)
    (ho : s.closed = false) : s.queue = [] ∨ s.pollW = true :=
  run_waits h hq (by simp [Silent]) (by simp) (by simp) hk ho

/-- a history like this: two messages, of which the kernel takes a part at a time -/
def piecemeal : List (Op × Kernel) :=
  [(.send [1, 2] .stop, .again), (.send [3, 4] .stop, .sent 1), (.writable, .sent 2), (.writable, .again)]

example : wireOf (run {} 0 piecemeal) = some ([1, 2, 3], [(0, .done)], 1, true) := by decide

example : ∀ x ∈ piecemeal, x.1.Quiet := by simp [piecemeal, Op.Quiet]

example : ¬ Strands ((piecemeal[1].1).offers 1 { queue := [⟨0, .data [1, 2], .stop⟩] }) piecemeal[1].2 := by
  rintro (h | ⟨n, j, h1, h2, h3, h4⟩)
  · cases h
  · cases h1
    have : j = 1 := by
      have : j < 2 := h3
      omega
    subst this
    exact absurd h4 (by decide)

/-- C28, partly: a stream that waits for writability writes all that it has when the kernel takes it, in order
and in one go, for as long as these are at most 1024 messages, none of them empty. -/
theorem c28_progress_partial (t0 : Nat) (hist : List (Op × Kernel)) (s : State) (n now : Nat)
    (h : run {} t0 hist = .ok s) (hq : ∀ x ∈ hist, x.1.Quiet) (ho : s.closed = false)
    (hp : s.pollW = true) (hl : s.queue.length ≤ 1024)
    (hn : (s.queue.flatMap (Req.bytesAt now)).length ≤ n) (hne : ∀ r ∈ s.queue, r.bytesAt now ≠ []) :
    ∃ s', step s .writable (.sent n) now = .ok s' ∧ s'.queue = [] ∧
      s'.wire = s.wire ++ s.queue.flatMap (Req.bytesAt now) := by
  obtain ⟨h1, h2⟩ := run_quiet h hq (by simp [Silent]) (by simp)
  unfold step
  simp only
  rw [if_neg (by simp [ho, hp])]
  exact flush_all h1 (h2 ho) ho hl hn hne

example : wireOf (run {} 0 (piecemeal ++ [(.writable, .sent 1)])) =
    some ([1, 2, 3, 4], [(0, .done), (1, .done)], 0, false) := by decide

end Verif.Tcp
