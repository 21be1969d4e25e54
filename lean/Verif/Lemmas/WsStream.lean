import Verif.Spec.WsStream
import Verif.Lemmas.Tcp
import Verif.Lemmas.Ws

/-! # Lemmas about the WebSocket stream -/

namespace Verif.WsStream

/-- the submissions that one frame is made of -/
def Frame.srcs : Frame → List Tcp.Src
  | .msg d => [.data (head opBin d.length), .data d]
  | .late f => [.exec (chained f)]
  | .pong d => [.data (head opPong d.length), .data d]

/-- what the stream below accepted -/
def srcs (s : Tcp.State) : List Tcp.Src := s.accepted.map Prod.snd

def FramedQ (q : List Tcp.Req) : Prop := ∀ r ∈ q, ∃ cb, r.onDone = framed cb

/-- the stream below accepted whole frames from callbacks, or nothing if there are no callbacks -/
def Grows (quiet : Prop) (s s' : Tcp.State) : Prop :=
  FramedQ s'.queue ∧ (s.closed = true → s'.closed = true) ∧
    ∃ fs : List Frame, srcs s' = srcs s ++ fs.flatMap Frame.srcs ∧ (∀ f ∈ fs, f.user = true) ∧
      (quiet → fs = [] ∧ Tcp.Silent s'.queue)

theorem Grows.refl {quiet : Prop} {s : Tcp.State} (h : FramedQ s.queue) (hq : quiet → Tcp.Silent s.queue) :
    Grows quiet s s := ⟨h, id, [], by simp, by simp, fun q => ⟨rfl, hq q⟩⟩

theorem Grows.trans {quiet : Prop} {a b c : Tcp.State} (h1 : Grows quiet a b) (h2 : Grows quiet b c) : Grows quiet a c := by
  obtain ⟨_, c1, f1, e1, u1, q1⟩ := h1
  obtain ⟨g2, c2, f2, e2, u2, q2⟩ := h2
  refine ⟨g2, fun h => c2 (c1 h), f1 ++ f2, by rw [e2, e1]; simp, ?_, fun q => ⟨?_, (q2 q).2⟩⟩
  · intro f hf
    rcases List.mem_append.1 hf with h | h
    · exact u1 f h
    · exact u2 f h
  · simp [(q1 q).1, (q2 q).1]

theorem close_grow {quiet : Prop} {s s' : Tcp.State} (h : Tcp.close s = .ok s') (hf : FramedQ s.queue)
    (hq : quiet → Tcp.Silent s.queue) : Grows quiet s s' := by
  obtain ⟨a, b, c⟩ := Tcp.close_accepted h
  refine ⟨?_, fun _ => c, [], by simp [srcs, a], by simp, fun q => ⟨rfl, ?_⟩⟩
  · rcases b with b | b
    · simp [b, FramedQ]
    · rw [b]; exact hf
  · rcases b with b | b
    · simp [b, Tcp.Silent]
    · rw [b]; exact hq q

theorem remoteClosed_grow {quiet : Prop} {s s' : Tcp.State} (h : Tcp.remoteClosed s = .ok s') (hf : FramedQ s.queue)
    (hq : quiet → Tcp.Silent s.queue) : Grows quiet s s' ∧ s'.closed = true ∧ srcs s' = srcs s ∧ s'.wire = s.wire := by
  unfold Tcp.remoteClosed at h
  split at h
  · rename_i s1 h1
    simp only [Outcome.ok.injEq] at h; subst h
    have hw : s1.wire = s.wire := by
      unfold Tcp.close at h1
      split at h1
      · simp only [Outcome.ok.injEq] at h1; rw [h1]
      · split at h1
        · simp only [Outcome.ok.injEq] at h1; subst h1; rfl
        · cases h1
        · cases h1
    have := close_grow h1 hf hq
    obtain ⟨a, b, c⟩ := Tcp.close_accepted h1
    exact ⟨this, c, by simp [srcs, a], hw⟩
  · cases h
  · cases h

theorem react_grow (cb : Tcp.Reaction) : ∀ {s s' : Tcp.State}, Tcp.react (framed cb) s = .ok s' → FramedQ s.queue →
    Grows False s s' := by
  induction cb with
  | stop =>
    intro s s' h hf
    simp only [framed, Tcp.react, Outcome.ok.injEq] at h; subst h
    exact .refl hf nofun
  | close k ih =>
    intro s s' h hf
    simp only [framed, Tcp.react] at h
    split at h
    · rename_i s1 h1
      have g := close_grow (quiet := False) h1 hf nofun
      exact g.trans (ih h g.1)
    · cases h
    · cases h
  | send d cb k ihcb ihk =>
    intro s s' h hf
    simp only [framed, Tcp.react] at h
    cases hc : s.closed with
    | true =>
      simp only [hc, if_true] at h
      exact ihk h hf
    | false =>
      simp only [hc, Bool.false_eq_true, if_false, Tcp.enqueue] at h
      refine Grows.trans ?_ (ihk h ?_)
      · refine ⟨?_, by simp [hc], [.msg d], by simp [srcs, Frame.srcs], by simp [Frame.user], nofun⟩
        intro r hr
        simp only [List.mem_append, List.mem_singleton] at hr
        rcases hr with (hr | rfl) | rfl
        · exact hf r hr
        · exact ⟨.stop, rfl⟩
        · exact ⟨cb, rfl⟩
      · intro r hr
        simp only [List.mem_append, List.mem_singleton] at hr
        rcases hr with (hr | rfl) | rfl
        · exact hf r hr
        · exact ⟨.stop, rfl⟩
        · exact ⟨cb, rfl⟩

theorem react_grow' {quiet : Prop} {r : Tcp.Req} {s s' : Tcp.State} (h : Tcp.react r.onDone s = .ok s') (hf : FramedQ s.queue)
    (hr : ∃ cb, r.onDone = framed cb) (hq : quiet → Tcp.Silent s.queue ∧ r.onDone = .stop) : Grows quiet s s' := by
  obtain ⟨cb, e⟩ := hr
  by_cases q : quiet
  · rw [(hq q).2] at h
    simp only [Tcp.react, Outcome.ok.injEq] at h; subst h
    exact .refl hf fun q => (hq q).1
  · rw [e] at h
    obtain ⟨a, b, fs, c, d, _⟩ := react_grow cb h hf
    exact ⟨a, b, fs, c, d, fun hq => absurd hq q⟩

theorem drain_grow {quiet : Prop} (n : Nat) : ∀ {s s' : Tcp.State} {left l}, Tcp.drain n left s = .ok (s', l) →
    FramedQ s.queue → (quiet → Tcp.Silent s.queue) → Grows quiet s s' := by
  induction n with
  | zero => intro s s' left l h hf hq; simp [Tcp.drain] at h; rw [← h.1]; exact .refl hf hq
  | succ n ih =>
    intro s s' left l h hf hq
    simp only [Tcp.drain] at h
    split at h
    · simp at h; rw [← h.1]; exact .refl hf hq
    · rename_i r q hqu
      have hf' : FramedQ q := fun x hx => hf x (by simp [hqu, hx])
      have hr := hf r (by simp [hqu])
      have hs' : quiet → Tcp.Silent q ∧ r.onDone = .stop :=
        fun h => ⟨fun x hx => hq h x (by simp [hqu, hx]), hq h r (by simp [hqu])⟩
      split at h
      · cases h
      · split at h
        · split at h
          · rename_i s1 h1
            have g := react_grow' (quiet := quiet) h1 hf' hr hs'
            have g : Grows quiet s s1 := g
            split at h
            · simp only [Outcome.ok.injEq, Prod.mk.injEq] at h
              rw [← h.1]; exact g
            · split at h
              · cases h
              · obtain ⟨ga, gb, gf, gc, gd, ge⟩ := g
                exact Grows.trans ⟨ga, gb, gf, gc, gd, ge⟩ (ih h ga fun q => (ge q).2)
          · cases h
          · cases h
        · simp only [Outcome.ok.injEq, Prod.mk.injEq] at h
          rw [← h.1]
          refine ⟨?_, id, [], by simp [srcs], by simp, fun q => ⟨rfl, ?_⟩⟩
          · intro x hx
            simp only [List.mem_cons] at hx
            rcases hx with rfl | hx
            · exact hr
            · exact hf' x hx
          · intro x hx
            simp only [List.mem_cons] at hx
            rcases hx with rfl | hx
            · exact (hs' q).2
            · exact (hs' q).1 x hx

theorem evalReqs_framed {now n q} (h : FramedQ q) : FramedQ (Tcp.evalReqs now n q) := by
  induction n generalizing q with
  | zero => simpa [Tcp.evalReqs] using h
  | succ n ih =>
    cases q with
    | nil => simpa [Tcp.evalReqs] using h
    | cons r q =>
      intro x hx
      simp only [Tcp.evalReqs, List.mem_cons] at hx
      rcases hx with rfl | hx
      · split <;> exact h r (by simp)
      · exact ih (fun y hy => h y (by simp [hy])) x hx

theorem flush_grow {quiet : Prop} {k now} {s s' : Tcp.State} (h : Tcp.flush k now s = .ok s') (hf : FramedQ s.queue)
    (hq : quiet → Tcp.Silent s.queue) : Grows quiet s s' := by
  unfold Tcp.flush at h
  split at h
  · simp only [Outcome.ok.injEq] at h; subst h; exact .refl hf hq
  simp only at h
  have hf1 : FramedQ (Tcp.evalReqs now Tcp.iovMax s.queue) := evalReqs_framed hf
  have hs1 : quiet → Tcp.Silent (Tcp.evalReqs now Tcp.iovMax s.queue) := fun q => Tcp.evalReqs_silent (hq q)
  split at h
  · simp only [Outcome.ok.injEq] at h; subst h; exact .refl hf hq
  · split at h
    · simp only [Outcome.ok.injEq] at h; subst h
      exact ⟨hf1, id, [], by simp [srcs], by simp, fun q => ⟨rfl, hs1 q⟩⟩
    · obtain ⟨⟨a, b, c⟩, _⟩ := remoteClosed_grow (quiet := quiet) h hf1 hs1
      exact ⟨a, b, c⟩
    · simp only [Outcome.ok.injEq] at h; subst h
      exact ⟨hf1, id, [], by simp [srcs], by simp, fun q => ⟨rfl, hs1 q⟩⟩
    · split at h
      · rename_i s1 l hd
        obtain ⟨a, b, c⟩ := drain_grow (quiet := quiet) _ hd hf1 hs1
        split at h
        · simp only [Outcome.ok.injEq] at h; subst h
          split <;> exact ⟨a, b, c⟩
        · cases h
      · cases h
      · cases h

/-- nothing was written, nor will it be before the handshake ends -/
def Early (s : Tcp.State) : Prop := s.wire = [] ∧ (s.closed = false → s.cork = true)

/-- an operation on the stream below hands it `l` -/
structure Adds (quiet : Prop) (l : List Tcp.Src) (s s' : Tcp.State) : Prop where
  inv : Tcp.Inv s'
  framed : FramedQ s'.queue
  silent : quiet → Tcp.Silent s'.queue
  early : Early s → Early s'
  cls : s.closed = true → s'.closed = true ∧ srcs s' = srcs s
  opn : s.closed = false → ∃ fs : List Frame, srcs s' = srcs s ++ l ++ fs.flatMap Frame.srcs ∧
    (∀ f ∈ fs, f.user = true) ∧ (quiet → fs = [])

/-- what the invariants of the stream below are -/
structure Base (quiet : Prop) (s : Tcp.State) : Prop where
  inv : Tcp.Inv s
  framed : FramedQ s.queue
  silent : quiet → Tcp.Silent s.queue

theorem Adds.base {quiet : Prop} {l s s'} (h : Adds quiet l s s') : Base quiet s' := ⟨h.inv, h.framed, h.silent⟩

theorem enqueue_flush {quiet : Prop} {s s' : Tcp.State} {src cb k now} (hb : Base quiet s) (ho : s.closed = false)
    (hcb : quiet → cb = .stop) (hi : Tcp.Inv s')
    (h : Tcp.flush k now (Tcp.enqueue s src (framed cb)) = .ok s') : Adds quiet [src] s s' := by
  have hf : FramedQ (Tcp.enqueue s src (framed cb)).queue := by
    intro r hr
    simp only [Tcp.enqueue, List.mem_append, List.mem_singleton] at hr
    rcases hr with hr | rfl
    · exact hb.framed r hr
    · exact ⟨cb, rfl⟩
  have hq : quiet → Tcp.Silent (Tcp.enqueue s src (framed cb)).queue := by
    intro q r hr
    simp only [Tcp.enqueue, List.mem_append, List.mem_singleton] at hr
    rcases hr with hr | rfl
    · exact hb.silent q r hr
    · rw [hcb q]; rfl
  obtain ⟨a, b, fs, c, d, e⟩ := flush_grow (quiet := quiet) h hf hq
  refine ⟨hi, a, fun q => (e q).2, ?_, by simp [ho], fun _ => ⟨fs, ?_, d, fun q => (e q).1⟩⟩
  · rintro ⟨h1, h2⟩
    have h3 := h2 ho
    unfold Tcp.flush at h
    rw [if_pos (by simpa [Tcp.enqueue] using h3)] at h
    simp only [Outcome.ok.injEq] at h; subst h
    exact ⟨h1, fun _ => h3⟩
  · rw [c]; simp [srcs, Tcp.enqueue]

theorem send_adds {quiet : Prop} {s s' : Tcp.State} {d cb k now} (hb : Base quiet s) (hcb : quiet → cb = .stop)
    (h : tcpStep s (.send d (framed cb)) k now = .ok s') : Adds quiet [.data d] s s' := by
  unfold tcpStep at h
  split at h
  · cases h
  have hi := Tcp.step_inv hb.inv h
  simp only [Tcp.step] at h
  split at h
  · rename_i hc
    simp only [Outcome.ok.injEq] at h; subst h
    exact ⟨hi, hb.framed, hb.silent, id, fun h => ⟨h, rfl⟩, by simp [hc]⟩
  · rename_i hc
    exact enqueue_flush hb (by simpa using hc) hcb hi h

theorem exec_adds {quiet : Prop} {s s' : Tcp.State} {f k now} (hb : Base quiet s)
    (h : tcpStep s (.exec f) k now = .ok s') : Adds quiet [.exec f] s s' := by
  unfold tcpStep at h
  split at h
  · cases h
  have hi := Tcp.step_inv hb.inv h
  simp only [Tcp.step] at h
  split at h
  · rename_i hc
    simp only [Outcome.ok.injEq] at h; subst h
    exact ⟨hi, hb.framed, hb.silent, id, fun h => ⟨h, rfl⟩, by simp [hc]⟩
  · rename_i hc
    exact enqueue_flush (cb := .stop) hb (by simpa using hc) (fun _ => rfl) hi h

theorem Base.same {quiet : Prop} {s : Tcp.State} (hb : Base quiet s) : Adds quiet [] s s :=
  ⟨hb.inv, hb.framed, hb.silent, id, fun h => ⟨h, rfl⟩, fun _ => ⟨[], by simp, by simp, fun _ => rfl⟩⟩

theorem writable_adds {quiet : Prop} {s s' : Tcp.State} {k now} (hb : Base quiet s)
    (h : tcpStep s .writable k now = .ok s') : Adds quiet [] s s' := by
  unfold tcpStep at h
  split at h
  · cases h
  have hi := Tcp.step_inv hb.inv h
  simp only [Tcp.step] at h
  split at h
  · simp only [Outcome.ok.injEq] at h; subst h
    exact hb.same
  · rename_i hc
    have ho : s.closed = false := by cases hc' : s.closed <;> simp_all
    obtain ⟨a, b, fs, c, d, e⟩ := flush_grow (quiet := quiet) h hb.framed hb.silent
    refine ⟨hi, a, fun q => (e q).2, ?_, by simp [ho], fun _ => ⟨fs, by simpa using c, d, fun q => (e q).1⟩⟩
    rintro ⟨h1, h2⟩
    have h3 := h2 ho
    unfold Tcp.flush at h
    rw [if_pos h3] at h
    simp only [Outcome.ok.injEq] at h; subst h
    exact ⟨h1, fun _ => h3⟩

theorem close_adds {quiet : Prop} {s s' : Tcp.State} {k now} (hb : Base quiet s)
    (h : tcpStep s .close k now = .ok s') : Adds quiet [] s s' := by
  unfold tcpStep at h
  split at h
  · cases h
  have hi := Tcp.step_inv hb.inv h
  simp only [Tcp.step] at h
  obtain ⟨a, b, fs, c, d, e⟩ := close_grow (quiet := quiet) h hb.framed hb.silent
  obtain ⟨e1, _, e3⟩ := Tcp.close_accepted h
  have hw : s'.wire = s.wire := by
    unfold Tcp.close at h
    split at h
    · simp only [Outcome.ok.injEq] at h; rw [h]
    · split at h
      · simp only [Outcome.ok.injEq] at h; subst h; rfl
      · cases h
      · cases h
  refine ⟨hi, a, fun q => (e q).2, ?_, fun _ => ⟨e3, by simp [srcs, e1]⟩, fun _ => ⟨fs, by simpa using c, d, fun q => (e q).1⟩⟩
  rintro ⟨h1, h2⟩
  exact ⟨by rw [hw, h1], by simp [e3]⟩

theorem remote_adds {quiet : Prop} {s s' : Tcp.State} (hb : Base quiet s)
    (h : Tcp.remoteClosed s = .ok s') : Adds quiet [] s s' := by
  have hi : Tcp.Inv s' := by
    unfold Tcp.remoteClosed at h
    split at h
    · rename_i s1 h1
      simp only [Outcome.ok.injEq] at h; subst h
      obtain ⟨⟨dn, rest, ps, part, hi⟩, _⟩ := hb.inv
      obtain ⟨hi, hcl, _⟩ := Tcp.close_inv hi h1
      exact ⟨⟨dn, rest, ps, part, hi.acc, hi.ids, hi.poss, hi.wire, hi.opn, hi.cls⟩, by simp [hcl]⟩
    · cases h
    · cases h
  obtain ⟨⟨a, b, fs, c, d, e⟩, e3, e1, hw⟩ := remoteClosed_grow (quiet := quiet) h hb.framed hb.silent
  refine ⟨hi, a, fun q => (e q).2, ?_, fun _ => ⟨e3, e1⟩, fun _ => ⟨fs, by simpa using c, d, fun q => (e q).1⟩⟩
  rintro ⟨h1, h2⟩
  exact ⟨by rw [hw, h1], by simp [e3]⟩

theorem hangUp_adds {quiet : Prop} {s s' : Tcp.State} {b} (hb : Base quiet s) (h : hangUp b s = .ok s') :
    Adds quiet [] s s' := by
  unfold hangUp at h
  split at h
  · exact remote_adds hb h
  · simp only [Outcome.ok.injEq] at h; subst h
    exact hb.same

/-- the reply comes before everything that waited for it -/
theorem uncork_adds {quiet : Prop} {s s' : Tcp.State} {reply k now} (hb : Base quiet s) (ho : s.closed = false)
    (hc : s.cork = true) (h : tcpStep s (.uncork reply) k now = .ok s') :
    Base quiet s' ∧ ∃ fs : List Frame, srcs s' = .data reply :: srcs s ++ fs.flatMap Frame.srcs ∧
      (∀ f ∈ fs, f.user = true) ∧ (quiet → fs = []) := by
  unfold tcpStep at h
  split at h
  · cases h
  have hi := Tcp.step_inv hb.inv h
  simp only [Tcp.step] at h
  rw [if_neg (by simp [ho, hc])] at h
  have hf : FramedQ (⟨s.accepted.length, .data reply, .stop⟩ :: s.queue) := by
    intro r hr
    simp only [List.mem_cons] at hr
    rcases hr with rfl | hr
    · exact ⟨.stop, rfl⟩
    · exact hb.framed r hr
  have hq : quiet → Tcp.Silent (⟨s.accepted.length, .data reply, .stop⟩ :: s.queue) := by
    intro q r hr
    simp only [List.mem_cons] at hr
    rcases hr with rfl | hr
    · rfl
    · exact hb.silent q r hr
  obtain ⟨a, b, fs, c, d, e⟩ := flush_grow (quiet := quiet) h hf hq
  exact ⟨⟨hi, a, fun q => (e q).2⟩, fs, by rw [c]; simp [srcs], d, fun q => (e q).1⟩

/-- the submissions are whole frames after `lead`, but for a header at the end of a closed stream -/
def Shape (quiet : Prop) (lead : List Tcp.Src) (subs : List Frame) (s : Tcp.State) : Prop :=
  ∃ (fs : List Frame) (tail : List Tcp.Src), srcs s = lead ++ fs.flatMap Frame.srcs ++ tail ∧
    (tail = [] ∨ s.closed = true ∧ ∃ f : Frame, tail <+: f.srcs) ∧
    (s.closed = false → subs.Sublist (fs.filter Frame.user) ∧ (quiet → fs.filter Frame.user = subs))

theorem Shape.stay {quiet : Prop} {lead subs} (subs') {s s' : Tcp.State} (h : Shape quiet lead subs s)
    (hc : s'.closed = true) (he : srcs s' = srcs s) : Shape quiet lead subs' s' := by
  obtain ⟨fs, tail, a, b, c⟩ := h
  exact ⟨fs, tail, by rw [he, a], b.imp id fun b => ⟨hc, b.2⟩, by simp [hc]⟩

theorem Shape.whole {quiet : Prop} {lead subs} {s s' : Tcp.State} (h : Shape quiet lead subs s)
    (ho : s.closed = false) (g : List Frame) (gs : List Frame) (hg : srcs s' = srcs s ++ g.flatMap Frame.srcs ++ gs.flatMap Frame.srcs)
    (hq : quiet → gs = []) : Shape quiet lead (subs ++ g.filter Frame.user) s' := by
  obtain ⟨fs, tail, a, b, c⟩ := h
  obtain ⟨c1, c2⟩ := c ho
  rcases b with rfl | b
  · refine ⟨fs ++ g ++ gs, [], by rw [hg, a]; simp, .inl rfl, fun _ => ⟨?_, ?_⟩⟩
    · rw [List.filter_append, List.filter_append]
      exact (c1.append (List.Sublist.refl _)).trans (List.sublist_append_left _ _)
    · intro q
      rw [hq q, List.append_nil, List.filter_append, c2 q]
  · simp [ho] at b

theorem Shape.torn {quiet : Prop} {lead subs} (subs') {s s' : Tcp.State} (h : Shape quiet lead subs s)
    (ho : s.closed = false) (hc : s'.closed = true) (f : Frame) (l : List Tcp.Src) (hl : l <+: f.srcs)
    (he : srcs s' = srcs s ++ l) : Shape quiet lead subs' s' := by
  obtain ⟨fs, tail, a, b, c⟩ := h
  rcases b with rfl | b
  · exact ⟨fs, l, by rw [he, a]; simp, .inr ⟨hc, f, hl⟩, by simp [hc]⟩
  · simp [ho] at b

/-- an operation that hands over one frame at once -/
theorem Shape.adds {quiet : Prop} {lead subs} {s s' : Tcp.State} (h : Shape quiet lead subs s) (g : List Frame)
    (ha : Adds quiet (g.flatMap Frame.srcs) s s') : Shape quiet lead (subs ++ g.filter Frame.user) s' := by
  cases hc : s.closed with
  | true => exact h.stay _ (ha.cls hc).1 (ha.cls hc).2
  | false =>
    obtain ⟨fs, a, b, c⟩ := ha.opn hc
    exact h.whole hc g fs a c

/-- a frame in two pieces -/
theorem Shape.pair {quiet : Prop} {lead subs} {s t s' : Tcp.State} (h : Shape quiet lead subs s) (g : Frame) (x y : Tcp.Src)
    (hg : g.srcs = [x, y]) (h1 : Adds quiet [x] s t) (h2 : Adds quiet [y] t s') (hm : mixes s t = false) :
    Shape quiet lead (subs ++ [g].filter Frame.user) s' := by
  cases hc : s.closed with
  | true =>
    obtain ⟨a, b⟩ := h1.cls hc
    obtain ⟨a', b'⟩ := h2.cls a
    exact h.stay _ a' (by rw [b', b])
  | false =>
    obtain ⟨fs, a, b, c⟩ := h1.opn hc
    have hl : t.accepted.length = s.accepted.length + 1 := by simpa [mixes, hc] using hm
    have hfs : fs.flatMap Frame.srcs = [] := by
      have := congrArg List.length a
      simp only [srcs, List.length_map, List.length_append, List.length_singleton] at this
      exact List.length_eq_zero_iff.1 (by omega)
    rw [hfs, List.append_nil] at a
    cases ht : t.closed with
    | true =>
      obtain ⟨a', b'⟩ := h2.cls ht
      exact h.torn _ hc a' g [x] (by rw [hg]; exact ⟨[y], rfl⟩) (by rw [b', a])
    | false =>
      obtain ⟨fs', a', b', c'⟩ := h2.opn ht
      exact h.whole hc [g] fs' (by rw [a', a]; simp [hg]) c'

/-- without callbacks a header is followed by its payload -/
theorem Adds.unmixed {x} {s t : Tcp.State} (h : Adds True [x] s t) : mixes s t = false := by
  cases hc : s.closed with
  | true => simp [mixes, hc]
  | false =>
    obtain ⟨fs, a, _, c⟩ := h.opn hc
    rw [c trivial] at a
    have := congrArg List.length a
    simp [srcs] at this
    simp [mixes, hc, this]

theorem sendAll_base {quiet : Prop} {now} : ∀ {bs : List Bytes} {ks} {s t : Tcp.State} {m}, Base quiet s →
    sendAll now ks bs s = .ok (t, m) → Base quiet t ∧ (Early s → Early t) ∧ (quiet → m = false) := by
  intro bs
  induction bs with
  | nil =>
    intro ks s t m hb h
    simp only [sendAll, Outcome.ok.injEq, Prod.mk.injEq] at h
    obtain ⟨rfl, rfl⟩ := h
    exact ⟨hb, id, fun _ => rfl⟩
  | cons b bs ih =>
    intro ks s t m hb h
    simp only [sendAll, Outcome.bind_eq_ok] at h
    obtain ⟨s1, h1, ⟨s2, m2⟩, h2, h3⟩ := h
    simp only [Outcome.ok.injEq, Prod.mk.injEq] at h3
    obtain ⟨rfl, rfl⟩ := h3
    have a := send_adds (cb := .stop) hb (fun _ => rfl) h1
    obtain ⟨c, d, e⟩ := ih a.base h2
    refine ⟨c, fun x => d (a.early x), fun q => ?_⟩
    have q' : quiet = True := by simp [q]
    rw [e q, Bool.false_or]
    subst q'
    rw [a.unmixed]; simp

theorem head_eq (op len : Nat) : head op len = Ws.plainHeader true op len := by
  obtain ⟨d, h1, _, h3⟩ := Ws.writeHeader_plain (List.replicate Ws.headerMinSize 0) { fin := true, opcode := op, len := len }
    (by simp [Ws.headerMinSize]) rfl
  unfold head
  rw [h1]
  exact h3

theorem head_frame (op : Nat) (p : Bytes) (h : op = opBin ∨ op = opPong) : head op p.length ++ p = frame op p := by
  have h0 : (128 ||| op) = 128 + op := by rcases h with rfl | rfl <;> rfl
  rw [head_eq]
  unfold Ws.plainHeader frame lenField
  have e1 : (p.length ≤ 125) ↔ (p.length < 126) := by omega
  have e2 : (p.length ≤ 65535) ↔ (p.length < 65536) := by omega
  simp only [if_true, h0, e1, e2]
  rfl

theorem sendAll_shape {quiet : Prop} {lead subs now ks} {bs : List Bytes} {s t : Tcp.State} (hb : Base quiet s)
    (h : sendAll now ks bs s = .ok (t, false)) (hs : Shape quiet lead subs s) (hw : WholePong bs) :
    Shape quiet lead subs t := by
  match bs, hw with
  | [], _ =>
    simp only [sendAll, Outcome.ok.injEq, Prod.mk.injEq] at h
    obtain ⟨rfl, _⟩ := h
    exact hs
  | [hd, p], hw =>
    obtain ⟨e1, e2⟩ := hw
    simp only [sendAll, Outcome.bind_eq_ok] at h
    obtain ⟨s1, h1, ⟨s2, m2⟩, h2, h3⟩ := h
    obtain ⟨s3, h4, ⟨s4, m4⟩, h5, h6⟩ := h2
    simp only [Outcome.ok.injEq, Prod.mk.injEq] at h3 h5 h6
    obtain ⟨rfl, h3⟩ := h3
    obtain ⟨rfl, rfl⟩ := h5
    obtain ⟨rfl, rfl⟩ := h6
    have a1 := send_adds (cb := .stop) hb (fun _ => rfl) h1
    have a2 := send_adds (cb := .stop) a1.base (fun _ => rfl) h4
    have hh : hd = head opPong p.length := by
      rw [e1, head_eq]; unfold Ws.plainHeader; simp only [show p.length ≤ 125 by omega, if_true]; rfl
    have := hs.pair (.pong p) (.data hd) (.data p) (by simp [Frame.srcs, hh]) a1 a2 (by simpa using h3)
    simpa [Frame.user] using this

/-- what stands before the frames: nothing before the end of the handshake, the reply after it -/
def Lead (sha1 : Bytes → Bytes) (ready : Bool) (lead : List Tcp.Src) : Prop :=
  (ready = false → lead = []) ∧ (ready = true → ∃ input n reply,
    Http.handshake sha1 255 input = some (.ok (some (n, reply))) ∧ lead = [.data reply])

structure Good (sha1 : Bytes → Bytes) (quiet : Prop) (subs : List Frame) (s : State) : Prop where
  base : Base quiet s.tcp
  early : s.ready = false → Early s.tcp
  pure : quiet → s.mixed = false
  shape : s.mixed = false → (∀ p ∈ s.pongs, WholePong p) → ∃ lead, Lead sha1 s.ready lead ∧ Shape quiet lead subs s.tcp

theorem Good.adds {sha1 : Bytes → Bytes} {quiet : Prop} {subs : List Frame} {s : State} {t : Tcp.State} (h : Good sha1 quiet subs s)
    (g : List Frame) (ha : Adds quiet (g.flatMap Frame.srcs) s.tcp t) :
    Good sha1 quiet (subs ++ g.filter Frame.user) { s with tcp := t } :=
  ⟨ha.base, fun hr => ha.early (h.early hr), h.pure, fun hm hp =>
    let ⟨lead, h1, h2⟩ := h.shape hm hp
    ⟨lead, h1, h2.adds g ha⟩⟩

theorem readReady_good {sha1 : Bytes → Bytes} {quiet : Prop} {subs : List Frame} {s s' : State} {eagain now ks size n out}
    (hg : Good sha1 quiet subs s) (h : readReady eagain now ks s size = .ok (s', n, out)) : Good sha1 quiet subs s' := by
  simp only [readReady, Outcome.bind_eq_ok] at h
  obtain ⟨⟨rd, n', out'⟩, h1, ⟨t, m⟩, h2, t', h3, h4⟩ := h
  simp only [Outcome.ok.injEq, Prod.mk.injEq] at h4
  obtain ⟨rfl, rfl, rfl⟩ := h4
  obtain ⟨b1, b2, b3⟩ := sendAll_base hg.base h2
  have a := hangUp_adds b1 h3
  refine ⟨a.base, fun hr => a.early (b2 (hg.early hr)), fun q => by simp [hg.pure q, b3 q], ?_⟩
  intro hm hp
  simp only [Bool.or_eq_false_iff] at hm
  obtain ⟨hm, rfl⟩ := hm
  obtain ⟨lead, l1, l2⟩ := hg.shape hm (fun p hp' => hp p (by simp [hp']))
  have l3 := sendAll_shape hg.base h2 l2 (hp _ (by simp))
  have l4 := l3.adds [] (by simpa using a)
  exact ⟨lead, l1, by simpa using l4⟩

theorem readHandshake_good {sha1 : Bytes → Bytes} {quiet : Prop} {subs : List Frame} {s s' : State} {eagain now ks size n out}
    (hg : Good sha1 quiet subs s) (hr : s.ready = false) (ho : s.tcp.closed = false)
    (h : readHandshake sha1 eagain now ks s size = .ok (s', n, out)) : Good sha1 quiet subs s' := by
  unfold readHandshake at h
  split at h
  · simp only [Outcome.bind_eq_ok] at h
    obtain ⟨t, h1, h2⟩ := h
    simp only [Outcome.ok.injEq, Prod.mk.injEq] at h2
    obtain ⟨rfl, _⟩ := h2
    have a := remote_adds hg.base h1
    simpa using hg.adds [] (by simpa using a)
  · simp only [Outcome.bind_eq_ok] at h
    obtain ⟨mem, h1, h2⟩ := h
    split at h2
    · cases h2
    · cases h2
    · cases h2
    · simp only [Outcome.ok.injEq, Prod.mk.injEq] at h2
      obtain ⟨rfl, _⟩ := h2
      exact ⟨hg.base, hg.early, hg.pure, hg.shape⟩
    · rename_i n' reply hh
      simp only [Outcome.bind_eq_ok] at h2
      obtain ⟨t, h3, moved, h4, mem', h5, h6⟩ := h2
      refine readReady_good ?_ h6
      obtain ⟨b, fs, c, d, e⟩ := uncork_adds hg.base ho ((hg.early hr).2 ho) h3
      refine ⟨b, nofun, hg.pure, ?_⟩
      intro hm hp
      obtain ⟨lead, l1, fs', tail, l2, l3, l4⟩ := hg.shape hm hp
      have := l1.1 hr; subst this
      rcases l3 with rfl | l3
      · refine ⟨[.data reply], ⟨nofun, fun _ => ⟨_, _, _, hh, rfl⟩⟩, fs' ++ fs, [], ?_, .inl rfl, fun _ => ?_⟩
        · dsimp only
          rw [c, l2]; simp
        · obtain ⟨m1, m2⟩ := l4 ho
          rw [List.filter_append]
          refine ⟨m1.trans (List.sublist_append_left _ _), fun q => ?_⟩
          rw [e q, m2 q]; simp
      · simp [ho] at l3

theorem read_good {sha1 : Bytes → Bytes} {quiet : Prop} {subs : List Frame} {s s' : State} {eagain now ks k size n out}
    (hg : Good sha1 quiet subs s) (h : read sha1 eagain now ks s k size = .ok (s', n, out)) : Good sha1 quiet subs s' := by
  simp only [read, Outcome.bind_eq_ok] at h
  obtain ⟨rd, h1, h2⟩ := h
  split at h2
  · simp only [Outcome.bind_eq_ok] at h2
    obtain ⟨t, h3, h4⟩ := h2
    simp only [Outcome.ok.injEq, Prod.mk.injEq] at h4
    obtain ⟨rfl, _⟩ := h4
    have a := hangUp_adds hg.base h3
    have := hg.adds [] (by simpa using a)
    exact ⟨this.base, this.early, this.pure, by simpa using this.shape⟩
  · rename_i hrd
    have ho : s.tcp.closed = false := by
      cases hc : s.tcp.closed with
      | false => rfl
      | true =>
        exfalso
        unfold Ws.readIntoBuffer at h1
        simp only [hc, if_true, Outcome.ok.injEq] at h1
        rw [← h1] at hrd
        simp at hrd
    split at h2
    · exact readReady_good (s := { s with rd := rd }) ⟨hg.base, hg.early, hg.pure, hg.shape⟩ h2
    · rename_i hr
      exact readHandshake_good (s := { s with rd := rd }) ⟨hg.base, hg.early, hg.pure, hg.shape⟩ (by simpa using hr) ho h2

theorem step_good {sha1 : Bytes → Bytes} {quiet : Prop} {subs : List Frame} {s s' : State} {now op out}
    (hg : Good sha1 quiet subs s) (hq : quiet → op.Quiet) (h : step sha1 now s op = .ok (s', out)) :
    Good sha1 quiet (subs ++ op.frame) s' := by
  cases op with
  | send d cb k1 k2 =>
    simp only [step, Outcome.bind_eq_ok] at h
    obtain ⟨t, h1, t', h2, h3⟩ := h
    simp only [Outcome.ok.injEq, Prod.mk.injEq] at h3
    obtain ⟨rfl, _⟩ := h3
    have a1 := send_adds (cb := .stop) hg.base (fun _ => rfl) h1
    have a2 := send_adds a1.base hq h2
    refine ⟨a2.base, fun hr => a2.early (a1.early (hg.early hr)), fun q => ?_, ?_⟩
    · have q' : quiet = True := by simp [q]
      subst q'
      simp [hg.pure q, a1.unmixed]
    · intro hm hp
      simp only [Bool.or_eq_false_iff] at hm
      obtain ⟨lead, l1, l2⟩ := hg.shape hm.1 hp
      exact ⟨lead, l1, l2.pair (.msg d) _ _ rfl a1 a2 hm.2⟩
  | exec f k =>
    simp only [step, Outcome.bind_eq_ok] at h
    obtain ⟨t, h1, h3⟩ := h
    simp only [Outcome.ok.injEq, Prod.mk.injEq] at h3
    obtain ⟨rfl, _⟩ := h3
    exact hg.adds [.late f] (by simpa [Frame.srcs] using exec_adds hg.base h1)
  | read k size eagain ks =>
    simp only [step, Outcome.bind_eq_ok] at h
    obtain ⟨⟨s1, n, o⟩, h1, h3⟩ := h
    simp only [Outcome.ok.injEq, Prod.mk.injEq] at h3
    obtain ⟨rfl, _⟩ := h3
    simpa [Op.frame] using read_good hg h1
  | writable k =>
    simp only [step, Outcome.bind_eq_ok] at h
    obtain ⟨t, h1, h3⟩ := h
    simp only [Outcome.ok.injEq, Prod.mk.injEq] at h3
    obtain ⟨rfl, _⟩ := h3
    exact hg.adds [] (by simpa using writable_adds hg.base h1)
  | close =>
    simp only [step, Outcome.bind_eq_ok] at h
    obtain ⟨t, h1, h3⟩ := h
    simp only [Outcome.ok.injEq, Prod.mk.injEq] at h3
    obtain ⟨rfl, _⟩ := h3
    exact hg.adds [] (by simpa using close_adds hg.base h1)

theorem run_good {sha1 : Bytes → Bytes} {quiet : Prop} : ∀ {hist : List Op} {t : Nat} {subs : List Frame} {s s' : State} {out},
    Good sha1 quiet subs s → (quiet → ∀ o ∈ hist, o.Quiet) → run sha1 t s hist = .ok (s', out) →
    Good sha1 quiet (subs ++ hist.flatMap Op.frame) s' := by
  intro hist
  induction hist with
  | nil =>
    intro t subs s s' out hg _ h
    simp only [run, Outcome.ok.injEq, Prod.mk.injEq] at h
    obtain ⟨rfl, _⟩ := h
    simpa using hg
  | cons o hist ih =>
    intro t subs s s' out hg hq h
    simp only [run, Outcome.bind_eq_ok] at h
    obtain ⟨⟨s1, o1⟩, h1, ⟨s2, o2⟩, h2, h3⟩ := h
    simp only [Outcome.ok.injEq, Prod.mk.injEq] at h3
    obtain ⟨rfl, _⟩ := h3
    have := ih (step_good hg (fun q => hq q o (by simp)) h1) (fun q x hx => hq q x (by simp [hx])) h2
    simpa using this

theorem fresh_good (sha1 : Bytes → Bytes) (quiet : Prop) : Good sha1 quiet [] fresh where
  base := ⟨Tcp.init_inv true, by simp [fresh, FramedQ], fun _ => by simp [fresh, Tcp.Silent]⟩
  early := fun _ => ⟨rfl, fun _ => rfl⟩
  pure := fun _ => rfl
  shape := fun _ _ => ⟨[], ⟨fun _ => rfl, nofun⟩, [], [], rfl, .inl rfl, fun _ => ⟨by simp, fun _ => rfl⟩⟩

/-- as `Tcp.PossAll`, without identities -/
def PossL : List Tcp.Src → List Bytes → Prop
  | [], [] => True
  | a :: as, p :: ps => Tcp.Poss a p ∧ PossL as ps
  | _, _ => False

theorem PossL.of {as : List (Nat × Tcp.Src)} : ∀ {ps}, Tcp.PossAll as ps → PossL (as.map Prod.snd) ps := by
  induction as with
  | nil => intro ps h; cases ps <;> simp_all [Tcp.PossAll, PossL]
  | cons a as ih =>
    intro ps h
    cases ps with
    | nil => simp [Tcp.PossAll] at h
    | cons p ps => exact ⟨h.1, ih h.2⟩

theorem PossL.split {as bs : List Tcp.Src} : ∀ {ps}, PossL (as ++ bs) ps →
    ∃ p1 p2, ps = p1 ++ p2 ∧ PossL as p1 ∧ PossL bs p2 := by
  induction as with
  | nil => intro ps h; exact ⟨[], ps, rfl, trivial, h⟩
  | cons a as ih =>
    intro ps h
    cases ps with
    | nil => simp [PossL] at h
    | cons p ps =>
      obtain ⟨p1, p2, e, h1, h2⟩ := ih h.2
      exact ⟨p :: p1, p2, by simp [e], ⟨h.1, h1⟩, h2⟩

theorem frame_seen {f : Frame} {ps} (h : PossL f.srcs ps) : ∃ m, f.Seen m ∧ ps.flatten = frame m.1 m.2 := by
  cases f with
  | msg d =>
    match ps, h with
    | [a, b], h =>
      obtain ⟨h1, h2, _⟩ := h
      simp only [Tcp.Poss] at h1 h2
      subst h1; subst h2
      exact ⟨(2, b), rfl, by rw [← head_frame 2 b (.inl rfl)]; simp [opBin]⟩
  | late g =>
    match ps, h with
    | [a], h =>
      obtain ⟨⟨t, h1⟩, _⟩ := h
      subst h1
      exact ⟨(2, g t), ⟨t, rfl⟩, by rw [← head_frame 2 (g t) (.inl rfl)]; simp [opBin, chained]⟩
  | pong d =>
    match ps, h with
    | [a, b], h =>
      obtain ⟨h1, h2, _⟩ := h
      simp only [Tcp.Poss] at h1 h2
      subst h1; subst h2
      exact ⟨(10, b), rfl, by rw [← head_frame 10 b (.inr rfl)]; simp [opPong]⟩

theorem frames_seen : ∀ {fs : List Frame} {ps}, PossL (fs.flatMap Frame.srcs) ps →
    ∃ ms, AllSeen fs ms ∧ ps.flatten = bytesOf ms := by
  intro fs
  induction fs with
  | nil =>
    intro ps h
    cases ps with
    | nil => exact ⟨[], .nil, rfl⟩
    | cons => simp [PossL] at h
  | cons f fs ih =>
    intro ps h
    rw [List.flatMap_cons] at h
    obtain ⟨p1, p2, rfl, h1, h2⟩ := PossL.split h
    obtain ⟨m, a, b⟩ := frame_seen h1
    obtain ⟨ms, c, d⟩ := ih h2
    exact ⟨m :: ms, .cons a c, by simp [b, d, bytesOf]⟩

theorem possL_exists : ∀ as : List Tcp.Src, ∃ ps, PossL as ps := by
  intro as
  induction as with
  | nil => exact ⟨[], trivial⟩
  | cons a as ih =>
    obtain ⟨ps, h⟩ := ih
    obtain ⟨p, hp⟩ := Tcp.poss_exists a
    exact ⟨p :: ps, hp, h⟩

theorem PossL.concat {as bs : List Tcp.Src} : ∀ {ps qs}, PossL as ps → PossL bs qs → PossL (as ++ bs) (ps ++ qs) := by
  induction as with
  | nil => intro ps qs h1 h2; cases ps <;> simp_all [PossL]
  | cons a as ih =>
    intro ps qs h1 h2
    cases ps with
    | nil => simp [PossL] at h1
    | cons p ps => exact ⟨h1.1, ih h1.2 h2⟩

theorem AllSeen.snoc {fs ms f m} (h : AllSeen fs ms) (hf : f.Seen m) : AllSeen (fs ++ [f]) (ms ++ [m]) := by
  induction h with
  | nil => exact .cons hf .nil
  | cons a _ ih => exact .cons a ih

/-- what is on the wire -/
theorem Good.wire {sha1 : Bytes → Bytes} {quiet : Prop} {subs : List Frame} {s : State} (hg : Good sha1 quiet subs s)
    (hr : s.ready = true) (hm : s.mixed = false) (hp : ∀ p ∈ s.pongs, WholePong p) :
    ∃ input n reply fs ms, Http.handshake sha1 255 input = some (.ok (some (n, reply))) ∧ AllSeen fs ms ∧
      s.tcp.wire <+: reply ++ bytesOf ms ∧
      (s.tcp.closed = false → subs.Sublist (fs.filter Frame.user) ∧ (quiet → fs.filter Frame.user = subs) ∧
        (s.tcp.queue = [] → s.tcp.wire = reply ++ bytesOf ms)) := by
  obtain ⟨lead, l1, fs, tail, l2, l3, l4⟩ := hg.shape hm hp
  obtain ⟨input, n, reply, l5, rfl⟩ := l1.2 hr
  obtain ⟨⟨dn, rest, ps, part, hi⟩, _⟩ := hg.base.inv
  cases hc : s.tcp.closed with
  | false =>
    obtain ⟨qs, h1, h2⟩ := (hi.opn hc).2.total 0
    have hall : PossL (srcs s.tcp) (ps ++ qs) := by
      unfold srcs; rw [hi.acc]; exact .of (hi.poss.concat h1)
    have hw : s.tcp.wire ++ s.tcp.queue.flatMap (Tcp.Req.bytesAt 0) = (ps ++ qs).flatten := by
      rw [hi.wire, List.flatten_append, ← h2]; simp
    rcases l3 with rfl | l3
    · rw [l2, List.append_nil] at hall
      obtain ⟨p1, p2, e, a1, a2⟩ := PossL.split hall
      have e1 : p1.flatten = reply := by
        match p1, a1 with
        | [a], a1 => simpa [PossL, Tcp.Poss] using a1
      obtain ⟨ms, m1, m2⟩ := frames_seen a2
      rw [e, List.flatten_append, e1, m2] at hw
      refine ⟨input, n, reply, fs, ms, l5, m1, ⟨_, hw⟩, fun _ => ⟨(l4 hc).1, (l4 hc).2, fun h => ?_⟩⟩
      simpa [h] using hw
    · simp [hc] at l3
  | true =>
    obtain ⟨_, hpo, _⟩ := hi.cls hc
    obtain ⟨qs, h1, h2⟩ := hpo.total
    have hall : PossL (srcs s.tcp) (ps ++ qs) := by
      unfold srcs; rw [hi.acc]; exact .of (hi.poss.concat h1)
    have hw : s.tcp.wire <+: (ps ++ qs).flatten := by
      rw [hi.wire, List.flatten_append]
      simpa using h2
    rw [l2] at hall
    obtain ⟨p12, p3, e, a12, a3⟩ := PossL.split hall
    obtain ⟨p1, p2, e', a1, a2⟩ := PossL.split a12
    have e1 : p1.flatten = reply := by
      match p1, a1 with
      | [a], a1 => simpa [PossL, Tcp.Poss] using a1
    obtain ⟨ms, m1, m2⟩ := frames_seen a2
    rw [e, e', List.flatten_append, List.flatten_append, e1, m2] at hw
    rcases l3 with rfl | ⟨_, f, x, hx⟩
    · have : p3 = [] := by cases p3 <;> simp_all [PossL]
      subst this
      exact ⟨input, n, reply, fs, ms, l5, m1, by simpa using hw, nofun⟩
    · obtain ⟨p4, hp4⟩ := possL_exists x
      have hf := PossL.concat a3 hp4
      rw [hx] at hf
      obtain ⟨m, b1, b2⟩ := frame_seen hf
      refine ⟨input, n, reply, fs ++ [f], ms ++ [m], l5, m1.snoc b1, hw.trans ?_, nofun⟩
      refine ⟨p4.flatten, ?_⟩
      rw [List.flatten_append] at b2
      simp [bytesOf, ← b2]

/-! ## What a client reads -/

def extOf (b1 : UInt8) : Nat := if b1.toNat = 126 then 2 else if b1.toNat = 127 then 8 else 0

theorem lenField_shape (n : Nat) (h : n < 18446744073709551616) : ∃ b1 e, lenField n = b1 :: e ∧ b1.toNat < 128 ∧
    e.length = extOf b1 ∧ (if extOf b1 = 0 then b1.toNat else beNat e) = n := by
  unfold lenField
  by_cases h1 : n < 126
  · rw [if_pos h1]
    have hb : (UInt8.ofNat n).toNat = n := by simp; omega
    have hx : extOf (UInt8.ofNat n) = 0 := by unfold extOf; rw [hb, if_neg (by omega), if_neg (by omega)]
    exact ⟨_, [], rfl, by omega, by rw [hx]; rfl, by rw [if_pos hx, hb]⟩
  · rw [if_neg h1]
    by_cases h2 : n < 65536
    · rw [if_pos h2]
      exact ⟨126, be16 n, rfl, by decide, by simp [be16, extOf], by simp [extOf, Ws.beNat_be16 n h2]⟩
    · rw [if_neg h2]
      exact ⟨127, be64 n, rfl, by decide, by simp [be64, be32, extOf], by
        have : extOf 127 = 8 := rfl
        rw [this, if_neg (by decide)]
        rw [Ws.beNat_be64]
        exact h⟩

theorem readFrame_eq (b0 b1 : UInt8) (x : Bytes) : readFrame (b0 :: b1 :: x) =
    if b0.toNat < 128 ∨ 128 ≤ b1.toNat then none
    else
      let len := if extOf b1 = 0 then b1.toNat else beNat (x.take (extOf b1))
      if x.length < extOf b1 + len then none
      else some ((b0.toNat % 16, (x.drop (extOf b1)).take len), x.drop (extOf b1 + len)) := rfl

/-- a whole frame is read, and a piece of one is not -/
theorem readFrame_spec (op : Nat) (p more w : Bytes) (hop : op < 16) (hp : p.length < 18446744073709551616)
    (h : w <+: frame op p ++ more) :
    (∃ w', w = frame op p ++ w' ∧ w' <+: more ∧ readFrame w = some ((op, p), w')) ∨
      (readFrame w = none ∧ w.length < (frame op p).length) := by
  obtain ⟨b1, e, h1, h2, h3, h4⟩ := lenField_shape p.length hp
  have hf : frame op p = UInt8.ofNat (128 + op) :: b1 :: (e ++ p) := by simp [frame, h1]
  have hb0 : (UInt8.ofNat (128 + op)).toNat = 128 + op := by simp; omega
  generalize UInt8.ofNat (128 + op) = b0 at hf hb0
  rw [hf] at h ⊢
  match w, h with
  | [], _ => exact .inr ⟨rfl, by simp⟩
  | [a], _ => exact .inr ⟨rfl, by simp⟩
  | a :: b :: x, h =>
    simp only [List.cons_append, List.cons_prefix_cons] at h
    obtain ⟨rfl, rfl, hx⟩ := h
    rw [readFrame_eq, if_neg (by omega)]
    dsimp only
    by_cases hl : x.length < (e ++ p).length
    · refine .inr ⟨?_, by simpa using hl⟩
      by_cases he : x.length < e.length
      · rw [if_pos (by omega)]
      · have hx1 : x.take (extOf b) = e := by
          obtain ⟨z, hz⟩ := hx
          have : (x ++ z).take e.length = x.take e.length := List.take_append_of_le_length (by omega)
          rw [← h3, ← this, hz]; simp
        rw [hx1, h4, if_pos (by simp at hl; omega)]
    · have hpre : e ++ p <+: x := List.prefix_of_prefix_length_le (by simp) hx (by omega)
      obtain ⟨w', rfl⟩ := hpre
      refine .inl ⟨w', by simp, ?_, ?_⟩
      · exact (List.prefix_append_right_inj _).1 hx
      · have hx1 : (e ++ p ++ w').take (extOf b) = e := by rw [← h3]; simp
        rw [hx1, h4, if_neg (by simp; omega), ← h3]
        have e3 : (e ++ p ++ w').drop (e.length + p.length) = w' := by
          rw [← List.length_append, List.drop_left]
        have e4 : ((e ++ p ++ w').drop e.length).take p.length = p := by simp
        rw [e3, e4, hb0]
        have : (128 + op) % 16 = op := by omega
        rw [this]

theorem readAll_spec : ∀ (ms : List (Nat × Bytes)) (fuel : Nat) (w : Bytes),
    (∀ m ∈ ms, m.1 < 16 ∧ m.2.length < 18446744073709551616) → w <+: bytesOf ms → w.length ≤ fuel →
    readAll fuel w <+: ms ∧ (w = bytesOf ms → readAll fuel w = ms) := by
  intro ms
  induction ms with
  | nil =>
    intro fuel w _ h _
    have : w = [] := List.prefix_nil.1 h
    subst this
    cases fuel <;> simp [readAll, readFrame]
  | cons m ms ih =>
    intro fuel w hm h hl
    obtain ⟨h1, h2⟩ := hm m (by simp)
    have hb : bytesOf (m :: ms) = frame m.1 m.2 ++ bytesOf ms := by simp [bytesOf]
    rw [hb] at h ⊢
    cases fuel with
    | zero =>
      have : w = [] := List.length_eq_zero_iff.1 (by omega)
      subst this
      refine ⟨by simp [readAll], fun hc => ?_⟩
      have := congrArg List.length hc
      simp [frame] at this
    | succ fuel =>
      rcases readFrame_spec m.1 m.2 _ w h1 h2 h with ⟨w', e1, e2, e3⟩ | ⟨e1, e2⟩
      · have hlen : w'.length ≤ fuel := by
          have := congrArg List.length e1
          simp [frame] at this; omega
        obtain ⟨a, b⟩ := ih fuel w' (fun x hx => hm x (by simp [hx])) e2 hlen
        simp only [readAll, e3]
        refine ⟨List.cons_prefix_cons.2 ⟨rfl, a⟩, fun hc => ?_⟩
        rw [e1] at hc
        rw [b (List.append_cancel_left hc)]
      · simp only [readAll, e1]
        refine ⟨List.nil_prefix, fun hc => ?_⟩
        rw [hc] at e2
        simp at e2; omega

theorem AllSeen.users {fs ms} (h : AllSeen fs ms) :
    AllSeen (fs.filter Frame.user) (ms.filter fun m => decide (m.1 = 2)) := by
  induction h with
  | nil => exact .nil
  | @cons f m fs ms a _ ih =>
    cases f with
    | msg d =>
      cases a
      rw [List.filter_cons_of_pos rfl, List.filter_cons_of_pos (by simp)]
      exact .cons rfl ih
    | late g =>
      obtain ⟨t, rfl⟩ := a
      rw [List.filter_cons_of_pos rfl, List.filter_cons_of_pos (by simp)]
      exact .cons ⟨t, rfl⟩ ih
    | pong d => cases a; simpa [Frame.user] using ih

theorem AllSeen.ops {fs ms} (h : AllSeen fs ms) : ∀ m ∈ ms, m.1 < 16 := by
  induction h with
  | nil => simp
  | @cons f m fs ms a _ ih =>
    intro x hx
    rcases List.mem_cons.1 hx with rfl | hx
    · cases f with
      | msg d => cases a; simp
      | late g => obtain ⟨t, rfl⟩ := a; simp
      | pong d => cases a; simp
    · exact ih x hx

theorem bytesOf_length (ms : List (Nat × Bytes)) : ∀ m ∈ ms, m.2.length ≤ (bytesOf ms).length := by
  induction ms with
  | nil => simp
  | cons m ms ih =>
    intro x hx
    have hb : bytesOf (m :: ms) = frame m.1 m.2 ++ bytesOf ms := by simp [bytesOf]
    rw [hb]
    rcases List.mem_cons.1 hx with rfl | hx
    · simp [frame]; omega
    · have := ih x hx
      simp only [List.length_append]; omega

/-! ## The handshake -/

theorem read_wait (sha1 : Bytes → Bytes) (eagain : Bool) (now : Nat) (ks : Nat → Tcp.Kernel) {s : State} {x : Bytes} (p : Bytes) (size : Nat)
    (hr : Ws.Rel s.rd {} x) (hn : s.ready = false) (ho : s.tcp.closed = false) (hp : p ≠ [])
    (hl : x.length + p.length < Ws.bufSize) (hz : (0 : UInt8) ∉ x ++ p)
    (hh : Http.handshake sha1 255 (x ++ p) = some (.ok none)) :
    ∃ s', read sha1 eagain now ks s (.data p) size = .ok (s', 0, []) ∧ Ws.Rel s'.rd {} (x ++ p) ∧ s'.ready = false ∧
      s'.tcp = s.tcp := by
  have hr0 : Ws.Rel { s.rd with closed := s.tcp.closed, sent := [] } {} x :=
    ⟨hr.mlen, hr.idx, hr.idxle, hr.buf, ho, hr.op, hr.st⟩
  obtain ⟨rd, h1, h2, _⟩ := Ws.readIntoBuffer_rel hr0 p hp (by omega)
  have hi : rd.idx = x.length + p.length := by rw [h2.idx]; simp
  have hw : writeAt rd.mem rd.idx [0] = .ok _ := writeAt_ok (by rw [h2.mlen]; simp only [List.length_singleton]; omega)
  have hm := h2.mlen
  generalize hmem : rd.mem.take rd.idx ++ [0] ++ rd.mem.drop (rd.idx + [0].length) = mem at hw
  have ht : List.take rd.idx mem = x ++ p := by
    rw [← hmem, List.append_assoc, List.take_append_of_le_length (by simp; omega), List.take_take, Nat.min_self, h2.buf]
  have htw : (x ++ p).takeWhile (fun c => c != 0) = x ++ p := by
    have gen : ∀ l : Bytes, (0 : UInt8) ∉ l → l.takeWhile (fun c => c != 0) = l := by
      intro l
      induction l with
      | nil => intro _; rfl
      | cons c l ih =>
        intro h
        simp only [List.mem_cons, not_or] at h
        rw [List.takeWhile_cons, if_pos (by simpa using fun e => h.1 e.symm), ih h.2]
    exact gen _ hz
  refine ⟨{ s with rd := { rd with mem := mem } }, ?_, ?_, hn, rfl⟩
  · simp only [read, h1, Outcome.bind_ok, h2.opn, Bool.false_eq_true, if_false, hn, readHandshake, hw]
    rw [if_neg (by omega)]
    simp only [ht, htw, hh]
  · refine ⟨?_, h2.idx, h2.idxle, ht, h2.opn, h2.op, h2.st⟩
    show mem.length = Ws.bufSize
    rw [← hmem]
    simp only [List.length_append, List.length_take, List.length_drop, List.length_singleton]
    omega

theorem readReady_frames (eagain : Bool) (now : Nat) (ks : Nat → Tcp.Kernel) {s : State} {d : Ws.DecState} {B : Bytes} (size : Nat)
    (hr : Ws.Rel s.rd d B) (hsz : B.length ≤ size) (hf : Ws.Fine (Ws.decRun d B).1.st) :
    ∃ s', readReady eagain now ks s size = .ok (s', ((Ws.decRun d B).2.length : Int), (Ws.decRun d B).2) ∧
      Ws.Between s'.rd (Ws.decRun d B).1 ∧ s'.tcp = s.tcp ∧ s'.ready = s.ready := by
  have hr0 : Ws.Rel { s.rd with closed := false, sent := [] } d B := ⟨hr.mlen, hr.idx, hr.idxle, hr.buf, rfl, hr.op, hr.st⟩
  obtain ⟨s2, ret, k1, k2, k3, k4, k5, k6⟩ := Ws.readLoop_spec (List.replicate Ws.headerMinSize 0) eagain _ B rfl _ d size
    (size + 1) [] hr0 (by omega) hsz hf
  have k2' : s2.sent = [] := k2
  refine ⟨{ s with rd := { s2 with sent := [] }, mixed := s.mixed || false, pongs := s.pongs ++ [[]] }, ?_, ?_, rfl, rfl⟩
  · simp only [readReady, Ws.readReady, k1, Outcome.bind_ok, k2', sendAll, k5, hangUp, Bool.false_eq_true, if_false]
    rw [k3]; simp
  · simp only
    generalize Ws.decRun d B = r at *
    obtain ⟨⟨st, started⟩, out⟩ := r
    cases st with
    | outside => simp [Ws.Fine] at hf
    | hdr b => exact ⟨hf, k6.mlen, k6.idx, k6.idxle, k6.buf, k6.opn, k6.op, k6.st⟩
    | pay key i rem => exact ⟨k6.mlen, k6.idx, k6.idxle, k6.buf, k6.opn, k6.op, k6.st⟩

theorem read_frames (sha1 : Bytes → Bytes) (eagain : Bool) (now : Nat) (ks : Nat → Tcp.Kernel) {s : State} {d : Ws.DecState} (seg : Bytes)
    (size : Nat) (h : Ws.Between s.rd d) (hn : s.ready = true) (ho : s.tcp.closed = false) (hs : seg ≠ [])
    (hl : seg.length < Ws.bufSize) (hsz : Ws.bufSize ≤ size) (hf : Ws.Fine (Ws.decRun d seg).1.st) :
    ∃ s', read sha1 eagain now ks s (.data seg) size = .ok (s', ((Ws.decRun d seg).2.length : Int), (Ws.decRun d seg).2) ∧
      Ws.Between s'.rd (Ws.decRun d seg).1 ∧ s'.tcp = s.tcp ∧ s'.ready = true := by
  obtain ⟨a, d', ha, hrel, hdec⟩ : ∃ a d', a.length < 2 ∧ Ws.Rel s.rd d' a ∧ Ws.decRun d seg = Ws.decRun d' (a ++ seg) := by
    obtain ⟨st, started⟩ := d
    cases st with
    | outside => simp [Ws.Between] at h
    | hdr a =>
      simp only [Ws.Between] at h
      exact ⟨a, _, h.1, h.2, (Ws.decRun_carry started a seg h.1).symm⟩
    | pay key i rem => exact ⟨[], _, by simp, h, rfl⟩
  rw [hdec] at hf ⊢
  have hr0 : Ws.Rel { s.rd with closed := s.tcp.closed, sent := [] } d' a :=
    ⟨hrel.mlen, hrel.idx, hrel.idxle, hrel.buf, ho, hrel.op, hrel.st⟩
  obtain ⟨rd, h1, h2, h3⟩ := Ws.readIntoBuffer_rel hr0 seg hs (by omega)
  obtain ⟨s', k1, k2, k3, k4⟩ := readReady_frames eagain now ks (s := { s with rd := rd }) size h2 (by simp; omega) hf
  refine ⟨s', ?_, k2, k3, by rw [k4]; exact hn⟩
  simp only [hn] at k1
  simp only [read, h1, Outcome.bind_ok, h2.opn, Bool.false_eq_true, if_false, hn, if_true, k1]

/-- the reply is written or queued, unless the kernel says that the client is gone -/
theorem uncork_first (reply : Bytes) (k : Tcp.Kernel) (now : Nat) (hk : k ≠ .epipe) :
    ∃ t, tcpStep { cork := true } (.uncork reply) k now = .ok t ∧ t.closed = false ∧
      t.wire ++ t.queue.flatMap (Tcp.Req.bytesAt 0) = reply := by
  have h0 : retries (({ cork := true } : Tcp.State)).queue = false := rfl
  unfold tcpStep
  rw [h0, Bool.and_false, if_neg (by simp)]
  simp only [Tcp.step]
  rw [if_neg (by simp)]
  simp only [Tcp.flush, Bool.false_eq_true, if_false, Tcp.evalReqs, Tcp.iovMax, List.isEmpty_cons]
  cases k with
  | epipe => exact absurd rfl hk
  | again => exact ⟨_, rfl, rfl, by simp [Tcp.Req.bytesAt]⟩
  | error => exact ⟨_, rfl, rfl, by simp [Tcp.Req.bytesAt]⟩
  | sent n =>
    simp only [List.take_succ_cons, List.take_nil, List.flatMap_cons, List.flatMap_nil, List.append_nil, Tcp.Req.payload, Tcp.Req.payload?,
      Option.getD_some, List.length_cons, List.length_nil, Nat.zero_add, Tcp.drain, Tcp.react]
    by_cases hn : reply.length ≤ n
    · have e : min n reply.length = reply.length := by omega
      rw [e]
      simp
    · have e : min n reply.length = n := by omega
      rw [e]
      rw [if_neg (by omega)]
      have hneg : ¬ ((n : Int) - (reply.length : Int) = 0) := by omega
      have hle : (n : Int) - (reply.length : Int) ≤ 0 := by omega
      have hto : ((reply.length : Int) + ((n : Int) - reply.length)).toNat = n := by omega
      simp [hneg, hle, Tcp.Req.bytesAt, hto]

theorem read_done (sha1 : Bytes → Bytes) (eagain : Bool) (now : Nat) (ks : Nat → Tcp.Kernel) {s : State} {x : Bytes} (p : Bytes) (size : Nat)
    (n : Nat) (reply : Bytes)
    (hr : Ws.Rel s.rd {} x) (hn : s.ready = false) (ho : s.tcp = { cork := true }) (hp : p ≠ [])
    (hl : x.length + p.length < Ws.bufSize) (hsz : Ws.bufSize ≤ size) (hk : ks 0 ≠ .epipe)
    (hh : Http.handshake sha1 255 ((x ++ p).takeWhile (fun c => c != 0)) = some (.ok (some (n, reply)))) (hnl : n ≤ (x ++ p).length)
    (hf : Ws.Fine (Ws.decRun {} ((x ++ p).drop n)).1.st) :
    ∃ s' ret, read sha1 eagain now ks s (.data p) size = .ok (s', ret, (Ws.decRun {} ((x ++ p).drop n)).2) ∧
      Ws.Between s'.rd (Ws.decRun {} ((x ++ p).drop n)).1 ∧ s'.ready = true ∧ s'.tcp.closed = false ∧
      s'.tcp.wire ++ s'.tcp.queue.flatMap (Tcp.Req.bytesAt 0) = reply := by
  have hr0 : Ws.Rel { s.rd with closed := s.tcp.closed, sent := [] } {} x :=
    ⟨hr.mlen, hr.idx, hr.idxle, hr.buf, by rw [ho], hr.op, hr.st⟩
  obtain ⟨rd, h1, h2, _⟩ := Ws.readIntoBuffer_rel hr0 p hp (by omega)
  have hi : rd.idx = x.length + p.length := by rw [h2.idx]; simp
  have hm := h2.mlen
  have hw : writeAt rd.mem rd.idx [0] = .ok _ := writeAt_ok (by rw [h2.mlen]; simp only [List.length_singleton]; omega)
  generalize hmem : rd.mem.take rd.idx ++ [0] ++ rd.mem.drop (rd.idx + [0].length) = mem at hw
  have hml : mem.length = Ws.bufSize := by rw [← hmem]; simp; omega
  have ht : List.take rd.idx mem = x ++ p := by
    rw [← hmem, List.append_assoc, List.take_append_of_le_length (by simp; omega), List.take_take, Nat.min_self, h2.buf]
  obtain ⟨t, t1, t2, t3⟩ := uncork_first reply (ks 0) now hk
  have hxl : (x ++ p).length = rd.idx := by rw [hi]; simp
  have hra : readAt mem n (rd.idx - n) = .ok ((x ++ p).drop n) := by
    rw [readAt_ok (by omega), ← ht, List.drop_take]
  have hwa : writeAt mem 0 ((x ++ p).drop n) = .ok _ := writeAt_ok (by simp; omega)
  generalize hmem2 : mem.take 0 ++ (x ++ p).drop n ++ mem.drop (0 + ((x ++ p).drop n).length) = mem2 at hwa
  have hrel2 : Ws.Rel { rd with mem := mem2, idx := rd.idx - n } {} ((x ++ p).drop n) := by
    refine ⟨?_, by simp; omega, by simp only; omega, ?_, h2.opn, h2.op, h2.st⟩
    · rw [← hmem2]; simp; omega
    · rw [← hmem2]
      simp only [List.take_zero, List.nil_append]
      rw [List.take_append_of_le_length (by simp; omega), List.take_of_length_le (by simp; omega)]
  obtain ⟨s', k1, k2, k3, k4⟩ := readReady_frames eagain now (fun i => ks (i + 1))
    (s := { s with tcp := t, ready := true, rd := { rd with mem := mem2, idx := rd.idx - n } }) size hrel2 (by simp; omega) hf
  refine ⟨s', ((Ws.decRun {} ((x ++ p).drop n)).2.length : Int), ?_, k2, k4, by rw [k3]; exact t2, by rw [k3]; exact t3⟩
  simp only [h2.opn] at k1
  simp only [read, h1, Outcome.bind_ok, h2.opn, Bool.false_eq_true, if_false, hn, readHandshake, hw]
  rw [if_neg (by omega)]
  simp only [ht, hh, ho, t1, Outcome.bind_ok, hra, hwa, k1]

end Verif.WsStream
