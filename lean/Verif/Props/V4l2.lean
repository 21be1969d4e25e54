import Verif.Lemmas.V4l2

/-! # C84 to C88: the hardware H.264 encoder -/

namespace Verif.V4l2

/-! ## C84: framebuffers given to the device -/

/-- Whatever the device reads stays held, as often as the device reads it. -/
theorem c84_read_is_held (os : List Op) (s : State) (e : run os {} = .ok s) (fb : Nat) :
    s.reading.count fb ≤ s.held.count fb := by
  have h := run_inv os _ _ init_inv e
  rw [h.held.count_eq]
  exact reading_count fb s.queued s.src (List.nodup_append.mp h.nodup).1 h.reads

/-- Each time a framebuffer was given to the device it is either still held or was released once; and the
descriptors made for the device are distinct, open, and as many as the holds. -/
theorem c84_balanced (os : List Op) (s : State) (e : run os {} = .ok s) :
    (∀ fb, s.fed.count fb = s.released.count fb + s.held.count fb) ∧
      s.fds.Nodup ∧ s.fds.length = s.held.length ∧ s.held.length = s.queued.length + s.finished.length := by
  have h := run_inv os _ _ init_inv e
  have hcount : ∀ (l : List Src), (∀ b ∈ l, b = {} ∨ ∃ fb fd, b = ⟨true, some fb, some fd⟩) →
      (l.filterMap Src.fd).length = (l.filter (·.taken)).length ∧
        (l.filterMap Src.fb).length = (l.filter (·.taken)).length := by
    intro l
    induction l with
    | nil => intro _; exact ⟨rfl, rfl⟩
    | cons b l ih =>
      intro hs
      have ih := ih fun c hc => hs c (by simp [hc])
      rcases hs b (by simp) with rfl | ⟨x, y, rfl⟩
      · simpa [List.filterMap_cons] using ih
      · simpa [List.filterMap_cons] using ih
  have hq : s.queued.length + s.finished.length = (s.src.filter (·.taken)).length := by
    have hp : (s.queued.map Prod.fst ++ s.finished).Perm
        ((List.range s.src.length).filter fun i => (s.src.getD i {}).taken) := by
      rw [List.perm_ext_iff_of_nodup h.nodup (List.nodup_range.sublist List.filter_sublist)]
      intro i
      rw [h.dev i, List.mem_filter, List.mem_range]
      constructor
      · rintro ⟨b, hb, ht⟩
        have hl : i < s.src.length := by
          rcases Nat.lt_or_ge i s.src.length with hl | hl
          · exact hl
          · rw [List.getElem?_eq_none hl] at hb
            cases hb
        exact ⟨hl, by simp [List.getD, hb, ht]⟩
      · rintro ⟨hl, ht⟩
        refine ⟨_, List.getElem?_eq_getElem hl, ?_⟩
        simpa [List.getD, List.getElem?_eq_getElem hl] using ht
    have := hp.length_eq
    rw [List.length_append, List.length_map] at this
    rw [this]
    obtain ⟨a, b, c, hsrc⟩ := list3 _ h.len
    rw [hsrc]
    obtain ⟨ta, fa, da⟩ := a
    obtain ⟨tb, fb, db⟩ := b
    obtain ⟨tc, fc, dc⟩ := c
    cases ta <;> cases tb <;> cases tc <;> rfl
  obtain ⟨h1, h2⟩ := hcount s.src h.shape
  refine ⟨fun fb => ?_, h.fnodup, ?_, ?_⟩
  · rw [h.fed.count_eq, List.count_append]
  · rw [h.fds.length_eq, h.held.length_eq, h1, h2]
  · rw [h.held.length_eq, h2, hq]

/-- Using the encoder never fails an assertion, never writes outside an array, never releases a framebuffer
that is not held and never closes a descriptor that is not open, as long as the device accepts what it is given
and no framebuffer has more than four planes. -/
theorem c84_no_crash (os : List Op) (ho : ∀ o ∈ os, o.Sound) : ∃ s, run os {} = .ok s := by
  obtain ⟨s, e, -⟩ := run_sound os {} init_inv ho
  exact ⟨s, e⟩

/-- Once the encoder is gone, everything it was given has been released, and no descriptor is left. -/
theorem c84_destroyed (os : List Op) (s : State) (e : run os {} = .ok s) (hd : s.dead = true) :
    s.held = [] ∧ s.fds = [] ∧ s.released.Perm s.fed := by
  have h := run_inv os _ _ init_inv e
  have hall := h.dead hd
  have n1 : s.src.filterMap Src.fb = [] := by
    rw [List.filterMap_eq_nil_iff]
    intro b hb
    rw [hall b hb]
  have n2 : s.src.filterMap Src.fd = [] := by
    rw [List.filterMap_eq_nil_iff]
    intro b hb
    rw [hall b hb]
  have hh : s.held = [] := by
    have := h.held
    rw [n1] at this
    exact this.eq_nil
  refine ⟨hh, ?_, ?_⟩
  · have := h.fds
    rw [n2] at this
    exact this.eq_nil
  · have := h.fed
    rw [hh, List.append_nil] at this
    exact this.symm

/-- The encoder can be torn down exactly when the device reads nothing any more: until then `destroy` blocks. -/
theorem c84_destroy_waits (os : List Op) (s : State) (e : run os {} = .ok s) (hd : s.dead = false) :
    ∃ t, step .destroy s = .ok t ∧ (t.dead = true ↔ s.reading = []) := by
  have h := run_inv os _ _ init_inv e
  obtain ⟨t, et, -, -, -, -, hk⟩ := destroy_inv h
  refine ⟨t, et, ?_⟩
  rw [hk hd, State.reading]
  simp

/-- two frames from the same framebuffer and one from another, out-of-order completion, and the end -/
def sample : List Op :=
  [.feed 7 10 1 true, .keyframe, .feed 7 20 1 true, .finish 1, .packet 20, .feed 8 30 1 true, .event]

example : (match run sample {} with
    | .ok s => some (s.held, s.reading, s.released, s.fds)
    | _ => none) = some ([7, 8], [7, 8], [7], [3, 5]) := by decide +kernel

example : (match run (sample ++ [.finish 0, .finish 2, .destroy]) {} with
    | .ok s => some (s.held, s.dead, s.released, s.fds)
    | _ => none) = some ([], true, [7, 7, 8], []) := by decide +kernel

example : ∀ o ∈ sample, o.Sound := by
  intro o ho
  simp only [sample, List.mem_cons, List.not_mem_nil, or_false] at ho
  rcases ho with rfl | rfl | rfl | rfl | rfl | rfl | rfl <;> simp [Op.Sound]

/-! ## C85: frames fed are encoded -/

/-- A frame is given to the device, after all earlier ones, unless the device still reads three. -/
theorem c85_fed_partial (os : List Op) (s : State) (e : run os {} = .ok s) (hd : s.dead = false)
    (hr : s.reading.length < 3) (fb pts planes : Nat) (hp : planes ≤ 4) :
    ∃ t, step (.feed fb pts planes true) s = .ok t ∧ t.coded = s.coded ++ [(fb, pts, s.key)] ∧
      t.reading = s.reading ++ [fb] ∧ t.dropped = s.dropped := by
  have h := run_inv os _ _ init_inv e
  obtain ⟨t, u, -, hk, -, e', -, hc⟩ := feed_inv (fb := fb) (pts := pts) h hd hp
  have hl : s.queued.length < 3 := by simpa [State.reading] using hr
  refine ⟨u, e', ?_⟩
  rcases hc with ⟨-, hg⟩ | ⟨hc, -⟩
  · obtain ⟨g1, -, -, g4, g5, -⟩ := hg
    refine ⟨?_, ?_, ?_⟩
    · rw [g1, hk.coded, hk.key]
    · rw [g4, State.reading, State.reading, hk.queued]
    · rw [g5, hk.dropped]
  · omega

/-- While the device reads three frames, feeding another is refused: it is never given to the device, and
nothing will be passed to `on_packet_ready` for it.  This holds in every state of the encoder, and such a state can be
reached by feeding three frames. -/
theorem c85_dropped_violated :
    (∀ os s, run os {} = .ok s → s.dead = false → s.reading.length = 3 → ∀ fb pts planes, planes ≤ 4 →
      ∃ t, step (.feed fb pts planes true) s = .ok t ∧ t.coded = s.coded ∧ t.dropped = s.dropped ++ [fb] ∧
        t.ready = s.ready ∧ t.delivered = s.delivered) ∧
      ∃ s, run [.feed 1 10 1 true, .feed 2 20 1 true, .feed 3 30 1 true] {} = .ok s ∧ s.dead = false ∧
        s.reading.length = 3 := by
  constructor
  · intro os s e hd hr fb pts planes hp
    have h := run_inv os _ _ init_inv e
    obtain ⟨t, u, -, hk, -, e', -, hc⟩ := feed_inv (fb := fb) (pts := pts) h hd hp
    have hl : s.queued.length = 3 := by simpa [State.reading] using hr
    refine ⟨u, e', ?_⟩
    rcases hc with ⟨hc, -⟩ | ⟨-, rfl⟩
    · omega
    · exact ⟨hk.coded, by dsimp only; rw [hk.dropped], hk.ready, hk.delivered⟩
  · exact ⟨_, rfl, rfl, rfl⟩

/-- every step either leaves the list of coded frames alone and keeps a pending key-frame request, or appends one
frame, forced to be a key frame if that was requested -/
theorem step_coded {o : Op} {s t : State} (h : Inv s) (e : step o s = .ok t) :
    (t.coded = s.coded ∧ (s.key = true → t.key = true)) ∨ ∃ fb pts, t.coded = s.coded ++ [(fb, pts, s.key)] := by
  have idle : o.Idle → t.coded = s.coded ∧ (s.key = true → t.key = true) := by
    intro ho
    obtain ⟨u, e', -, -, -, hc, -, -, -, hk⟩ := idle_inv h ho
    rw [e] at e'
    cases e'
    exact ⟨hc, hk⟩
  cases o with
  | feed fb pts planes ok =>
    cases hd : s.dead with
    | true =>
      rw [step, hd] at e
      cases e
      exact .inl ⟨rfl, id⟩
    | false =>
      obtain ⟨t', e1, ht, hk⟩ := processSrc_inv h
      have e2 := e
      rw [step, hd] at e2
      simp only [feed, e1, Bool.false_eq_true, if_false] at e2
      rcases encode_ok e2 with rfl | ⟨hp, rfl⟩
      · exact .inl ⟨hk.coded, fun hs => by dsimp only; rw [hk.key]; exact hs⟩
      · obtain ⟨t'', u, e3, hk', -, e', -, hc⟩ := feed_inv (fb := fb) (pts := pts) h hd hp
        rw [e] at e'
        cases e'
        rcases hc with ⟨-, hg⟩ | ⟨-, rfl⟩
        · refine .inr ⟨fb, pts, ?_⟩
          rw [hg.1, hk'.coded, hk'.key]
        · exact .inl ⟨hk'.coded, fun hs => by dsimp only; rw [hk'.key]; exact hs⟩
  | destroy =>
    obtain ⟨u, e', -, hc, -, hk, -⟩ := destroy_inv h
    rw [e] at e'
    cases e'
    exact .inl ⟨hc, fun hs => by rw [hk]; exact hs⟩
  | keyframe => exact .inl (idle trivial)
  | event => exact .inl (idle trivial)
  | finish i => exact .inl (idle trivial)
  | packet p => exact .inl (idle trivial)

theorem run_coded : ∀ (os : List Op) (s t : State), Inv s → run os s = .ok t → s.coded <+: t.coded
  | [], s, t, _, e => by cases e; exact List.prefix_refl _
  | o :: os, s, t, h, e => by
    rw [run] at e
    cases hs : step o s with
    | ok u =>
      rw [hs] at e
      have ih := run_coded os u t (step_ok h hs) e
      rcases step_coded h hs with ⟨hc, -⟩ | ⟨fb, pts, hc⟩
      · rw [hc] at ih
        exact ih
      · exact (hc ▸ List.prefix_append _ _ : s.coded <+: u.coded).trans ih
    | ub w => rw [hs] at e; cases e
    | abort w => rw [hs] at e; cases e

theorem run_key : ∀ (os : List Op) (s t : State), Inv s → s.key = true → run os s = .ok t →
    s.coded.length < t.coded.length → ∃ fb pts, t.coded[s.coded.length]? = some (fb, pts, true)
  | [], s, t, _, _, e, hl => by cases e; omega
  | o :: os, s, t, h, hk, e, hl => by
    rw [run] at e
    cases hs : step o s with
    | ok u =>
      rw [hs] at e
      have hu := step_ok h hs
      rcases step_coded h hs with ⟨hc, hk'⟩ | ⟨fb, pts, hc⟩
      · have ih := run_key os u t hu (hk' hk) e (by rw [hc]; exact hl)
        rw [hc] at ih
        exact ih
      · refine ⟨fb, pts, ?_⟩
        obtain ⟨r, hr⟩ := run_coded os u t hu e
        rw [← hr, hc, List.append_assoc, List.getElem?_append_right (Nat.le_refl _), Nat.sub_self, hk]
        rfl
    | ub w => rw [hs] at e; cases e
    | abort w => rw [hs] at e; cases e

/-- A request for a key frame is not lost, even when frames are dropped in between: the next frame given to the
device is forced to be a key frame. -/
theorem c85_keyframe (os ps : List Op) (s t : State) (e : run os {} = .ok s) (hd : s.dead = false)
    (e' : run (.keyframe :: ps) s = .ok t) (hl : s.coded.length < t.coded.length) :
    ∃ fb pts, t.coded[s.coded.length]? = some (fb, pts, true) := by
  have h := run_inv os _ _ init_inv e
  have hs : step .keyframe s = .ok { s with key := true } := by
    rw [step, hd]
    rfl
  have hi := step_ok h hs
  rw [run, hs] at e'
  exact run_key ps { s with key := true } t hi rfl e' hl

example : (match run [.feed 1 10 1 true, .feed 2 20 1 true, .feed 3 30 1 true, .keyframe, .feed 4 40 1 true, .finish 0,
      .feed 5 50 1 true] {} with
    | .ok s => some (s.coded, s.dropped)
    | _ => none) = some ([(1, 10, false), (2, 20, false), (3, 30, false), (5, 50, true)], [4]) := by decide +kernel

/-! ## C86: packets -/

/-- Every packet the device wrote is passed on once, in the order in which the device wrote them, and the device has
every buffer back that holds no packet. -/
theorem c86_packets (os : List Op) (s : State) (e : run os {} = .ok s) :
    s.emitted = s.delivered ++ s.ready ∧ s.dstFree + s.ready.length = 3 := by
  have h := run_inv os _ _ init_inv e
  exact ⟨h.pk, h.dst⟩

/-- When there are packets, an event passes on the first. -/
theorem c86_event (os : List Op) (s : State) (e : run os {} = .ok s) (hd : s.dead = false) (p : Nat) (l : List Nat)
    (hr : s.ready = p :: l) :
    ∃ t, step .event s = .ok t ∧ t.delivered = s.delivered ++ [p] ∧ t.ready = l ∧ t.emitted = s.emitted := by
  refine ⟨processDst s, by rw [step, hd]; rfl, ?_⟩
  rw [processDst, hr]
  exact ⟨rfl, rfl, rfl⟩

example : (match run (sample ++ [.packet 10, .packet 30]) {} with
    | .ok s => some (s.emitted, s.delivered, s.ready, s.dstFree)
    | _ => none) = some ([20, 10, 30], [20], [10, 30], 1) := by decide +kernel

/-! ## C87: framebuffers come back when the device is done -/

/-- The next frame fed, or the end of the encoder, releases whatever the device has finished. -/
theorem c87_next_feed_partial (os : List Op) (s : State) (e : run os {} = .ok s) (hd : s.dead = false)
    (fb pts planes : Nat) (hp : planes ≤ 4) :
    ∃ t, step (.feed fb pts planes true) s = .ok t ∧ t.finished = [] ∧ t.held.length = t.reading.length := by
  have h := run_inv os _ _ init_inv e
  obtain ⟨t, u, -, hk, ht, e', hu, hc⟩ := feed_inv (fb := fb) (pts := pts) h hd hp
  have hbal := c84_balanced (os ++ [.feed fb pts planes true]) u (by rw [run_append, e]; simp only [run, e'])
  have hf : u.finished = [] := by
    obtain ⟨u', e1, -⟩ := step_inv (o := .feed fb pts planes true) h ⟨hp, rfl⟩
    have hft : t.finished = [] := hk.finished
    have e2 := e'
    rw [step, hd] at e2
    obtain ⟨t1, e3, -, hk1⟩ := processSrc_inv h
    have hft1 : t1.finished = [] := hk1.finished
    simp only [feed, e3, Bool.false_eq_true, if_false, encode] at e2
    cases htk : take t1 with
    | none =>
      rw [htk] at e2
      cases e2
      exact hft1
    | some q =>
      obtain ⟨b, v⟩ := q
      have hv : v.finished = t1.finished := by
        rw [take] at htk
        split at htk
        split at htk
        · cases htk
        · cases htk
          rfl
      rw [htk] at e2
      dsimp only at e2
      split at e2
      · cases e2
      · split at e2
        · cases e2
        · cases e2
          dsimp only
          rw [hv, hft1]
  refine ⟨u, e', hf, ?_⟩
  rw [hbal.2.2.2, hf, State.reading]
  simp

/-- As long as no other frame is fed and the encoder is kept, no framebuffer is ever released, whatever the device
finishes: the application does not get its buffer back. -/
theorem c87_idle_violated (os : List Op) (s : State) (e : run os {} = .ok s) :
    ∀ (ps : List Op), (∀ o ∈ ps, o.Idle) →
      ∃ t, run ps s = .ok t ∧ t.held = s.held ∧ t.released = s.released ∧ t.fds = s.fds := by
  have h := run_inv os _ _ init_inv e
  clear e
  intro ps
  induction ps generalizing s with
  | nil => intro _; exact ⟨s, rfl, rfl, rfl, rfl⟩
  | cons o ps ih =>
    intro ho
    obtain ⟨u, e', hu, k1, k2, -, -, k3, -, -⟩ := idle_inv h (ho o (by simp))
    obtain ⟨t, et, t1, t2, t3⟩ := ih u hu fun p hp => ho p (by simp [hp])
    exact ⟨t, by rw [run, e']; exact et, t1.trans k1, t2.trans k2, t3.trans k3⟩

example : (match run [.feed 7 10 1 true, .finish 0, .packet 10, .event, .event] {} with
    | .ok s => some (s.held, s.reading, s.delivered)
    | _ => none) = some ([7], [], [10]) := by decide +kernel

/-! ## C88: setting the device up -/

/-- With at most 256 formats and exactly three destination buffers, setting up stays within its arrays and fails no
assertion, and the format asked of the device is one that it has.  One is asked for whenever the device has one of those that
the code takes for the framebuffers' format. -/
theorem c88_setup_partial (enum : List Nat) (h : enum.length ≤ 256) (drm : Nat) :
    (∃ known, supportedFormats enum = .ok known ∧
      (formatFromDrm known drm ≠ 0 → formatFromDrm known drm ∈ enum) ∧
      (formatFromDrm known drm ≠ 0 ↔ ∃ a p, drmBytes drm = some a ∧ v4l2Bytes p = some a.reverse ∧ p ∈ enum)) ∧
      allocDst 3 = .ok 3 ∧ enqueueDst 3 = .ok () := by
  refine ⟨⟨_, by rw [supportedFormats, if_neg (by omega)], fun h => mem_sort.mp (formatFromDrm_mem h), ?_⟩, rfl, rfl⟩
  rw [formatFromDrm_zero (sort_sorted enum)]
  simp only [mem_sort]

example : formatFromDrm (sort [Pix.rgb32, Pix.bgr32]) Drm.argb8888 = Pix.rgb32 := by decide +kernel

/-- A device with more formats than 256 makes the encoder write past its array. -/
theorem c88_formats_violated (enum : List Nat) (h : 256 < enum.length) : ∃ w, supportedFormats enum = .ub w :=
  ⟨_, by rw [supportedFormats, if_pos h]⟩

/-- A driver may grant more buffers than asked for, or fewer: the former makes the encoder write past its array,
the latter fails an assertion. -/
theorem c88_buffers_violated :
    (∀ n, 3 < n → ∃ w, allocDst n = .ub w) ∧ ∀ n, n < 3 → allocDst n = .ok n ∧ ∃ w, enqueueDst n = .abort w := by
  refine ⟨fun n h => ⟨_, if_pos h⟩, fun n h => ⟨if_neg ?_, _, if_pos h⟩⟩
  simp only [nDst]
  omega

/-- A framebuffer of more than four planes makes the encoder write past its array. -/
theorem c88_planes_violated : ∃ w, run [.feed 1 0 5 true] {} = .ub w := ⟨_, rfl⟩

/-- Whatever the device supports, if a format is chosen then its bytes are those of the framebuffer's format in reverse:
the device reads red for blue or takes the padding for a colour. -/
theorem c88_byte_order_violated (known : List Nat) (drm : Nat) (h : formatFromDrm known drm ≠ 0) :
    ∃ a b, drmBytes drm = some a ∧ v4l2Bytes (formatFromDrm known drm) = some b ∧ b = a.reverse ∧ b ≠ a := by
  have ht : ∀ (l : List Nat), tryFormats known l ≠ 0 → tryFormats known l ∈ l := by
    intro l
    induction l with
    | nil => intro h; exact absurd rfl h
    | cons f l ih =>
      rw [tryFormats]
      split
      · intro _; simp
      · intro h; exact List.mem_cons_of_mem _ (ih h)
  rw [formatFromDrm] at h ⊢
  split at h
  next hd =>
    rw [if_pos hd]
    have hm := ht _ h
    generalize tryFormats known _ = f at hm
    simp only [List.mem_cons, List.not_mem_nil, or_false] at hm
    rcases hd with rfl | rfl <;> rcases hm with rfl | rfl <;> exact ⟨_, _, rfl, rfl, rfl, by decide⟩
  next hd =>
    rw [if_neg hd]
    split at h
    next hd' =>
      rw [if_pos hd']
      have hm := ht _ h
      generalize tryFormats known _ = f at hm
      simp only [List.mem_cons, List.not_mem_nil, or_false] at hm
      rcases hd' with rfl | rfl <;> rcases hm with rfl | rfl | rfl <;> exact ⟨_, _, rfl, rfl, rfl, by decide⟩
    next hd' =>
      rw [if_neg hd']
      split at h
      next h3 =>
        rw [if_pos h3]
        have hm := ht _ h
        generalize tryFormats known _ = f at hm
        simp only [List.mem_cons, List.not_mem_nil, or_false] at hm
        rcases h3 with rfl | rfl <;> rcases hm with rfl | rfl | rfl <;> exact ⟨_, _, rfl, rfl, rfl, by decide⟩
      next h3 =>
        rw [if_neg h3]
        split at h
        next h4 =>
          rw [if_pos h4]
          have hm := ht _ h
          generalize tryFormats known _ = f at hm
          simp only [List.mem_cons, List.not_mem_nil, or_false] at hm
          rcases h4 with rfl | rfl <;> rcases hm with rfl | rfl <;> exact ⟨_, _, rfl, rfl, rfl, by decide⟩
        · exact absurd rfl h

/-- what the device would have to be told for the usual format of a desktop, and what it is told -/
example : drmBytes Drm.xrgb8888 = some [.b, .g, .r, .x] ∧
    v4l2Bytes (formatFromDrm (sort [Pix.xrgb32, Pix.xbgr32]) Drm.xrgb8888) = some [.x, .r, .g, .b] ∧
    v4l2Bytes Pix.xbgr32 = some [.b, .g, .r, .x] := by decide +kernel

end Verif.V4l2
