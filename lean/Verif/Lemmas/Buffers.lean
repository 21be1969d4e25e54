import Verif.Spec.Buffers

/-!
# Invariant of frame buffers and the pool
-/

namespace Verif.Buffers

/-- `r`: references from outside the pool, `h`: holds, `n`: references to the pool -/
structure Inv (s : St) (r h : Nat → Nat) (outs : List Nat) (n : Nat) : Prop where
  ref : ∀ i, (s.fb i).ref = ((r i + s.pool.queue.count i : Nat) : Int)
  hold : ∀ i, (s.fb i).hold = (h i : Int)
  live : ∀ i, (s.fb i).live = decide (0 < r i + s.pool.queue.count i)
  le : ∀ i, h i ≤ r i
  new : ∀ i, s.next ≤ i → r i = 0 ∧ i ∉ s.pool.queue ∧ i ∉ outs
  pref : s.pool.ref = (n : Int)
  plive : s.pool.live = decide (0 < n)
  len : outs.length ≤ n
  dead : s.pool.live = false → s.pool.queue = []
  nodup : outs.Nodup
  qnodup : s.pool.queue.Nodup
  out : ∀ i ∈ outs, (s.fb i).pooled = true ∧ i ∉ s.pool.queue
  used : ∀ i, (s.fb i).pooled = true → 0 < h i → i ∈ outs
  q : ∀ i ∈ s.pool.queue, (s.fb i).pooled = true ∧ (s.fb i).dims = s.pool.dims ∧ h i = 0
  freed : ∀ i, s.log.count (.freed i) = if i < s.next ∧ (s.fb i).live = false then 1 else 0
  pfreed : s.log.count .poolFreed = if s.pool.live then 0 else 1
  cb : callbacks none s.log
  logged : ∀ i, held s.log i = (h i : Int)

/-- what the primitives leave alone -/
structure Same (s t : St) : Prop where
  display : t.display = s.display
  cursor : t.cursor = s.cursor
  jobs : t.jobs = s.jobs
  pooled : ∀ i, (t.fb i).pooled = (s.fb i).pooled
  dims : ∀ i, (t.fb i).dims = (s.fb i).dims

theorem Same.rfl (s : St) : Same s s := ⟨.refl _, .refl _, .refl _, fun _ => .refl _, fun _ => .refl _⟩

theorem Same.trans {s t u : St} (a : Same s t) (b : Same t u) : Same s u :=
  ⟨b.display.trans a.display, b.cursor.trans a.cursor, b.jobs.trans a.jobs,
    fun i => (b.pooled i).trans (a.pooled i), fun i => (b.dims i).trans (a.dims i)⟩

theorem setFb_fb (s : St) (i j : Nat) (f : Fb) : (s.setFb i f).fb j = if j = i then f else s.fb j := .refl _

theorem start_inv (d : Dims) : Inv (start d) (fun _ => 0) (fun _ => 0) [] 1 := by
  constructor <;> simp [start, noFb, callbacks, held]

/-! ## The log -/

theorem callbacks_next {l : List Ev} {e : Ev} (h : callbacks none l) (he : ∀ i, e ≠ .released i) :
    callbacks (some e) l := by
  cases l with
  | nil => trivial
  | cons a l =>
    cases a with
    | release i =>
      simp only [callbacks] at h ⊢
      refine ⟨⟨fun z => ?_, fun z => ?_⟩, h.2⟩
      · exact absurd (h.1.mp z) (by simp)
      · exact absurd (Option.some.inj z) (he i)
    | _ => simpa only [callbacks] using h

theorem callbacks_cons {l : List Ev} {e : Ev} (h : callbacks none l)
    (he : ∀ i, e ≠ .released i ∧ e ≠ .release i) : callbacks none (e :: l) := by
  have := callbacks_next h (fun i => (he i).1)
  cases e with
  | release i => exact absurd rfl (he i).2
  | released i => exact absurd rfl (he i).1
  | _ => simpa only [callbacks] using this

theorem held_cons (l : List Ev) (e : Ev) (i : Nat) : held (e :: l) i =
    held l i + (if e = .hold i then 1 else 0) - (if e = .release i then 1 else 0) := by
  unfold held
  rw [List.count_cons, List.count_cons]
  by_cases h1 : e = .hold i
  · subst h1; simp; omega
  · by_cases h2 : e = .release i
    · subst h2; simp; omega
    · rw [if_neg (by simpa using h1), if_neg (by simpa using h2), if_neg h1, if_neg h2]; omega

/-! ## References and holds -/

theorem Inv.live_of {s : St} {r h : Nat → Nat} {outs : List Nat} {n i : Nat}
    (v : Inv s r h outs n) (hr : 0 < r i) : (s.fb i).live = true := by
  rw [v.live i]; exact decide_eq_true (by omega)

theorem Inv.lt_next {s : St} {r h : Nat → Nat} {outs : List Nat} {n i : Nat}
    (v : Inv s r h outs n) (hr : 0 < r i) : i < s.next := by
  rcases Nat.lt_or_ge i s.next with c | c
  · exact c
  · have := (v.new i c).1; omega

/-- a change to one buffer -/
theorem Inv.change {s t : St} {r h r' h' : Nat → Nat} {outs : List Nat} {n i : Nat} {f : Fb}
    (v : Inv s r h outs n) (ht : t.fb = fun j => if j = i then f else s.fb j)
    (hpool : t.pool = s.pool) (hnext : t.next = s.next) (hi : i < s.next)
    (hr : ∀ j, j ≠ i → r' j = r j) (hh : ∀ j, j ≠ i → h' j = h j)
    (h1 : f.ref = ((r' i + s.pool.queue.count i : Nat) : Int)) (h2 : f.hold = (h' i : Int))
    (h3 : f.live = decide (0 < r' i + s.pool.queue.count i)) (h4 : h' i ≤ r' i)
    (h5 : f.pooled = (s.fb i).pooled) (h6 : f.dims = (s.fb i).dims)
    (h7 : f.pooled = true → 0 < h' i → i ∈ outs) (h8 : i ∈ s.pool.queue → h' i = 0)
    (h9 : ∀ j, t.log.count (.freed j) = if j < s.next ∧ (t.fb j).live = false then 1 else 0)
    (h10 : t.log.count .poolFreed = s.log.count .poolFreed) (h11 : callbacks none t.log)
    (h12 : ∀ j, held t.log j = (h' j : Int)) : Inv t r' h' outs n := by
  have hne : ∀ j, j ≠ i → t.fb j = s.fb j := by intro j hj; rw [ht]; exact if_neg hj
  have heq : t.fb i = f := by rw [ht]; exact if_pos rfl
  refine ⟨?_, ?_, ?_, ?_, ?_, hpool ▸ v.pref, hpool ▸ v.plive, v.len, hpool ▸ v.dead,
    v.nodup, hpool ▸ v.qnodup, ?_, ?_, ?_, ?_, ?_, h11, h12⟩
  · intro j
    rw [hpool]
    by_cases e : j = i
    · subst e; rw [heq]; exact h1
    · rw [hne j e, hr j e]; exact v.ref j
  · intro j
    by_cases e : j = i
    · subst e; rw [heq]; exact h2
    · rw [hne j e, hh j e]; exact v.hold j
  · intro j
    rw [hpool]
    by_cases e : j = i
    · subst e; rw [heq]; exact h3
    · rw [hne j e, hr j e]; exact v.live j
  · intro j
    by_cases e : j = i
    · subst e; exact h4
    · rw [hh j e, hr j e]; exact v.le j
  · intro j hj
    rw [hnext] at hj
    rw [hpool, hr j (by omega)]
    exact v.new j hj
  · intro j hj
    rw [hpool]
    have := v.out j hj
    by_cases e : j = i
    · subst e; rw [heq, h5]; exact this
    · rw [hne j e]; exact this
  · intro j
    by_cases e : j = i
    · subst e; rw [heq]; exact h7
    · rw [hne j e, hh j e]; exact v.used j
  · intro j hj
    rw [hpool] at hj ⊢
    have := v.q j hj
    by_cases e : j = i
    · subst e; rw [heq, h5, h6]; exact ⟨this.1, this.2.1, h8 hj⟩
    · rw [hne j e, hh j e]; exact this
  · rw [hnext]; exact h9
  · rw [h10, hpool]; exact v.pfreed

theorem same_setFb (s : St) (i : Nat) (f : Fb) (h1 : f.pooled = (s.fb i).pooled)
    (h2 : f.dims = (s.fb i).dims) : Same s (s.setFb i f) := by
  refine ⟨.refl _, .refl _, .refl _, ?_, ?_⟩
  · intro j; rw [setFb_fb]; split
    · rename_i e; subst e; exact h1
    · rfl
  · intro j; rw [setFb_fb]; split
    · rename_i e; subst e; exact h2
    · rfl

theorem Same.say {s t : St} (h : Same s t) (e : Ev) : Same s (t.say e) :=
  ⟨h.display, h.cursor, h.jobs, h.pooled, h.dims⟩

theorem add_same (f : Nat → Nat) (i : Nat) : add f i i = f i + 1 := if_pos rfl
theorem add_ne (f : Nat → Nat) {i j : Nat} (h : j ≠ i) : add f i j = f j := if_neg h
theorem sub_same (f : Nat → Nat) (i : Nat) : sub f i i = f i - 1 := if_pos rfl
theorem sub_ne (f : Nat → Nat) {i j : Nat} (h : j ≠ i) : sub f i j = f j := if_neg h

theorem fbRef_inv {s : St} {r h : Nat → Nat} {outs : List Nat} {n i : Nat}
    (v : Inv s r h outs n) (hl : (s.fb i).live = true) :
    ∃ t, fbRef i s = .ok t ∧ Inv t (add r i) h outs n ∧ Same s t ∧ t.pool = s.pool ∧
      t.next = s.next := by
  have hi : i < s.next := by
    rcases Nat.lt_or_ge i s.next with c | c
    · exact c
    · have := v.new i c
      rw [v.live i, this.1, List.count_eq_zero_of_not_mem this.2.1] at hl
      simp at hl
  refine ⟨s.setFb i { s.fb i with ref := (s.fb i).ref + 1 }, by unfold fbRef; rw [if_pos hl],
    ?_, same_setFb _ _ _ rfl rfl, .refl _, .refl _⟩
  refine v.change (i := i) rfl rfl rfl hi (fun j hj => add_ne r hj) (fun _ _ => rfl) ?_
    (v.hold i) ?_ ?_ rfl rfl (v.used i) (fun c => (v.q i c).2.2) ?_ rfl v.cb v.logged
  · have := v.ref i
    rw [add_same]
    simp only
    omega
  · rw [add_same]
    exact hl.trans (decide_eq_true (by omega)).symm
  · have := v.le i
    rw [add_same]
    omega
  · intro j
    rw [setFb_fb]
    split
    · rename_i e; subst e; exact v.freed j
    · exact v.freed j

theorem fbUnref_inv {s : St} {r h : Nat → Nat} {outs : List Nat} {n i : Nat}
    (v : Inv s r h outs n) (hr : h i < r i) :
    ∃ t, fbUnref i s = .ok t ∧ Inv t (sub r i) h outs n ∧ Same s t ∧ t.pool = s.pool ∧
      t.next = s.next := by
  have hl := v.live_of (by omega : 0 < r i)
  have hi := v.lt_next (by omega : 0 < r i)
  have href := v.ref i
  unfold fbUnref
  rw [if_pos hl]
  split
  · rename_i hz
    refine ⟨_, rfl, ?_, Same.say (same_setFb s i _ (by rfl) (by rfl)) _, .refl _, .refl _⟩
    refine v.change (i := i) rfl rfl rfl hi (fun j hj => sub_ne r hj) (fun _ _ => rfl) ?_
      (v.hold i) ?_ ?_ rfl rfl (v.used i) (fun c => (v.q i c).2.2) ?_ ?_ ?_ ?_
    · rw [sub_same]
      simp only
      omega
    · rw [sub_same]
      exact (decide_eq_false (by omega)).symm
    · rw [sub_same]
      omega
    · intro j
      have := v.freed j
      show List.count (Ev.freed j) (.freed i :: s.log) =
        if j < s.next ∧ ((s.setFb i _).fb j).live = false then 1 else 0
      rw [setFb_fb, List.count_cons]
      by_cases e : j = i
      · subst e
        rw [hl] at this
        simp only [Bool.true_eq_false, and_false, if_false] at this
        rw [this, if_pos (c := j = j) rfl, if_pos (c := _ ∧ _) ⟨hi, rfl⟩]
        simp
      · rw [if_neg e, if_neg (by simpa using fun c : i = j => e c.symm)]
        exact this
    · show List.count Ev.poolFreed (.freed i :: s.log) = _
      rw [List.count_cons]
      simp
    · exact callbacks_cons v.cb (by simp)
    · intro j
      show held (.freed i :: s.log) j = _
      rw [held_cons]
      simpa using v.logged j
  · rename_i hz
    refine ⟨_, rfl, ?_, same_setFb _ _ _ rfl rfl, .refl _, .refl _⟩
    refine v.change (i := i) rfl rfl rfl hi (fun j hj => sub_ne r hj) (fun _ _ => rfl) ?_
      (v.hold i) ?_ ?_ rfl rfl (v.used i) (fun c => (v.q i c).2.2) ?_ rfl v.cb v.logged
    · rw [sub_same]
      simp only
      omega
    · rw [sub_same]
      exact hl.trans (decide_eq_true (by omega)).symm
    · rw [sub_same]
      omega
    · intro j
      rw [setFb_fb]
      split
      · rename_i e; subst e; exact v.freed j
      · exact v.freed j

/-- holding a buffer to which one has a reference -/
theorem fbHold_inv {s : St} {r h : Nat → Nat} {outs : List Nat} {n i : Nat}
    (v : Inv s r h outs n) (hr : h i < r i) (hp : (s.fb i).pooled = true → i ∈ outs)
    (hq : i ∉ s.pool.queue) :
    ∃ t, fbHold i s = .ok t ∧ Inv t r (add h i) outs n ∧ Same s t ∧ t.pool = s.pool ∧
      t.next = s.next := by
  have hl := v.live_of (by omega : 0 < r i)
  have hi := v.lt_next (by omega : 0 < r i)
  unfold fbHold
  rw [if_pos hl]
  refine ⟨_, rfl, ?_, Same.say (same_setFb s i _ (by rfl) (by rfl)) _, .refl _, .refl _⟩
  refine v.change (i := i) rfl rfl rfl hi (fun _ _ => rfl) (fun j hj => add_ne h hj) (v.ref i)
    ?_ (v.live i) ?_ rfl rfl (fun c _ => hp c) (fun c => absurd c hq) ?_ ?_ ?_ ?_
  · have := v.hold i
    rw [add_same]
    simp only
    omega
  · rw [add_same]; omega
  · intro j
    have := v.freed j
    show List.count (Ev.freed j) (.hold i :: s.log) =
      if j < s.next ∧ ((s.setFb i _).fb j).live = false then 1 else 0
    rw [setFb_fb, List.count_cons]
    split
    · simp at *
    · split
      · rename_i e; subst e; simpa using this
      · simpa using this
  · show List.count Ev.poolFreed (.hold i :: s.log) = _
    rw [List.count_cons]
    simp
  · exact callbacks_cons v.cb (by simp)
  · intro j
    have := v.logged j
    show held (.hold i :: s.log) j = _
    rw [held_cons]
    by_cases e : j = i
    · subst e; rw [add_same]; simp; omega
    · rw [add_ne h e, if_neg (by simpa using fun c : i = j => e c.symm), if_neg (by simp)]
      omega

/-! ## The pool -/

theorem unrefAll_inv {h : Nat → Nat} {outs : List Nat} {n : Nat} (q : List Nat) :
    ∀ {s : St} {r : Nat → Nat}, Inv s r h outs n → (∀ i ∈ q, h i = 0) →
      (∀ i, q.count i ≤ r i) →
      ∃ t, unrefAll q s = .ok t ∧ Inv t (fun i => r i - q.count i) h outs n ∧ Same s t ∧
        t.pool = s.pool ∧ t.next = s.next := by
  induction q with
  | nil => exact fun {s} _ v _ _ => ⟨s, rfl, v, .rfl s, rfl, rfl⟩
  | cons i q ih =>
    intro s r v h0 hc
    have hi : h i < r i := by
      have := h0 i (by simp)
      have := hc i
      rw [List.count_cons] at this
      simp at this
      omega
    obtain ⟨t, e, vt, st, pt, nt⟩ := fbUnref_inv v hi
    obtain ⟨u, eu, vu, su, pu, nu⟩ := ih vt (fun j hj => h0 j (by simp [hj])) (by
      intro j
      have := hc j
      rw [List.count_cons] at this
      by_cases c : j = i
      · subst c; rw [sub_same]; simp at this; omega
      · rw [sub_ne r c]; omega)
    refine ⟨u, by unfold unrefAll; rw [e]; exact eu, ?_, st.trans su, pu.trans pt, nu.trans nt⟩
    have : (fun j => sub r i j - q.count j) = (fun j => r j - (i :: q).count j) := by
      funext j
      rw [List.count_cons]
      by_cases c : j = i
      · subst c; rw [sub_same]; simp; omega
      · rw [sub_ne r c, if_neg (by simpa using fun d : i = j => c d.symm)]; omega
    rw [← this]
    exact vu

/-- the queue's references become somebody's -/
theorem Inv.unqueue {s : St} {r h : Nat → Nat} {outs : List Nat} {n : Nat}
    (v : Inv s r h outs n) :
    Inv { s with pool := { s.pool with queue := [] } } (fun i => r i + s.pool.queue.count i) h
      outs n := by
  refine ⟨fun i => ?_, v.hold, fun i => ?_, fun i => ?_, fun i hi => ?_, v.pref, v.plive, v.len,
    fun _ => rfl, v.nodup, .nil, fun i hi => ⟨(v.out i hi).1, by simp⟩, v.used, by simp, v.freed,
    v.pfreed, v.cb, v.logged⟩
  · simpa using v.ref i
  · rw [v.live i]; congr 1
  · have := v.le i; omega
  · have := v.new i hi
    refine ⟨?_, by simp, this.2.2⟩
    rw [this.1, List.count_eq_zero_of_not_mem this.2.1]

theorem destroyFbs_inv {s : St} {r h : Nat → Nat} {outs : List Nat} {n : Nat}
    (v : Inv s r h outs n) :
    ∃ t, destroyFbs s = .ok t ∧ Inv t r h outs n ∧ Same s t ∧
      t.pool = { s.pool with queue := [] } ∧ t.next = s.next := by
  obtain ⟨t, e, vt, st, pt, nt⟩ := unrefAll_inv s.pool.queue v.unqueue
    (fun i hi => (v.q i hi).2.2) (fun i => by omega)
  refine ⟨t, e, ?_, ⟨st.display, st.cursor, st.jobs, st.pooled, st.dims⟩, pt, nt⟩
  have : (fun i => r i + s.pool.queue.count i - s.pool.queue.count i) = r := by
    funext i; omega
  rw [this] at vt
  exact vt

theorem poolRef_inv {s : St} {r h : Nat → Nat} {outs : List Nat} {n : Nat}
    (v : Inv s r h outs n) (hn : 0 < n) :
    ∃ t, poolRef s = .ok t ∧ Inv t r h outs (n + 1) ∧ Same s t ∧ t.next = s.next ∧
      t.pool.queue = s.pool.queue ∧ t.pool.dims = s.pool.dims ∧ t.fb = s.fb := by
  have hl : s.pool.live = true := by rw [v.plive]; exact decide_eq_true hn
  unfold poolRef
  rw [if_pos hl]
  refine ⟨_, rfl, ?_, ⟨rfl, rfl, rfl, fun _ => rfl, fun _ => rfl⟩, rfl, rfl, rfl, rfl⟩
  refine ⟨v.ref, v.hold, v.live, v.le, v.new, ?_, ?_, ?_, v.dead, v.nodup, v.qnodup, v.out,
    v.used, v.q, v.freed, v.pfreed, v.cb, v.logged⟩
  · have := v.pref; simp only; omega
  · simp only; rw [hl]; exact (decide_eq_true (by omega)).symm
  · have := v.len; omega

theorem poolUnref_inv {s : St} {r h : Nat → Nat} {outs : List Nat} {n : Nat}
    (v : Inv s r h outs (n + 1)) (hn : outs.length ≤ n) :
    ∃ t, poolUnref s = .ok t ∧ Inv t r h outs n ∧ Same s t ∧ t.next = s.next := by
  have hl : s.pool.live = true := by rw [v.plive]; exact decide_eq_true (by omega)
  have hp := v.pref
  unfold poolUnref
  rw [if_pos hl]
  split
  · rename_i hz
    have n0 : n = 0 := by omega
    subst n0
    -- destroying does not look at the count
    have hd : ∀ (q : List Nat) (a : St) (k : Int),
        unrefAll q { a with pool := { a.pool with ref := k } } =
        (unrefAll q a >>= fun t => .ok { t with pool := { t.pool with ref := k } }) := by
      intro q
      induction q with
      | nil => intro a k; rfl
      | cons i q ih =>
        intro a k
        have e : fbUnref i { a with pool := { a.pool with ref := k } } =
            (fbUnref i a >>= fun t => .ok { t with pool := { t.pool with ref := k } }) := by
          unfold fbUnref
          simp only
          split
          · split <;> rfl
          · rfl
        unfold unrefAll
        rw [e]
        cases fbUnref i a with
        | ok b => simp only [Outcome.bind_ok]; exact ih b k
        | ub w => rfl
        | abort w => rfl
    obtain ⟨t, e, vt, st, pt, nt⟩ := destroyFbs_inv v
    have e2 : destroyFbs { s with pool := { s.pool with ref := s.pool.ref - 1 } } =
        .ok { t with pool := { t.pool with ref := s.pool.ref - 1 } } := by
      have := hd s.pool.queue { s with pool := { s.pool with queue := [] } } (s.pool.ref - 1)
      unfold destroyFbs at e ⊢
      rw [e] at this
      exact this
    rw [e2]
    refine ⟨_, rfl, ?_, ⟨st.display, st.cursor, st.jobs, st.pooled, st.dims⟩, nt⟩
    have tq : t.pool.queue = [] := by rw [pt]
    have tl : t.pool.live = true := by rw [pt]; exact hl
    refine ⟨vt.ref, vt.hold, vt.live, vt.le, vt.new, ?_, ?_, hn, fun _ => tq, vt.nodup, vt.qnodup,
      vt.out, vt.used, vt.q, ?_, ?_, callbacks_cons vt.cb (by simp), ?_⟩
    · show s.pool.ref - 1 = _
      omega
    · show false = _
      simp
    · intro i
      have := vt.freed i
      show List.count (Ev.freed i) (.poolFreed :: t.log) =
        if i < t.next ∧ (t.fb i).live = false then 1 else 0
      rw [List.count_cons]
      simpa using this
    · have := vt.pfreed
      rw [tl] at this
      show List.count Ev.poolFreed (.poolFreed :: t.log) = if false = true then 0 else 1
      rw [List.count_cons, this]
      simp
    · intro i
      show held (.poolFreed :: t.log) i = _
      rw [held_cons]
      simpa using vt.logged i
  · rename_i hz
    refine ⟨_, rfl, ?_, ⟨rfl, rfl, rfl, fun _ => rfl, fun _ => rfl⟩, rfl⟩
    refine ⟨v.ref, v.hold, v.live, v.le, v.new, ?_, ?_, hn, v.dead, v.nodup, v.qnodup, v.out,
      v.used, v.q, v.freed, v.pfreed, v.cb, v.logged⟩
    · simp only; omega
    · simp only; rw [hl]; exact (decide_eq_true (by omega)).symm

theorem poolResize_inv {s : St} {r h : Nat → Nat} {outs : List Nat} {n : Nat}
    (v : Inv s r h outs n) (hn : 0 < n) (d : Dims) :
    ∃ t, poolResize d s = .ok t ∧ Inv t r h outs n ∧ Same s t ∧ t.next = s.next ∧
      t.pool.dims = d := by
  have hl : s.pool.live = true := by rw [v.plive]; exact decide_eq_true hn
  unfold poolResize
  rw [if_pos hl]
  split
  · rename_i c; exact ⟨s, rfl, v, .rfl s, rfl, c.symm⟩
  · obtain ⟨t, e, vt, st, pt, nt⟩ := destroyFbs_inv v
    rw [e]
    refine ⟨_, rfl, ?_, ⟨st.display, st.cursor, st.jobs, st.pooled, st.dims⟩, nt, rfl⟩
    have tq : t.pool.queue = [] := by rw [pt]
    refine ⟨vt.ref, vt.hold, vt.live, vt.le, vt.new, vt.pref, vt.plive, vt.len, vt.dead, vt.nodup,
      vt.qnodup, vt.out, vt.used, ?_, vt.freed, vt.pfreed, vt.cb, vt.logged⟩
    intro i hi
    change i ∈ t.pool.queue at hi
    rw [tq] at hi
    cases hi

theorem poolRelease_inv {s : St} {r h : Nat → Nat} {outs : List Nat} {n i : Nat}
    (v : Inv s r h outs n) (hn : 0 < n) (hl : (s.fb i).live = true) (hh : h i = 0)
    (hp : (s.fb i).pooled = true) (hq : i ∉ s.pool.queue) (ho : i ∉ outs) :
    ∃ t, poolRelease i s = .ok t ∧ Inv t r h outs n ∧ Same s t ∧ t.next = s.next := by
  have hpl : s.pool.live = true := by rw [v.plive]; exact decide_eq_true hn
  unfold poolRelease
  rw [if_neg (by simp [hpl]), if_neg (by simp [hl])]
  split
  · exact ⟨s, rfl, v, .rfl s, rfl⟩
  · rename_i hd
    have hd : (s.fb i).dims = s.pool.dims := Decidable.of_not_not hd
    obtain ⟨t, e, vt, st, pt, nt⟩ := fbRef_inv v hl
    rw [e]
    refine ⟨_, rfl, ?_, ⟨st.display, st.cursor, st.jobs, st.pooled, st.dims⟩, nt⟩
    have hcount : ∀ j, add r i j + t.pool.queue.count j =
        r j + (t.pool.queue ++ [i]).count j := by
      intro j
      rw [List.count_append, List.count_singleton]
      by_cases c : j = i
      · subst c; rw [add_same]; simp; omega
      · rw [add_ne r c, if_neg (by simpa using fun d : i = j => c d.symm)]; omega
    have hi : i < s.next := by
      rcases Nat.lt_or_ge i s.next with c | c
      · exact c
      · have := v.new i c
        rw [v.live i, this.1, List.count_eq_zero_of_not_mem this.2.1] at hl
        simp at hl
    rw [← nt] at hi
    have hq' : i ∉ t.pool.queue := by rw [pt]; exact hq
    refine ⟨fun j => ?_, vt.hold, fun j => ?_, v.le, fun j hj => ?_, vt.pref, vt.plive, vt.len,
      fun c => ?_, vt.nodup, ?_, fun j hj => ?_, vt.used, fun j hj => ?_, vt.freed, vt.pfreed,
      vt.cb, vt.logged⟩
    · show (t.fb j).ref = ((r j + (t.pool.queue ++ [i]).count j : Nat) : Int)
      rw [← hcount]; exact vt.ref j
    · show (t.fb j).live = decide (0 < r j + (t.pool.queue ++ [i]).count j)
      rw [← hcount]; exact vt.live j
    · have := vt.new j hj
      have hne : j ≠ i := by intro c; subst c; exact absurd hj (by simp only; omega)
      rw [add_ne r hne] at this
      refine ⟨this.1, ?_, this.2.2⟩
      show j ∉ t.pool.queue ++ [i]
      simp [this.2.1, hne]
    · change t.pool.live = false at c
      rw [pt, hpl] at c
      cases c
    · show (t.pool.queue ++ [i]).Nodup
      rw [List.nodup_append]
      refine ⟨vt.qnodup, by simp, ?_⟩
      intro a ha b hb
      rw [List.mem_singleton] at hb
      subst hb
      intro c; subst c; exact hq' ha
    · have := vt.out j hj
      refine ⟨this.1, ?_⟩
      show j ∉ t.pool.queue ++ [i]
      have hne : j ≠ i := by intro c; subst c; exact ho hj
      simp [this.2, hne]
    · change j ∈ t.pool.queue ++ [i] at hj
      rw [List.mem_append, List.mem_singleton] at hj
      rcases hj with hj | hj
      · exact vt.q j hj
      · subst hj
        refine ⟨(st.pooled j).trans hp, ?_, hh⟩
        show (t.fb j).dims = t.pool.dims
        rw [st.dims, pt]; exact hd

/-- a buffer that is not held any more need not be counted as out -/
theorem Inv.drop {s : St} {r h : Nat → Nat} {outs : List Nat} {n i : Nat}
    (v : Inv s r h outs n) (hh : h i = 0) : Inv s r h (outs.erase i) n := by
  refine ⟨v.ref, v.hold, v.live, v.le, fun j hj => ⟨(v.new j hj).1, (v.new j hj).2.1,
    fun c => (v.new j hj).2.2 (List.mem_of_mem_erase c)⟩, v.pref, v.plive,
    Nat.le_trans (List.length_erase_le ..) v.len, v.dead, v.nodup.erase i, v.qnodup,
    fun j hj => v.out j (List.mem_of_mem_erase hj), fun j hj hp => ?_, v.q, v.freed, v.pfreed,
    v.cb, v.logged⟩
  have := v.used j hj hp
  rw [v.nodup.mem_erase_iff]
  exact ⟨by intro c; subst c; omega, this⟩

theorem fbRelease_inv {s : St} {r h : Nat → Nat} {outs : List Nat} {n i : Nat}
    (v : Inv s r h outs (n + outs.length)) (hh : 0 < h i) :
    ∃ t outs', fbRelease i s = .ok t ∧ Inv t r (sub h i) outs' (n + outs'.length) ∧ Same s t ∧
      t.next = s.next ∧ outs' = if h i = 1 then outs.erase i else outs := by
  have hri := v.le i
  have hl := v.live_of (by omega : 0 < r i)
  have hi := v.lt_next (by omega : 0 < r i)
  have hhold := v.hold i
  have hq : i ∉ s.pool.queue := by
    intro c
    have := (v.q i c).2.2
    omega
  -- the count goes down and the event is logged
  have hpart : ∀ (t : St) (l : List Ev), t = { s.setFb i { s.fb i with hold := (s.fb i).hold - 1 } with log := l } →
      (∀ j, l.count (.freed j) = s.log.count (.freed j)) →
      l.count .poolFreed = s.log.count .poolFreed → callbacks none l →
      (∀ j, held l j = held (.release i :: s.log) j) →
      Inv t r (sub h i) outs (n + outs.length) := by
    intro t l ht f1 f2 f3 f4
    subst ht
    refine v.change (i := i) rfl rfl rfl hi (fun _ _ => rfl) (fun j hj => sub_ne h hj) (v.ref i)
      ?_ (v.live i) ?_ rfl rfl (fun c _ => v.used i c hh) (fun c => absurd c hq) ?_ f2 f3 ?_
    · rw [sub_same]; simp only; omega
    · rw [sub_same]; omega
    · intro j
      rw [show (({ s.setFb i _ with log := l } : St).log) = l from rfl, f1 j]
      show _ = if j < s.next ∧ ((s.setFb i _).fb j).live = false then 1 else 0
      rw [setFb_fb]
      split
      · rename_i e; subst e; exact v.freed j
      · exact v.freed j
    · intro j
      rw [show (({ s.setFb i _ with log := l } : St).log) = l from rfl, f4 j, held_cons]
      have := v.logged j
      by_cases c : j = i
      · subst c; rw [sub_same]; simp; omega
      · rw [sub_ne h c, if_neg (by simp), if_neg (by simpa using fun d : i = j => c d.symm)]
        omega
  unfold fbRelease
  rw [if_pos hl]
  split
  · rename_i hne
    have h1 : h i ≠ 1 := by omega
    refine ⟨_, outs, rfl, ?_, Same.say (same_setFb s i _ (by rfl) (by rfl)) _, rfl,
      (if_neg h1).symm⟩
    refine hpart _ (.release i :: s.log) rfl ?_ ?_ ?_ (fun _ => rfl)
    · intro j; rw [List.count_cons]; simp
    · rw [List.count_cons]; simp
    · refine ⟨⟨fun z => ?_, fun z => by cases z⟩, callbacks_next v.cb (by simp)⟩
      rw [held_cons, v.logged i] at z
      simp at z
      omega
  · rename_i hz
    have h1 : h i = 1 := by omega
    have hw := hpart (((s.setFb i { s.fb i with hold := (s.fb i).hold - 1 }).say (.release i)).say
      (.released i)) (.released i :: .release i :: s.log) rfl
      (by intro j; rw [List.count_cons, List.count_cons]; simp)
      (by rw [List.count_cons, List.count_cons]; simp)
      (by
        refine ⟨rfl, ⟨fun _ => rfl, fun _ => ?_⟩, callbacks_next v.cb (by simp)⟩
        rw [held_cons, v.logged i, h1]
        simp)
      (by intro j; rw [held_cons]; simp)
    have hsame : Same s (((s.setFb i { s.fb i with hold := (s.fb i).hold - 1 }).say
        (.release i)).say (.released i)) :=
      Same.say (Same.say (same_setFb s i _ (by rfl) (by rfl)) _) _
    have hwl : ((((s.setFb i { s.fb i with hold := (s.fb i).hold - 1 }).say (.release i)).say
        (.released i)).fb i).live = true := by
      show ((s.setFb i _).fb i).live = true
      rw [setFb_fb, if_pos rfl]
      exact hl
    have hwn : (((s.setFb i { s.fb i with hold := (s.fb i).hold - 1 }).say (.release i)).say
        (.released i)).next = s.next := rfl
    have hwq : (((s.setFb i { s.fb i with hold := (s.fb i).hold - 1 }).say (.release i)).say
        (.released i)).pool = s.pool := rfl
    have h0 : sub h i i = 0 := by rw [sub_same]; omega
    split
    · rename_i hp
      have hin := v.used i hp hh
      generalize ((s.setFb i { s.fb i with hold := (s.fb i).hold - 1 }).say (.release i)).say
        (.released i) = w at hw hsame hwl hwn hwq ⊢
      have hlen : 0 < outs.length := List.length_pos_of_mem hin
      have hel : (outs.erase i).length = outs.length - 1 := List.length_erase_of_mem hin
      obtain ⟨t, e, vt, st, nt⟩ := poolRelease_inv (hw.drop h0) (by omega) hwl h0
        ((hsame.pooled i).trans hp) (by rw [hwq]; exact hq)
        (by rw [v.nodup.mem_erase_iff]; simp)
      rw [e]
      have hrw : n + outs.length = n + (outs.erase i).length + 1 := by omega
      rw [hrw] at vt
      obtain ⟨u, eu, vu, su, nu⟩ := poolUnref_inv vt (by omega)
      exact ⟨u, outs.erase i, eu, vu, (hsame.trans st).trans su, (nu.trans nt).trans hwn,
        by simp⟩
    · rename_i hp
      have hno : i ∉ outs := fun c => hp (v.out i c).1
      refine ⟨_, outs, rfl, hw, hsame, rfl, ?_⟩
      exact (List.erase_of_not_mem hno).symm

/-! ## Taking, giving back and acquiring -/

theorem fbNew_inv {s : St} {r h : Nat → Nat} {outs : List Nat} {n : Nat}
    (v : Inv s r h outs n) (d : Dims) (p : Bool) :
    Inv (fbNew d p s) (add r s.next) h outs n := by
  obtain ⟨n1, n2, n3⟩ := v.new s.next (Nat.le_refl _)
  have hc : s.pool.queue.count s.next = 0 := List.count_eq_zero_of_not_mem n2
  have hh : h s.next = 0 := by have := v.le s.next; omega
  have hf : ∀ j, (fbNew d p s).fb j = if j = s.next then ⟨true, 1, 0, d, p⟩ else s.fb j :=
    fun _ => rfl
  have hne : ∀ j, j ≠ s.next → (fbNew d p s).fb j = s.fb j := fun j hj => (hf j).trans (if_neg hj)
  have heq : (fbNew d p s).fb s.next = ⟨true, 1, 0, d, p⟩ := (hf _).trans (if_pos rfl)
  refine ⟨fun j => ?_, fun j => ?_, fun j => ?_, fun j => ?_, fun j hj => ?_, v.pref, v.plive, v.len,
    v.dead, v.nodup, v.qnodup, fun j hj => ?_, fun j hj hp => ?_, fun j hj => ?_, fun j => ?_,
    v.pfreed, v.cb, v.logged⟩
  · show _ = ((add r s.next j + s.pool.queue.count j : Nat) : Int)
    by_cases e : j = s.next
    · subst e; rw [heq, add_same, n1, hc]; rfl
    · rw [hne j e, add_ne r e]; exact v.ref j
  · by_cases e : j = s.next
    · subst e; rw [heq, hh]; rfl
    · rw [hne j e]; exact v.hold j
  · show _ = decide (0 < add r s.next j + s.pool.queue.count j)
    by_cases e : j = s.next
    · subst e; rw [heq, add_same]; exact (decide_eq_true (by omega)).symm
    · rw [hne j e, add_ne r e]; exact v.live j
  · have := v.le j
    by_cases e : j = s.next
    · subst e; rw [add_same]; omega
    · rw [add_ne r e]; exact this
  · have hj' : s.next + 1 ≤ j := hj
    have := v.new j (by omega)
    rw [add_ne r (by omega)]
    exact this
  · have e : j ≠ s.next := by intro c; subst c; exact n3 hj
    rw [hne j e]; exact v.out j hj
  · by_cases e : j = s.next
    · subst e; omega
    · rw [hne j e] at hj; exact v.used j hj hp
  · have e : j ≠ s.next := by intro c; subst c; exact n2 hj
    rw [hne j e]; exact v.q j hj
  · show s.log.count (.freed j) = _
    rw [v.freed j]
    by_cases e : j = s.next
    · subst e; rw [heq]; simp
    · rw [hne j e]
      have h1 : j < (fbNew d p s).next ↔ j < s.next := by
        show j < s.next + 1 ↔ _
        omega
      simp only [h1]

/-- a buffer of the pool that is not in the queue goes out -/
theorem Inv.push {s : St} {r h : Nat → Nat} {outs : List Nat} {n i : Nat}
    (v : Inv s r h outs n) (hn : outs.length < n) (hi : i < s.next) (ho : i ∉ outs)
    (hq : i ∉ s.pool.queue) (hp : (s.fb i).pooled = true) : Inv s r h (i :: outs) n := by
  refine ⟨v.ref, v.hold, v.live, v.le, fun j hj => ?_, v.pref, v.plive, hn, v.dead,
    List.nodup_cons.mpr ⟨ho, v.nodup⟩, v.qnodup, fun j hj => ?_,
    fun j hj hh => List.mem_cons_of_mem _ (v.used j hj hh), v.q, v.freed, v.pfreed, v.cb, v.logged⟩
  · have := v.new j hj
    refine ⟨this.1, this.2.1, ?_⟩
    rw [List.mem_cons]
    rintro (c | c)
    · omega
    · exact this.2.2 c
  · rcases List.mem_cons.mp hj with c | c
    · subst c; exact ⟨hp, hq⟩
    · exact v.out j c

theorem Inv.dequeue {s : St} {r h : Nat → Nat} {outs : List Nat} {n i : Nat} {q : List Nat}
    (v : Inv s r h outs n) (hq : s.pool.queue = i :: q) :
    Inv { s with pool := { s.pool with queue := q } } (add r i) h outs n := by
  have hc : ∀ j, add r i j + q.count j = r j + s.pool.queue.count j := by
    intro j
    rw [hq, List.count_cons]
    by_cases e : j = i
    · subst e; rw [add_same]; simp; omega
    · rw [add_ne r e, if_neg (by simpa using fun d : i = j => e d.symm)]; rfl
  have hm : ∀ j, j ∈ q → j ∈ s.pool.queue := by intro j hj; rw [hq]; exact List.mem_cons_of_mem _ hj
  have hmi : i ∈ s.pool.queue := by rw [hq]; exact List.mem_cons_self
  refine ⟨fun j => ?_, v.hold, fun j => ?_, fun j => ?_, fun j hj => ?_, v.pref, v.plive, v.len,
    fun c => ?_, v.nodup, ?_, fun j hj => ⟨(v.out j hj).1, fun c => (v.out j hj).2 (hm j c)⟩, v.used,
    fun j hj => v.q j (hm j hj), v.freed, v.pfreed, v.cb, v.logged⟩
  · show _ = ((add r i j + q.count j : Nat) : Int)
    rw [hc j]; exact v.ref j
  · show _ = decide (0 < add r i j + q.count j)
    rw [hc j]; exact v.live j
  · have := v.le j
    by_cases e : j = i
    · subst e; rw [add_same]; omega
    · rw [add_ne r e]; exact this
  · have := v.new j hj
    have e : j ≠ i := by intro c; subst c; exact this.2.1 hmi
    rw [add_ne r e]
    exact ⟨this.1, fun c => this.2.1 (hm j c), this.2.2⟩
  · have := v.dead c
    rw [hq] at this
    cases this
  · have := v.qnodup
    rw [hq] at this
    exact (List.nodup_cons.mp this).2

/-- the buffer that is handed out is not in use and not out, and it has the pool's dimensions -/
theorem acquire_inv {s : St} {r h : Nat → Nat} {outs : List Nat} {n : Nat} (mem : Bool)
    (v : Inv s r h outs n) (hn : 0 < n) :
    (∃ t i, acquire mem s = .ok (t, some i) ∧ Inv t (add r i) h (i :: outs) (n + 1) ∧
      i ∉ outs ∧ h i = 0 ∧ (t.fb i).dims = s.pool.dims ∧ (t.fb i).pooled = true ∧
      (t.fb i).live = true ∧ t.display = s.display ∧ t.cursor = s.cursor ∧ t.jobs = s.jobs ∧
      i = (match s.pool.queue with | i :: _ => i | [] => s.next)) ∨
    (acquire mem s = .ok (s, none) ∧ mem = false ∧ s.pool.queue = []) := by
  have hl : s.pool.live = true := by rw [v.plive]; exact decide_eq_true hn
  unfold acquire
  have hlen := v.len
  cases hq : s.pool.queue with
  | nil =>
    simp only
    rw [if_neg (by simp [hl])]
    cases mem with
    | false => right; exact ⟨rfl, by simp, by simp⟩
    | true =>
      left
      obtain ⟨n1, n2, n3⟩ := v.new s.next (Nat.le_refl _)
      obtain ⟨t, e, vt, st, nt, qt, _, ft⟩ := poolRef_inv (fbNew_inv v s.pool.dims true) hn
      have hf : (fbNew s.pool.dims true s).fb s.next = ⟨true, 1, 0, s.pool.dims, true⟩ :=
        if_pos rfl
      refine ⟨t, s.next, by rw [if_pos rfl, e]; rfl, vt.push (by omega) ?_ n3 ?_ ?_, n3, ?_, ?_, ?_,
        ?_, st.display, st.cursor, st.jobs, rfl⟩
      · rw [nt]; exact Nat.lt_succ_self _
      · rw [qt]; exact n2
      · rw [ft, hf]
      · have := v.le s.next; omega
      · rw [ft, hf]
      · rw [ft, hf]
      · rw [ft, hf]
  | cons i q =>
    simp only
    left
    have hmi : i ∈ s.pool.queue := by rw [hq]; exact List.mem_cons_self
    have hno : i ∉ outs := fun c => (v.out i c).2 hmi
    have hvq := v.q i hmi
    have hnq : i ∉ q := by
      have := v.qnodup
      rw [hq] at this
      exact (List.nodup_cons.mp this).1
    have hi : i < s.next := by
      rcases Nat.lt_or_ge i s.next with c | c
      · exact c
      · exact absurd hmi (v.new i c).2.1
    obtain ⟨t, e, vt, st, nt, qt, _, ft⟩ := poolRef_inv (v.dequeue hq) hn
    refine ⟨t, i, by rw [e]; rfl, vt.push (by omega) ?_ hno ?_ ?_, hno, hvq.2.2, ?_, ?_, ?_,
      st.display, st.cursor, st.jobs, rfl⟩
    · rw [nt]; exact hi
    · rw [qt]; exact hnq
    · rw [ft]; exact hvq.1
    · rw [ft]; exact hvq.2.1
    · rw [ft]; exact hvq.1
    · rw [ft]
      show (s.fb i).live = true
      rw [v.live i]
      exact decide_eq_true (by have := List.count_pos_iff.mpr hmi; omega)

theorem take_inv {s : St} {r h : Nat → Nat} {outs : List Nat} {n i : Nat}
    (v : Inv s r h outs n) (hr : 0 < r i) (hp : (s.fb i).pooled = true → i ∈ outs) :
    ∃ t, take i s = .ok t ∧ Inv t (add r i) (add h i) outs n ∧ Same s t := by
  have hq : i ∉ s.pool.queue := by
    intro c
    exact (v.out i (hp (v.q i c).1)).2 c
  obtain ⟨t, e, vt, st, pt, nt⟩ := fbRef_inv v (v.live_of hr)
  obtain ⟨u, eu, vu, su, pu, nu⟩ := fbHold_inv vt
    (by rw [add_same]; have := v.le i; omega) (by rw [st.pooled]; exact hp) (by rw [pt]; exact hq)
  exact ⟨u, by unfold take; rw [e]; exact eu, vu, st.trans su⟩

theorem give_inv {s : St} {r h : Nat → Nat} {outs : List Nat} {n i : Nat}
    (v : Inv s r h outs (n + outs.length)) (hh : 0 < h i) :
    ∃ t outs', give i s = .ok t ∧ Inv t (sub r i) (sub h i) outs' (n + outs'.length) ∧ Same s t ∧
      outs' = if h i = 1 then outs.erase i else outs := by
  obtain ⟨t, o, e, vt, st, nt, ho⟩ := fbRelease_inv v hh
  obtain ⟨u, eu, vu, su, _, _⟩ := fbUnref_inv (i := i) vt
    (by rw [sub_same]; have := v.le i; omega)
  exact ⟨u, o, by unfold give; rw [e]; exact eu, vu, st.trans su, ho⟩

/-- the invariant does not mention who uses the buffers -/
theorem Inv.put {s : St} {r h : Nat → Nat} {outs : List Nat} {n : Nat} (v : Inv s r h outs n)
    (d c : Option Nat) (j : List Nat) :
    Inv { s with display := d, cursor := c, jobs := j } r h outs n :=
  ⟨v.ref, v.hold, v.live, v.le, v.new, v.pref, v.plive, v.len, v.dead, v.nodup, v.qnodup, v.out,
    v.used, v.q, v.freed, v.pfreed, v.cb, v.logged⟩

/-! ## Calls -/

/-- the counts in the objects are what is owned and used -/
def OpInv (s : St) (g : Gh) : Prop :=
  Inv s (fun i => g.own i + uses s i) (uses s) g.outs (g.poolOwn + g.lost + g.outs.length)

theorem uses_same {s t : St} (h1 : t.display = s.display) (h2 : t.cursor = s.cursor)
    (h3 : t.jobs = s.jobs) : uses t = uses s := by
  funext i; unfold uses; rw [h1, h2, h3]

theorem uses_display (s : St) (o : Option Nat) (i : Nat) :
    uses { s with display := o } i + (if s.display = some i then 1 else 0) =
      uses s i + (if o = some i then 1 else 0) := by
  unfold uses; simp only; omega

theorem uses_cursor (s : St) (o : Option Nat) (i : Nat) :
    uses { s with cursor := o } i + (if s.cursor = some i then 1 else 0) =
      uses s i + (if o = some i then 1 else 0) := by
  unfold uses; simp only; omega

theorem add_add (f g : Nat → Nat) (i : Nat) : add (fun j => f j + g j) i = fun j => f j + add g i j := by
  funext j; unfold add; dsimp only; split <;> omega

theorem sub_add (f g : Nat → Nat) (i : Nat) (h : 0 < g i) :
    sub (fun j => f j + g j) i = fun j => f j + sub g i j := by
  funext j
  unfold sub
  dsimp only
  split
  · rename_i e; subst e; omega
  · rfl

/-- giving up the display's or the cursor's buffer -/
theorem giveOpt_inv {s : St} {g : Gh} (o : Option Nat) (v : OpInv s g)
    (hh : ∀ i, o = some i → 0 < uses s i) :
    ∃ t, giveOpt o s = .ok t ∧ Same s t ∧
      Inv t (fun i => g.own i + (uses s i - if o = some i then 1 else 0))
        (fun i => uses s i - if o = some i then 1 else 0) (endUse s o g.outs)
        (g.poolOwn + g.lost + (endUse s o g.outs).length) := by
  cases o with
  | none => exact ⟨s, rfl, .rfl s, v⟩
  | some i =>
    obtain ⟨t, o', e, vt, st, ho⟩ := give_inv v (hh i rfl)
    refine ⟨t, e, st, ?_⟩
    subst ho
    have : sub (uses s) i = fun j => uses s j - if some i = some j then 1 else 0 := by
      funext j
      unfold sub
      by_cases c : j = i
      · subst c; simp
      · rw [if_neg c, if_neg (by simpa using fun d : i = j => c d.symm)]; rfl
    rw [sub_add _ _ _ (hh i rfl), this] at vt
    exact vt

theorem of_usable {s : St} {g : Gh} {old : Option Nat} {i : Nat} (h : usable s g old i = true) :
    0 < g.own i ∧ ((s.fb i).pooled = true → i ∈ g.outs ∧ ¬ (old = some i ∧ uses s i = 1)) := by
  unfold usable at h
  rw [Bool.and_eq_true] at h
  refine ⟨by simpa using h.1, fun hp => ?_⟩
  have := h.2
  rw [hp] at this
  simp at this
  refine ⟨this.1, fun c => ?_⟩
  rcases this.2 with d | d
  · exact d c.1
  · exact d c.2

theorem endUse_mem {s : St} {outs : List Nat} {old : Option Nat} {i : Nat} (h : i ∈ outs)
    (ho : ¬ (old = some i ∧ uses s i = 1)) : i ∈ endUse s old outs := by
  unfold endUse
  cases old with
  | none => exact h
  | some j =>
    simp only
    split
    · rename_i hu
      have : i ≠ j := by intro c; subst c; exact ho ⟨rfl, hu⟩
      exact (List.mem_erase_of_ne this).mpr h
    · exact h

theorem step_inv {s : St} {g : Gh} (o : Op) (v : OpInv s g) (hl : legal s g o = true) :
    ∃ t, step s o = .ok t ∧ OpInv t (ghStep s g o) := by
  cases o with
  | newFb d =>
    refine ⟨_, rfl, ?_⟩
    have := fbNew_inv v d false
    have e : add (fun i => g.own i + uses s i) s.next = fun i => add g.own s.next i + uses s i := by
      funext j; unfold add; dsimp only; split <;> omega
    rw [e] at this
    exact this
  | ref i =>
    have hl : 0 < g.own i := by simpa [legal] using hl
    obtain ⟨t, e, vt, st, _, _⟩ := fbRef_inv v (v.live_of (i := i) (by omega))
    refine ⟨t, e, ?_⟩
    have e2 : add (fun i => g.own i + uses s i) i = fun j => add g.own i j + uses s j := by
      funext j; unfold add; dsimp only; split <;> omega
    rw [e2] at vt
    unfold OpInv
    rw [uses_same st.display st.cursor st.jobs]
    exact vt
  | unref i =>
    have hl : 0 < g.own i := by simpa [legal] using hl
    obtain ⟨t, e, vt, st, _, _⟩ := fbUnref_inv (i := i) v (by omega)
    refine ⟨t, e, ?_⟩
    have e2 : sub (fun i => g.own i + uses s i) i = fun j => sub g.own i j + uses s j := by
      funext j
      unfold sub
      dsimp only
      split
      · rename_i e; subst e; omega
      · rfl
    rw [e2] at vt
    unfold OpInv
    rw [uses_same st.display st.cursor st.jobs]
    exact vt
  | acquire mem =>
    have hl : 0 < g.poolOwn := by simpa [legal] using hl
    rcases acquire_inv mem v (by omega) with ⟨t, i, e, vt, _, _, _, _, _, d1, d2, d3, hi⟩ | ⟨e, hm, hq⟩
    · refine ⟨t, by show (acquire mem s >>= _) = _; rw [e]; rfl, ?_⟩
      have e2 : add (fun i => g.own i + uses s i) i = fun j => add g.own i j + uses s j := by
        funext j; unfold add; dsimp only; split <;> omega
      rw [e2] at vt
      have hg : ghStep s g (.acquire mem) = { g with own := add g.own i, outs := i :: g.outs } := by
        show (match s.pool.queue with
          | i :: _ => { g with own := add g.own i, outs := i :: g.outs }
          | [] => if mem then { g with own := add g.own s.next, outs := s.next :: g.outs } else g) = _
        cases hq : s.pool.queue with
        | nil =>
          rw [hq] at hi
          simp only at hi ⊢
          cases mem with
          | true => rw [hi]; rfl
          | false =>
            unfold acquire at e
            rw [hq] at e
            simp only at e
            split at e
            · cases e
            · rw [if_neg (by simp)] at e
              have := congrArg (fun x => match x with | Outcome.ok p => p.2 | _ => none) e
              cases this
        | cons a q =>
          rw [hq] at hi
          simp only at hi ⊢
          rw [hi]
      rw [hg]
      unfold OpInv
      rw [uses_same d1 d2 d3]
      exact vt
    · refine ⟨s, by show (acquire mem s >>= _) = _; rw [e]; rfl, ?_⟩
      have hg : ghStep s g (.acquire mem) = g := by
        show (match s.pool.queue with
          | i :: _ => { g with own := add g.own i, outs := i :: g.outs }
          | [] => if mem then { g with own := add g.own s.next, outs := s.next :: g.outs } else g) = _
        rw [hq, hm]
        rfl
      rw [hg]
      exact v
  | poolRef =>
    have hl : 0 < g.poolOwn := by simpa [legal] using hl
    obtain ⟨t, e, vt, st, _, _⟩ := poolRef_inv v (by omega)
    refine ⟨t, e, ?_⟩
    unfold OpInv
    rw [uses_same st.display st.cursor st.jobs]
    have : g.poolOwn + g.lost + g.outs.length + 1 = g.poolOwn + 1 + g.lost + g.outs.length := by omega
    rw [this] at vt
    exact vt
  | poolUnref =>
    have hl : 0 < g.poolOwn := by simpa [legal] using hl
    have : g.poolOwn + g.lost + g.outs.length = g.poolOwn - 1 + g.lost + g.outs.length + 1 := by omega
    unfold OpInv at v
    rw [this] at v
    obtain ⟨t, e, vt, st, _⟩ := poolUnref_inv v (by omega)
    refine ⟨t, e, ?_⟩
    unfold OpInv
    rw [uses_same st.display st.cursor st.jobs]
    exact vt
  | resize d =>
    have hl : 0 < g.poolOwn := by simpa [legal] using hl
    obtain ⟨t, e, vt, st, _⟩ := poolResize_inv v (by omega) d
    refine ⟨t, e, ?_⟩
    unfold OpInv
    rw [uses_same st.display st.cursor st.jobs]
    exact vt
  | giveBack i =>
    have hl : ((0 < g.poolOwn ∧ 0 < g.own i) ∧ i ∈ g.outs) ∧ uses s i = 0 := by
      simpa [legal, and_assoc] using hl
    obtain ⟨⟨⟨h1, h2⟩, h3⟩, h4⟩ := hl
    have hq := v.out i h3
    obtain ⟨t, e, vt, st, _⟩ := poolRelease_inv (v.drop h4) (by omega)
      (v.live_of (i := i) (by omega)) h4 hq.1 hq.2 (by rw [v.nodup.mem_erase_iff]; simp)
    refine ⟨t, e, ?_⟩
    unfold OpInv
    rw [uses_same st.display st.cursor st.jobs]
    have hlen : 0 < g.outs.length := List.length_pos_of_mem h3
    have : g.poolOwn + g.lost + g.outs.length =
        g.poolOwn + (g.lost + 1) + (g.outs.erase i).length := by
      rw [List.length_erase_of_mem h3]; omega
    rw [this] at vt
    exact vt
  | feed i =>
    obtain ⟨h1, h2⟩ := of_usable hl
    obtain ⟨t, e, st, vt⟩ := giveOpt_inv s.display v (by
      intro j hj
      unfold uses
      rw [if_pos hj]
      omega)
    have hw : OpInv { t with display := none } { g with outs := endUse s s.display g.outs } := by
      have hu : uses { t with display := none } =
          fun j => uses s j - if s.display = some j then 1 else 0 := by
        funext j
        unfold uses
        rw [st.cursor, st.jobs]
        simp
        omega
      unfold OpInv
      rw [hu]
      exact vt.put none t.cursor t.jobs
    obtain ⟨u, eu, vu, su⟩ := take_inv (i := i) (hw.put (some i) t.cursor t.jobs) (by simp only; omega) (by
      intro hp
      obtain ⟨a, b⟩ := h2 ((st.pooled i).symm.trans hp)
      exact endUse_mem a b)
    refine ⟨u, by show (giveOpt s.display s >>= _) = _; rw [e]; exact eu, ?_⟩
    have hu : uses u = add (uses { t with display := none }) i := by
      rw [uses_same su.display su.cursor su.jobs]
      funext j
      unfold add uses
      simp only
      by_cases c : j = i
      · subst c; simp; omega
      · rw [if_neg c, if_neg (by simpa using fun d : i = j => c d.symm)]; simp
    unfold OpInv
    rw [hu]
    rw [add_add] at vu
    exact vu
  | closeDisplay =>
    obtain ⟨t, e, st, vt⟩ := giveOpt_inv s.display v (by
      intro j hj
      unfold uses
      rw [if_pos hj]
      omega)
    refine ⟨_, by show (giveOpt s.display s >>= _) = _; rw [e]; rfl, ?_⟩
    have hu : uses { t with display := none } =
        fun j => uses s j - if s.display = some j then 1 else 0 := by
      funext j
      unfold uses
      rw [st.cursor, st.jobs]
      simp
      omega
    unfold OpInv
    rw [hu]
    exact vt.put none t.cursor t.jobs
  | setCursor c =>
    obtain ⟨t, e, st, vt⟩ := giveOpt_inv s.cursor v (by
      intro j hj
      unfold uses
      rw [if_pos hj]
      omega)
    have hw : OpInv { t with cursor := none } { g with outs := endUse s s.cursor g.outs } := by
      have hu : uses { t with cursor := none } =
          fun j => uses s j - if s.cursor = some j then 1 else 0 := by
        funext j
        unfold uses
        rw [st.display, st.jobs]
        simp
        omega
      unfold OpInv
      rw [hu]
      exact vt.put t.display none t.jobs
    cases c with
    | none =>
      exact ⟨_, by show (giveOpt s.cursor s >>= _) = _; rw [e]; rfl, hw⟩
    | some i =>
      obtain ⟨h1, h2⟩ := of_usable hl
      obtain ⟨u, eu, vu, su⟩ := take_inv (i := i) (hw.put t.display (some i) t.jobs)
        (by simp only; omega) (by
        intro hp
        obtain ⟨a, b⟩ := h2 ((st.pooled i).symm.trans hp)
        exact endUse_mem a b)
      refine ⟨u, by show (giveOpt s.cursor s >>= _) = _; rw [e]; exact eu, ?_⟩
      have hu : uses u = add (uses { t with cursor := none }) i := by
        rw [uses_same su.display su.cursor su.jobs]
        funext j
        unfold add uses
        simp only
        by_cases c : j = i
        · subst c; simp; omega
        · rw [if_neg c, if_neg (c := some i = some j) (by simpa using fun d : i = j => c d.symm)]; simp
      unfold OpInv
      rw [hu]
      rw [add_add] at vu
      exact vu
  | startJob i =>
    have hl' : 0 < uses s i ∨ usable s g none i = true := by simpa [legal] using hl
    have h1 : 0 < g.own i + uses s i := by
      rcases hl' with c | c
      · omega
      · have := (of_usable c).1; omega
    have h2 : (s.fb i).pooled = true → i ∈ g.outs := by
      intro hp
      rcases hl' with c | c
      · exact v.used i hp c
      · exact ((of_usable c).2 hp).1
    obtain ⟨t, e, vt, st⟩ := take_inv v h1 h2
    refine ⟨_, by show (take i s >>= _) = _; rw [e]; rfl, ?_⟩
    have hu : uses { t with jobs := i :: t.jobs } = add (uses s) i := by
      funext j
      unfold add uses
      rw [st.display, st.cursor, st.jobs]
      simp only [List.count_cons]
      by_cases c : j = i
      · subst c; simp; omega
      · rw [if_neg c, if_neg (c := (i == j) = true) (by simpa using fun d : i = j => c d.symm)]; rfl
    unfold OpInv
    rw [hu]
    rw [add_add] at vt
    exact vt.put t.display t.cursor (i :: t.jobs)
  | endJob i =>
    have hj : i ∈ s.jobs := by simpa [legal] using hl
    have hc : 0 < s.jobs.count i := List.count_pos_iff.mpr hj
    have hu0 : 0 < uses s i := by unfold uses; omega
    obtain ⟨t, o, e, vt, st, ho⟩ := give_inv v hu0
    refine ⟨_, by show (give i s >>= _) = _; rw [e]; rfl, ?_⟩
    have hu : uses { t with jobs := t.jobs.erase i } = sub (uses s) i := by
      funext j
      unfold sub uses
      rw [st.display, st.cursor, st.jobs]
      simp only
      by_cases c : j = i
      · subst c; rw [if_pos rfl, List.count_erase_self]; omega
      · rw [if_neg c, List.count_erase_of_ne c]
    subst ho
    unfold OpInv
    rw [hu]
    rw [sub_add _ _ _ hu0] at vt
    exact vt.put t.display t.cursor (t.jobs.erase i)

theorem run_inv (os : List Op) : ∀ {s : St} {g : Gh}, OpInv s g → Legal os s g →
    ∃ t, run os s = .ok t ∧ OpInv t (ghRun os s g) := by
  induction os with
  | nil => exact fun {s} _ v _ => ⟨s, rfl, v⟩
  | cons o os ih =>
    intro s g v hl
    obtain ⟨t, e, vt⟩ := step_inv o v hl.1
    obtain ⟨u, eu, vu⟩ := ih vt (hl.2 t e)
    refine ⟨u, by unfold run; rw [e]; exact eu, ?_⟩
    unfold ghRun
    rw [e]
    exact vu

theorem start_opInv (d : Dims) : OpInv (start d) gh0 := by
  have := start_inv d
  exact this

end Verif.Buffers
