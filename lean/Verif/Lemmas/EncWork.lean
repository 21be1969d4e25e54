import Verif.Spec.EncWork

/-! # Invariant of encoders and their jobs -/

namespace Verif.EncWork

/-- what a callback that is running will still give back -/
structure Rest where
  e : Nat := 0
  ws : List Work := []
  h : Nat → Nat := fun _ => 0

def one (fb : Nat) (h : Nat → Nat) : Nat → Nat := fun i => if i = fb then h i + 1 else h i

/-- no worker is started -/
def Calm (zs : List Quarter) : Prop := ∀ q ∈ zs, q.started = false

def coded (j : Job) : Coded := { fb := j.frame.fb, damage := j.frame.damage, fmt := j.fmt, quality := j.quality }

def result (j : Job) : Result := { parts := [coded j], width := j.frame.width, height := j.frame.height, pts := j.frame.pts }

def bit (b : Bool) : Nat := if b then 1 else 0

/-- nothing is under way -/
structure Rested (R : Rest) (s : State) : Prop where
  works : s.works = R.ws
  work : s.work = none
  calm : Calm s.zs
  nJobs : s.nJobs = 0
  held : s.held = R.h
  ref : s.ref = R.e + bit s.mine
  clean : s.kind = .zrle → s.cur = none ∧ s.result = none

structure Idle (R : Rest) (s : State) : Prop where
  rest : Rested R s
  mine : s.mine = true → s.busy = false ∧ AllShown s.kind s.accepted s.done
  left : s.mine = false → s.handler = false ∧ ∃ a b, s.accepted = a ++ b ∧ b.length ≤ 1 ∧ AllShown s.kind a s.done

/-- a worker of Tight: at work, or done with what it made -/
def QuarterOk (j : Job) (q : Quarter) : Prop :=
  (q.started = true ∧ q.ran = false) ∨ q.part = some (coded j)

def nStarted (zs : List Quarter) : Nat := (zs.filter (·.started)).length

def Own (R : Rest) (j : Job) (s : State) : Prop :=
  match s.kind with
  | .raw => Calm s.zs ∧ s.nJobs = 0 ∧ s.held = one j.frame.fb R.h ∧ s.ref = R.e + 1 + bit s.mine ∧ ∃ id b, id < s.next ∧
    (∀ k ∈ R.ws, k.id ≠ id) ∧ s.work = some id ∧
    s.works = R.ws ++ [{ id := id, refs := 2, started := true, ran := b, job := some (j.frame, j.fmt),
                         result := if b then some (result j) else none }]
  | .zrle => Calm s.zs ∧ s.nJobs = 0 ∧ s.held = one j.frame.fb R.h ∧ s.ref = R.e + 1 + bit s.mine ∧ s.fmt = j.fmt ∧ s.cur = some j.frame ∧
    ∃ id b, id < s.next ∧ (∀ k ∈ R.ws, k.id ≠ id) ∧ s.work = some id ∧ s.result = (if b then some (result j) else none) ∧
    s.works = R.ws ++ [{ id := id, refs := 2, started := true, ran := b }]
  | .tight => s.work = none ∧ (s.pts = j.frame.pts ∨ j.inside = true ∧ s.pts = none) ∧
    s.width = j.frame.width ∧ s.height = j.frame.height ∧ (∀ q ∈ s.zs, QuarterOk j q) ∧ s.nJobs = nStarted s.zs ∧
    ((0 < s.nJobs ∧ s.works = R.ws ∧ s.held = one j.frame.fb R.h ∧ s.ref = R.e + s.nJobs + bit s.mine ∧ s.cur = some j.frame ∧
        s.fmt = j.fmt ∧ s.quality = j.quality) ∨
      (s.nJobs = 0 ∧ s.held = R.h ∧ s.ref = R.e + 1 + bit s.mine ∧ ∃ id b, id < s.next ∧ (∀ k ∈ R.ws, k.id ≠ id) ∧
        s.works = R.ws ++ [{ id := id, refs := 1, started := true, ran := b }]))

structure Working (R : Rest) (j : Job) (s : State) : Prop where
  jobs : ∃ a, s.accepted = a ++ [j] ∧ AllShown s.kind a s.done
  mine : s.mine = true → s.busy = true ∧ s.handler = true
  left : s.mine = false → s.handler = false
  plain : s.kind ≠ .tight → j.quality = 0
  own : Own R j s

structure Inv (R : Rest) (P : Job → Prop) (s : State) : Prop where
  ids : ∀ k ∈ R.ws, k.id < s.next
  freed : s.freed = decide (s.ref = 0)
  len : s.zs.length = 4
  grid : s.grid = true
  shape : Idle R s ∨ ∃ j, P j ∧ Working R j s

theorem fresh_inv (k : Kind) (w h : Nat) : Inv {} (fun _ => True) (fresh k w h) := by
  refine ⟨by simp, by simp [fresh], by simp [fresh], rfl, .inl ⟨⟨rfl, rfl, by simp [Calm, fresh], rfl, rfl, by simp [fresh, bit], ?_⟩, ?_, ?_⟩⟩
  · intro _; exact ⟨rfl, rfl⟩
  · intro _; exact ⟨rfl, .nil⟩
  · intro h; simp [fresh] at h

theorem one_release (fb : Nat) (h : Nat → Nat) : (fun i => if i = fb then one fb h i - 1 else one fb h i) = h := by
  funext i; unfold one; by_cases e : i = fb <;> simp [e]

theorem release_one {fb : Nat} {h : Nat → Nat} {s : State} (hs : s.held = one fb h) : release fb s = .ok { s with held := h } := by
  unfold release
  rw [if_neg (by rw [hs]; simp [one])]
  rw [hs, one_release]

theorem encoderUnref_ok {s : State} {n : Nat} (hf : s.freed = false) (hr : s.ref = n + 2) :
    encoderUnref s = .ok { s with ref := n + 1 } := by
  unfold encoderUnref
  rw [if_neg (by simp [hf]), if_neg (by omega)]
  simp [hr]

theorem encoderUnref_last {s : State} (hf : s.freed = false) (hr : s.ref = 1) (hw : s.work = none) :
    encoderUnref s = .ok { s with ref := 0, freed := true } := by
  unfold encoderUnref
  rw [if_neg (by simp [hf]), if_pos hr]
  unfold destroy
  simp only [hw]
  cases s.kind <;> rfl

/-- giving back one of several references, or the last one of an encoder without work -/
theorem encoderUnref_any {s : State} {n : Nat} (hf : s.freed = decide (s.ref = 0)) (hr : s.ref = n + 1) (hw : n = 0 → s.work = none) :
    encoderUnref s = .ok { s with ref := n, freed := decide (n = 0) } := by
  have hf' : s.freed = false := by simp [hf, hr]
  cases n with
  | zero => simpa using encoderUnref_last hf' hr (hw rfl)
  | succ n => rw [encoderUnref_ok hf' hr]; simp [hf']

theorem encoderRef_ok {s : State} (hf : s.freed = decide (s.ref = 0)) (hr : 0 < s.ref) : encoderRef s = .ok { s with ref := s.ref + 1 } := by
  unfold encoderRef
  rw [if_neg (by simp [hf]; omega), if_neg (by omega)]

theorem find_own {ws : List Work} {k : Work} (h : ∀ x ∈ ws, x.id ≠ k.id) :
    (ws ++ [k]).find? (fun x => decide (x.id = k.id)) = some k := by
  rw [List.find?_append, List.find?_eq_none.2 (by simpa using h)]
  simp

theorem map_own {ws : List Work} {k : Work} {g : Work → Work} (h : ∀ x ∈ ws, x.id ≠ k.id) :
    (ws ++ [k]).map (fun x => if x.id = k.id then g x else x) = ws ++ [g k] := by
  rw [List.map_append]
  congr 1
  · conv => rhs; rw [← List.map_id ws]
    apply List.map_congr_left
    intro x hx; simp [h x hx]
  · simp

theorem filter_own {ws : List Work} {k : Work} (h : ∀ x ∈ ws, x.id ≠ k.id) :
    (ws ++ [k]).filter (fun x => decide (x.id ≠ k.id)) = ws := by
  rw [List.filter_append, List.filter_eq_self.2 (by simpa using h)]
  simp

theorem workStart_own {w : Nat} {ws : List Work} {k : Work} {s : State} (hk : k.id = w) (h : ∀ x ∈ ws, x.id ≠ w) (hs : s.works = ws ++ [k]) :
    workStart w s = { s with works := ws ++ [{ k with refs := k.refs + 1, started := true }] } := by
  subst hk
  unfold workStart
  rw [hs, map_own h]

/-- what encoding leaves as it is -/
structure Keep (s s' : State) : Prop where
  kind : s'.kind = s.kind
  mine : s'.mine = s.mine
  busy : s'.busy = s.busy
  handler : s'.handler = s.handler
  accepted : s'.accepted = s.accepted
  done : s'.done = s.done
  grid : s'.grid = s.grid
  len : s'.zs.length = s.zs.length
  fmt : s'.fmt = s.fmt
  quality : s'.quality = s.quality
  next : s.next ≤ s'.next

def Job.of (f : Frame) (s : State) (i : Bool) : Job := { frame := f, fmt := s.fmt, quality := s.quality, inside := i }

/-- what becomes of a frame that is given to an idle encoder -/
def Takes (R : Rest) (f : Frame) (s : State) (o : Outcome (State × Int)) : Prop :=
  ∃ s' rc, o = .ok (s', rc) ∧ Keep s s' ∧ s'.freed = decide (s'.ref = 0) ∧
    ((rc = -1 ∧ Rested R s') ∨ (rc = 0 ∧ ∀ i, Own R (Job.of f s i) s'))

theorem rawEncode_inv {R : Rest} {s : State} {f : Frame} {e : Faults} (hi : Rested R s) (hids : ∀ k ∈ R.ws, k.id < s.next)
    (hk : s.kind = .raw) (hf : s.freed = decide (s.ref = 0)) (hm : s.mine = true) : Takes R f s (rawEncode f e s) := by
  have hr : s.ref = R.e + 1 := by simpa [hm, bit] using hi.ref
  have hf0 : s.freed = false := by simp [hf, hr]
  unfold rawEncode
  by_cases h1 : e.noCtx = true
  · rw [if_pos h1]; exact ⟨s, _, rfl, ⟨rfl, rfl, rfl, rfl, rfl, rfl, rfl, rfl, rfl, rfl, Nat.le_refl _⟩, hf, .inl ⟨rfl, hi⟩⟩
  rw [if_neg h1]
  by_cases h2 : e.noWork = true
  · rw [if_pos h2]
    exact ⟨_, _, rfl, ⟨rfl, rfl, rfl, rfl, rfl, rfl, rfl, rfl, rfl, rfl, Nat.le_refl _⟩, hf,
      .inl ⟨rfl, ⟨hi.works, rfl, hi.calm, hi.nJobs, hi.held, hi.ref, hi.clean⟩⟩⟩
  rw [if_neg h2]
  have hne : ∀ x ∈ R.ws, x.id ≠ s.next := fun x hx => by have := hids x hx; omega
  simp only [encoderRef_ok (s := { s with work := some s.next, next := s.next + 1 }) hf (by simp [hr]), Outcome.bind_ok]
  have hh : (fun i => if i = f.fb then s.held i + 1 else s.held i) = one f.fb R.h := by rw [hi.held]; rfl
  by_cases h3 : e.noStart = true
  · rw [if_pos h3]
    have hw : workUnref s.next (hold f.fb { s with work := some s.next, next := s.next + 1, ref := s.ref + 1, works := s.works ++ [({ id := s.next, job := some (f, s.fmt) } : Work)] }) =
        .ok { s with work := some s.next, next := s.next + 1, works := R.ws, held := R.h } := by
      unfold workUnref hold
      simp only [hi.works]
      rw [find_own (k := { id := s.next, job := some (f, s.fmt) }) hne]
      simp only [if_true]
      rw [filter_own (k := { id := s.next, job := some (f, s.fmt) }) hne]
      unfold workDestroy
      simp only [hh]
      rw [release_one rfl]
      simp only [Outcome.bind_ok]
      rw [encoderUnref_ok (n := R.e) (by simp [hf0]) (by simp [hr])]
      simp [hr]
    rw [hw]
    simp only [Outcome.bind_ok]
    exact ⟨_, _, rfl, ⟨rfl, rfl, rfl, rfl, rfl, rfl, rfl, rfl, rfl, rfl, by simp⟩, hf,
      .inl ⟨rfl, ⟨rfl, rfl, hi.calm, hi.nJobs, rfl, hi.ref, hi.clean⟩⟩⟩
  · rw [if_neg h3]
    rw [workStart_own (w := s.next) (ws := R.ws) (k := { id := s.next, job := some (f, s.fmt) }) rfl hne (by simp [hold, hi.works])]
    refine ⟨_, _, rfl, ⟨rfl, rfl, rfl, rfl, rfl, rfl, rfl, rfl, rfl, rfl, by simp [hold]⟩, by simp [hold, hf0], .inr ⟨rfl, fun i => ?_⟩⟩
    unfold Own
    simp only [hold, hk]
    exact ⟨hi.calm, hi.nJobs, hh, by rw [hr, hm]; simp [bit], s.next, false, by omega, hne, rfl, rfl⟩

theorem zrleEncode_inv {R : Rest} {s : State} {f : Frame} {e : Faults} (hi : Rested R s) (hids : ∀ k ∈ R.ws, k.id < s.next)
    (hk : s.kind = .zrle) (hf : s.freed = decide (s.ref = 0)) (hm : s.mine = true) : Takes R f s (zrleEncode f e s) := by
  have hr : s.ref = R.e + 1 := by simpa [hm, bit] using hi.ref
  have hf0 : s.freed = false := by simp [hf, hr]
  obtain ⟨hc, hres⟩ := hi.clean hk
  unfold zrleEncode
  rw [if_neg (by simp [hc])]
  by_cases h2 : e.noWork = true
  · rw [if_pos h2]
    exact ⟨_, _, rfl, ⟨rfl, rfl, rfl, rfl, rfl, rfl, rfl, rfl, rfl, rfl, Nat.le_refl _⟩, hf,
      .inl ⟨rfl, ⟨hi.works, rfl, hi.calm, hi.nJobs, hi.held, hi.ref, hi.clean⟩⟩⟩
  rw [if_neg h2]
  have hne : ∀ x ∈ R.ws, x.id ≠ s.next := fun x hx => by have := hids x hx; omega
  have hh : (fun i => if i = f.fb then s.held i + 1 else s.held i) = one f.fb R.h := by rw [hi.held]; rfl
  simp only
  rw [encoderRef_ok (by simp [hold, hf]) (by simp [hold, hr])]
  simp only [Outcome.bind_ok]
  by_cases h3 : e.noStart = true
  · rw [if_pos h3]
    rw [encoderUnref_ok (n := R.e) (by simp [hold, hf0]) (by simp [hold, hr])]
    simp only [Outcome.bind_ok]
    have hw : workUnref s.next { hold f.fb { s with work := some s.next, next := s.next + 1, works := s.works ++ [({ id := s.next } : Work)], cur := some f } with ref := R.e + 1 } =
        .ok { s with work := some s.next, next := s.next + 1, works := R.ws, held := one f.fb R.h, cur := some f, ref := R.e + 1 } := by
      unfold workUnref hold
      simp only [hi.works]
      rw [find_own (k := { id := s.next }) hne]
      simp only [if_true]
      rw [filter_own (k := { id := s.next }) hne]
      unfold workDestroy
      simp only [hh]
    simp only [hold] at hw ⊢
    rw [hw]
    simp only [Outcome.bind_ok]
    rw [release_one (fb := f.fb) (h := R.h) rfl]
    simp only [Outcome.bind_ok]
    exact ⟨_, _, rfl, ⟨rfl, rfl, rfl, rfl, rfl, rfl, rfl, rfl, rfl, rfl, by simp⟩, by simp [hf0],
      .inl ⟨rfl, ⟨rfl, rfl, hi.calm, hi.nJobs, rfl, by simp [hm, bit], fun _ => ⟨rfl, hres⟩⟩⟩⟩
  · rw [if_neg h3]
    rw [workStart_own (w := s.next) (ws := R.ws) (k := { id := s.next }) rfl hne (by simp [hold, hi.works])]
    refine ⟨_, _, rfl, ⟨rfl, rfl, rfl, rfl, rfl, rfl, rfl, rfl, rfl, rfl, by simp [hold]⟩, by simp [hold, hf0], .inr ⟨rfl, fun i => ?_⟩⟩
    unfold Own
    simp only [hold, hk]
    exact ⟨hi.calm, hi.nJobs, hh, by rw [hr, hm]; simp [bit], rfl, rfl, s.next, false, by omega, hne, rfl, by simpa using hres, rfl⟩

theorem tightEncode_inv {R : Rest} {s : State} {f : Frame} {e : Faults} (hi : Rested R s)
    (hk : s.kind = .tight) (hf : s.freed = decide (s.ref = 0)) (hm : s.mine = true) (hl : s.zs.length = 4) (hg : s.grid = true)
    (he : e.Fine) : Takes R f s (tightEncode f e s) := by
  have hr : s.ref = R.e + 1 := by simpa [hm, bit] using hi.ref
  have hf0 : s.freed = false := by simp [hf, hr]
  have hh : (fun i => if i = f.fb then s.held i + 1 else s.held i) = one f.fb R.h := by rw [hi.held]; rfl
  unfold tightEncode
  obtain ⟨hg0, hj⟩ := he
  have hs : ∃ w h, (if s.width = f.width ∧ s.height = f.height then s else
      { s with width := f.width, height := f.height, grid := !e.noGrid }) = { s with width := w, height := h } ∧ w = f.width ∧ h = f.height := by
    by_cases c : s.width = f.width ∧ s.height = f.height
    · rw [if_pos c]; exact ⟨s.width, s.height, rfl, c⟩
    · rw [if_neg c]; refine ⟨f.width, f.height, ?_, rfl, rfl⟩; simp [hg0, hg]
  obtain ⟨w, h, hs, hw, hh'⟩ := hs
  simp only [hs]
  simp only [hg0, Bool.false_eq_true, and_false, if_false]
  by_cases h1 : (e.noMap || e.noVec) = true
  · rw [if_pos h1]
    exact ⟨_, _, rfl, ⟨rfl, rfl, rfl, rfl, rfl, rfl, rfl, rfl, rfl, rfl, Nat.le_refl _⟩, hf,
      .inl ⟨rfl, ⟨hi.works, hi.work, hi.calm, hi.nJobs, hi.held, hi.ref, by simp [hk]⟩⟩⟩
  rw [if_neg h1, if_neg (by simp [hg])]
  rcases hj with hj | hj
  · have e1 : tightSchedule e 0 4 (hold f.fb { s with width := w, height := h, cur := some f, pts := f.pts }) =
        .ok (hold f.fb { s with width := w, height := h, cur := some f, pts := f.pts }, -1) := by
      unfold tightSchedule
      rw [encoderRef_ok (by simp [hold, hf]) (by simp [hold, hr])]
      simp only [Outcome.bind_ok]
      rw [if_pos hj, encoderUnref_ok (n := R.e) (by simp [hold, hf0]) (by simp [hold, hr])]
      simp [hold, hr]
    rw [e1]
    simp only [Outcome.bind_ok]
    rw [if_pos (by decide), release_one (h := R.h) (by simp [hold, hh])]
    simp only [Outcome.bind_ok]
    exact ⟨_, _, rfl, ⟨rfl, rfl, rfl, rfl, rfl, rfl, rfl, rfl, rfl, rfl, Nat.le_refl _⟩, hf,
      .inl ⟨rfl, ⟨hi.works, hi.work, hi.calm, hi.nJobs, rfl, hi.ref, by simp [hold, hk]⟩⟩⟩
  · have e1 : tightSchedule e 0 4 (hold f.fb { s with width := w, height := h, cur := some f, pts := f.pts }) =
        .ok ({ s with width := w, height := h, cur := some f, pts := f.pts, held := one f.fb R.h, nJobs := 4, ref := R.e + 5, zs := [{ started := true }, { started := true }, { started := true }, { started := true }] }, 0) := by
      match hz : s.zs, hl with
      | [a, b, c, d], _ =>
        simp [tightSchedule, encoderRef, hf0, hold, hr, hj, Outcome.bind_ok, hi.nJobs, hh, hz]
    rw [e1]
    simp only [Outcome.bind_ok]
    rw [if_neg (by decide)]
    refine ⟨_, _, rfl, ⟨rfl, rfl, rfl, rfl, rfl, rfl, rfl, by simp [hl], rfl, rfl, Nat.le_refl _⟩, by simp [hf0], .inr ⟨rfl, fun i => ?_⟩⟩
    unfold Own
    simp only [hk]
    refine ⟨hi.work, .inl rfl, hw, hh', ?_, rfl, .inl ⟨by omega, hi.works, rfl, by rw [hm]; simp [bit], rfl, rfl, rfl⟩⟩
    intro q hq
    simp only [List.mem_cons, List.not_mem_nil, or_false, or_self] at hq
    subst hq; exact .inl ⟨rfl, rfl⟩

theorem encode_inv {R : Rest} {s : State} {f : Frame} {e : Faults} (hi : Rested R s) (hids : ∀ k ∈ R.ws, k.id < s.next)
    (hf : s.freed = decide (s.ref = 0)) (hm : s.mine = true) (hl : s.zs.length = 4) (hg : s.grid = true)
    (he : s.kind = .tight → e.Fine) : Takes R f s (encode f e s) := by
  unfold encode
  cases hk : s.kind with
  | raw => exact rawEncode_inv hi hids hk hf hm
  | zrle => exact zrleEncode_inv hi hids hk hf hm
  | tight => exact tightEncode_inv hi hk hf hm hl hg (he hk)

/-- the encoder's count goes from one more to this -/
theorem Own.close {R : Rest} {j : Job} {s : State} (h : Own R j s) (hm : s.mine = true) :
    ∃ n, s.ref = n + 2 ∧ Own R j { s with handler := false, mine := false, ref := n + 1 } := by
  unfold Own at h ⊢
  cases hk : s.kind with
  | raw =>
    simp only [hk, hm, bit, if_true] at h ⊢
    obtain ⟨h1, h2, h3, h4, h5⟩ := h
    exact ⟨R.e, h4, h1, h2, h3, by simp, h5⟩
  | zrle =>
    simp only [hk, hm, bit, if_true] at h ⊢
    obtain ⟨h1, h2, h3, h4, h5⟩ := h
    exact ⟨R.e, h4, h1, h2, h3, by simp, h5⟩
  | tight =>
    simp only [hk, hm, bit, if_true] at h ⊢
    obtain ⟨h1, h2, h3, h4, h5, h6, ⟨g1, g2, g3, g4, g5⟩ | ⟨g1, g2, g3, g5⟩⟩ := h
    · exact ⟨R.e + s.nJobs - 1, by omega, h1, h2, h3, h4, h5, h6, .inl ⟨g1, g2, g3, by simp; omega, g5⟩⟩
    · exact ⟨R.e, g3, h1, h2, h3, h4, h5, h6, .inr ⟨g1, g2, by simp, g5⟩⟩

theorem act_inv {R : Rest} {P : Job → Prop} {s : State} {a : Act} {i : Bool} (h : Inv R P s) (ha : a.Fine s.kind)
    (hP : ∀ j, j.inside = i → P j) : ∃ s', act i a s = .ok s' ∧ Inv R P s' ∧ s'.kind = s.kind := by
  unfold act
  by_cases hm : s.mine = true
  case neg => rw [if_pos (by simpa using hm)]; exact ⟨s, rfl, h, rfl⟩
  rw [if_neg (by simp [hm])]
  cases a with
  | close =>
    have hpos : 0 < s.ref := by
      rcases h.shape with hi | ⟨j, _, hw⟩
      · have := hi.rest.ref; rw [hm] at this; simp [bit] at this; omega
      · obtain ⟨n, hn, _⟩ := hw.own.close hm; omega
    have hf0 : s.freed = false := by simp [h.freed]; omega
    simp only
    rw [if_neg (by simp [hf0])]
    rcases h.shape with hi | ⟨j, hp, hw⟩
    · have hr : s.ref = R.e + 1 := by simpa [hm, bit] using hi.rest.ref
      rw [encoderUnref_any (n := R.e) (by simp [h.freed]) (by simp [hr]) (fun _ => by simp [hi.rest.work])]
      refine ⟨_, rfl, ⟨h.ids, rfl, h.len, h.grid, .inl ⟨⟨hi.rest.works, hi.rest.work, hi.rest.calm, hi.rest.nJobs, hi.rest.held, ?_, hi.rest.clean⟩, ?_, ?_⟩⟩, rfl⟩
      · simp [bit]
      · intro hc; simp at hc
      · intro _; exact ⟨rfl, s.accepted, [], by simp, by simp, (hi.mine hm).2⟩
    · obtain ⟨n, hn, ho⟩ := hw.own.close hm
      rw [encoderUnref_ok (n := n) (by simp [hf0]) (by simp [hn])]
      exact ⟨_, rfl, ⟨h.ids, by simp [hf0], h.len, h.grid, .inr ⟨j, hp, ⟨hw.jobs, by simp, fun _ => rfl, hw.plain, ho⟩⟩⟩, rfl⟩
  | encode f fmt q e =>
    simp only
    rcases h.shape with hi | ⟨j, hp, hw⟩
    · obtain ⟨hb, hsh⟩ := hi.mine hm
      have hr : s.ref = R.e + 1 := by simpa [hm, bit] using hi.rest.ref
      have hf0 : s.freed = false := by simp [h.freed, hr]
      rw [if_neg (by simp [hb]), if_neg (by simp [hf0])]
      obtain ⟨s', rc, e1, hk, hf', hcase⟩ := encode_inv (R := R) (s := { s with fmt := fmt, quality := if s.kind = .tight then q else 0, busy := true, handler := true })
        (f := f) (e := e) ⟨hi.rest.works, hi.rest.work, hi.rest.calm, hi.rest.nJobs, hi.rest.held, hi.rest.ref, hi.rest.clean⟩
        h.ids h.freed hm h.len h.grid ha
      rw [e1]
      simp only [Outcome.bind_ok]
      rcases hcase with ⟨rfl, hrest⟩ | ⟨rfl, hown⟩
      · rw [if_neg (by decide)]
        refine ⟨_, rfl, ⟨fun k hk' => Nat.lt_of_lt_of_le (h.ids k hk') hk.next, hf', hk.len.trans h.len, hk.grid.trans h.grid,
          .inl ⟨⟨hrest.works, hrest.work, hrest.calm, hrest.nJobs, hrest.held, hrest.ref, hrest.clean⟩, ?_, ?_⟩⟩, hk.kind⟩
        · intro _; refine ⟨rfl, ?_⟩
          show AllShown s'.kind s'.accepted s'.done
          rw [hk.kind, hk.accepted, hk.done]; exact hsh
        · intro hc; simp only [hk.mine, hm] at hc; exact absurd hc (by simp)
      · rw [if_pos (by decide)]
        refine ⟨_, rfl, ⟨fun k hk' => Nat.lt_of_lt_of_le (h.ids k hk') hk.next, hf', hk.len.trans h.len, hk.grid.trans h.grid,
          .inr ⟨{ frame := f, fmt := fmt, quality := s'.quality, inside := i }, hP _ rfl, ⟨⟨s.accepted, ?_, ?_⟩, ?_, ?_, ?_, ?_⟩⟩⟩, hk.kind⟩
        · simp [hk.accepted]
        · show AllShown s'.kind s.accepted s'.done
          rw [hk.kind, hk.done]; exact hsh
        · intro _; exact ⟨hk.busy, hk.handler⟩
        · intro hc; simp only [hk.mine, hm] at hc; exact absurd hc (by simp)
        · intro hne; rw [hk.quality]; simp only [hk.kind] at hne; simp [hne]
        · have := hown i
          simp only [Job.of] at this
          have hq := hk.quality
          simp only at hq
          rw [← hq] at this
          exact this
    · obtain ⟨hb, _⟩ := hw.mine hm
      rw [if_pos hb]
      exact ⟨s, rfl, h, rfl⟩

theorem acts_inv {R : Rest} {P : Job → Prop} {i : Bool} (hP : ∀ j, j.inside = i → P j) : ∀ (as : List Act) (s : State),
    Inv R P s → (∀ a ∈ as, a.Fine s.kind) → ∃ s', acts i as s = .ok s' ∧ Inv R P s' ∧ s'.kind = s.kind := by
  intro as
  induction as with
  | nil => intro s h _; exact ⟨s, rfl, h, rfl⟩
  | cons a as ih =>
    intro s h ha
    obtain ⟨s1, e1, h1, k1⟩ := act_inv h (ha a (by simp)) hP
    obtain ⟨s2, e2, h2, k2⟩ := ih s1 h1 (fun b hb => by rw [k1]; exact ha b (by simp [hb]))
    exact ⟨s2, by simp [acts, e1, e2, Outcome.bind_ok], h2, k2.trans k1⟩

/-- nothing is being called -/
abbrev Top (s : State) : Prop := Inv {} (fun _ => True) s

theorem find_one {k : Work} {p : Work → Bool} : [k].find? p = if p k then some k else none := by
  simp [List.find?_cons]; cases p k <;> rfl

theorem look_ok {f : Frame} {s : State} {h : Nat → Nat} (hh : s.held = one f.fb h) (fmt q : Nat) :
    look f fmt q s = .ok { fb := f.fb, damage := f.damage, fmt := fmt, quality := q } := by
  unfold look; rw [if_neg (by rw [hh]; simp [one])]

theorem Calm.get {zs : List Quarter} (h : Calm zs) {i : Nat} {q : Quarter} (hq : zs[i]? = some q) : q.started = false :=
  h q (List.mem_of_getElem? hq)

theorem Working.quarters {R : Rest} {j : Job} {s : State} (h : Working R j s) (hk : s.kind ≠ .tight) : Calm s.zs := by
  have := h.own
  unfold Own at this
  cases hk' : s.kind with
  | raw => simp only [hk'] at this; exact this.1
  | zrle => simp only [hk'] at this; exact this.1
  | tight => exact absurd hk' hk

theorem runWork_inv {s : State} (h : Top s) (w : Nat) : ∃ s', runWork w true s = .ok s' ∧ Top s' ∧ s'.kind = s.kind := by
  unfold runWork
  rcases h.shape with hi | ⟨j, _, hw⟩
  · rw [hi.rest.works]; exact ⟨s, rfl, h, rfl⟩
  have ho := hw.own
  have hpos : 0 < s.ref := by
    unfold Own at ho
    cases hk : s.kind with
    | raw => simp only [hk] at ho; omega
    | zrle => simp only [hk] at ho; omega
    | tight => simp only [hk] at ho; obtain ⟨-, -, -, -, -, -, ⟨_, -, -, _, -⟩ | ⟨-, -, _, -⟩⟩ := ho <;> omega
  have hf0 : s.freed = false := by simp [h.freed]; omega
  unfold Own at ho
  cases hk : s.kind with
  | raw =>
    simp only [hk] at ho
    obtain ⟨h1, h2, h3, h4, id, b, h5, h6, h7, h8⟩ := ho
    rw [h8, List.nil_append, find_one]
    by_cases hc : id = w ∧ b = false
    · obtain ⟨rfl, rfl⟩ := hc
      simp only [Bool.not_true, Bool.false_eq_true, if_false, not_false_eq_true, and_self, decide_true, if_true]
      rw [look_ok h3]
      simp only [Outcome.bind_ok]
      refine ⟨_, rfl, ⟨h.ids, h.freed, h.len, h.grid, .inr ⟨j, trivial, ⟨by have := hw.jobs; rwa [hk] at this, hw.mine, hw.left, by simpa [hk] using hw.plain, ?_⟩⟩⟩, rfl⟩
      unfold Own
      simp only [hk]
      refine ⟨h1, h2, h3, h4, id, true, h5, h6, h7, ?_⟩
      have hq := hw.plain (by simp [hk])
      simp [result, coded, hq]
    · rw [if_neg (by simpa using fun e => by cases b <;> simp_all)]
      exact ⟨s, rfl, h, hk⟩
  | zrle =>
    simp only [hk] at ho
    obtain ⟨h1, h2, h3, h4, g1, g2, id, b, h5, h6, h7, h9, h8⟩ := ho
    rw [h8, List.nil_append, find_one]
    by_cases hc : id = w ∧ b = false
    · obtain ⟨rfl, rfl⟩ := hc
      simp only [Bool.not_true, Bool.false_eq_true, if_false, not_false_eq_true, and_self, decide_true, if_true]
      rw [if_neg (by simp [hf0]), g2]
      simp only
      rw [look_ok h3]
      simp only [Outcome.bind_ok]
      refine ⟨_, rfl, ⟨h.ids, h.freed, h.len, h.grid, .inr ⟨j, trivial, ⟨by have := hw.jobs; rwa [hk] at this, hw.mine, hw.left, by simpa [hk] using hw.plain, ?_⟩⟩⟩, rfl⟩
      unfold Own
      simp only [hk]
      refine ⟨h1, h2, h3, h4, g1, trivial, id, true, h5, h6, h7, ?_, ?_⟩
      · have hq := hw.plain (by simp [hk])
        simp [result, coded, hq, g1]
      · simp
    · rw [if_neg (by simpa using fun e => by cases b <;> simp_all)]
      exact ⟨s, rfl, h, hk⟩
  | tight =>
    simp only [hk] at ho
    obtain ⟨h1, h2, h3, h4, h5, h6, ⟨g1, g2, g3⟩ | ⟨g1, g2, g3, id, b, g4, g5, g6⟩⟩ := ho
    · rw [g2]; exact ⟨s, rfl, h, hk⟩
    · rw [g6, List.nil_append, find_one]
      by_cases hc : id = w ∧ b = false
      · obtain ⟨rfl, rfl⟩ := hc
        simp only [Bool.false_eq_true, not_false_eq_true, and_self, decide_true, if_true]
        rw [if_neg (by simp [hf0])]
        refine ⟨_, rfl, ⟨h.ids, h.freed, h.len, h.grid, .inr ⟨j, trivial, ⟨by have := hw.jobs; rwa [hk] at this, hw.mine, hw.left, by simp, ?_⟩⟩⟩, rfl⟩
        unfold Own
        simp only [hk]
        exact ⟨h1, h2, h3, h4, h5, h6, .inr ⟨g1, g2, g3, id, true, g4, g5, by simp⟩⟩
      · rw [if_neg (by simpa using fun e => by cases b <;> simp_all)]
        exact ⟨s, rfl, h, hk⟩

theorem one_comm (a b : Nat) (h : Nat → Nat) : one a (one b h) = one b (one a h) := by
  funext i; simp only [one]; split <;> split <;> rfl

theorem Inv.weaken {R : Rest} {P : Job → Prop} {s : State} (h : Inv R P s) : Inv R (fun _ => True) s :=
  ⟨h.ids, h.freed, h.len, h.grid, h.shape.imp id fun ⟨j, _, hw⟩ => ⟨j, trivial, hw⟩⟩

/-- a frame is handed over: the encoder is idle, but for what the callback will give back -/
theorem finishFrame_inv {R : Rest} {s : State} {j : Job} {a : List Job} {r : Result} {as : List Act} (hr : Rested R s)
    (ids : ∀ k ∈ R.ws, k.id < s.next) (hf : s.freed = decide (s.ref = 0)) (hl : s.zs.length = 4) (hg : s.grid = true) (he : 0 < R.e)
    (ha : s.accepted = a ++ [j]) (hs : AllShown s.kind a s.done) (hj : Shows s.kind j r)
    (hm : s.mine = true → s.handler = true) (hm' : s.mine = false → s.handler = false) (has : ∀ x ∈ as, x.Fine s.kind) :
    ∃ s', finishFrame r as s = .ok s' ∧ Inv R (fun j => as ≠ [] ∧ j.inside = true) s' ∧ s'.kind = s.kind := by
  unfold finishFrame
  have hpos : 0 < s.ref := by rw [hr.ref]; omega
  rw [if_neg (by simp [hf]; omega)]
  by_cases hh : s.handler = true
  · rw [if_pos hh]
    have hmine : s.mine = true := by
      cases c : s.mine with
      | true => rfl
      | false => rw [hm' c] at hh; exact absurd hh (by simp)
    have hgo : ∀ s0 : State, s0.kind = s.kind → Inv R (fun j => as ≠ [] ∧ j.inside = true) s0 →
        ∃ s', acts true as s0 = .ok s' ∧ Inv R (fun j => as ≠ [] ∧ j.inside = true) s' ∧ s'.kind = s0.kind := by
      intro s0 hk hi
      cases as with
      | nil => exact ⟨s0, rfl, hi, rfl⟩
      | cons x xs => exact acts_inv (i := true) (fun _ h => ⟨by simp, h⟩) _ _ hi (by rw [hk]; exact has)
    refine hgo _ rfl ?_
    refine ⟨ids, hf, hl, hg, .inl ⟨⟨hr.works, hr.work, hr.calm, hr.nJobs, hr.held, hr.ref, hr.clean⟩, ?_, ?_⟩⟩
    · intro _
      refine ⟨rfl, ?_⟩
      show AllShown s.kind s.accepted (s.done ++ [r])
      rw [ha]
      exact .snoc hs hj
    · intro hc; simp only [hmine] at hc; exact absurd hc (by simp)
  · rw [if_neg hh]
    have hmine : s.mine = false := by
      cases c : s.mine with
      | false => rfl
      | true => exact absurd (hm c) hh
    refine ⟨s, rfl, ⟨ids, hf, hl, hg, .inl ⟨hr, by simp [hmine], fun _ => ⟨by simpa using hh, a, [j], ha, by simp, hs⟩⟩⟩, rfl⟩

theorem find_head {k : Work} {ws : List Work} {w : Nat} (h : k.id = w) : (k :: ws).find? (fun x => decide (x.id = w)) = some k := by
  simp [h]

theorem filter_head {k : Work} {ws : List Work} {w : Nat} (h : k.id = w) (hw : ∀ x ∈ ws, x.id ≠ w) :
    (k :: ws).filter (fun x => decide (x.id ≠ w)) = ws := by
  rw [List.filter_cons_of_neg (by simp [h]), List.filter_eq_self.2 (by simpa using hw)]

/-- Raw: aml gives back the work, the work its framebuffer and its encoder -/
theorem raw_drop {s : State} {k : Work} {f : Frame} {m : Nat} {P : Job → Prop} (hk : s.kind = .raw)
    (h : Inv { e := 1, ws := [k], h := one f.fb fun _ => 0 } P s) (hr : k.refs = 1) (hj : k.job = some (f, m)) :
    ∃ s', workUnref k.id s = .ok s' ∧ Inv {} P s' ∧ s'.kind = s.kind := by
  unfold workUnref
  rcases h.shape with hi | ⟨j, hp, hw⟩
  · rw [hi.rest.works, find_head rfl]
    simp only [hr, if_true]
    rw [filter_head rfl (by simp)]
    unfold workDestroy
    rw [hj]
    simp only
    rw [release_one (h := fun _ => 0) (by simp [hi.rest.held])]
    simp only [Outcome.bind_ok]
    rw [encoderUnref_any (n := bit s.mine) (by simp [h.freed]) (by simp [hi.rest.ref]; omega) (fun _ => by simp [hi.rest.work])]
    exact ⟨_, rfl, ⟨by simp, rfl, h.len, h.grid, .inl ⟨⟨rfl, hi.rest.work, hi.rest.calm, hi.rest.nJobs, rfl, by simp, hi.rest.clean⟩,
      hi.mine, hi.left⟩⟩, rfl⟩
  · have ho := hw.own
    unfold Own at ho
    simp only [hk] at ho
    obtain ⟨h1, h2, h3, h4, id, b, h5, h6, h7, h8⟩ := ho
    have hne : id ≠ k.id := fun e => h6 k (by simp) e.symm
    rw [h8, List.cons_append, find_head rfl]
    simp only [hr, if_true]
    rw [List.nil_append, filter_head rfl (by simpa using hne)]
    unfold workDestroy
    rw [hj]
    simp only
    rw [release_one (h := one j.frame.fb fun _ => 0) (by simp only [h3]; rw [one_comm])]
    simp only [Outcome.bind_ok]
    rw [encoderUnref_any (n := 1 + bit s.mine) (by simp [h.freed]) (by simp [h4]; omega) (by omega)]
    refine ⟨_, rfl, ⟨by simp, rfl, h.len, h.grid, .inr ⟨j, hp, ⟨hw.jobs, hw.mine, hw.left, hw.plain, ?_⟩⟩⟩, rfl⟩
    unfold Own
    simp only [hk]
    exact ⟨h1, h2, trivial, by simp, id, b, h5, by simp, h7, by simp⟩

/-- ZRLE, Tight: the callback gives back the encoder, then aml the work -/
theorem late_drop {s : State} {k : Work} {P : Job → Prop} (hk : s.kind ≠ .raw)
    (h : Inv { e := 1, ws := [k] } P s) (hr : k.refs = 1) (hj : k.job = none) :
    ∃ s', (encoderUnref s >>= workUnref k.id) = .ok s' ∧ Inv {} P s' ∧ s'.kind = s.kind := by
  rcases h.shape with hi | ⟨j, hp, hw⟩
  · rw [encoderUnref_any (n := bit s.mine) h.freed (by simp [hi.rest.ref]; omega) (fun _ => hi.rest.work)]
    simp only [Outcome.bind_ok]
    unfold workUnref
    simp only [hi.rest.works]
    rw [find_head rfl]
    simp only [hr, if_true]
    rw [filter_head rfl (by simp)]
    unfold workDestroy
    rw [hj]
    exact ⟨_, rfl, ⟨by simp, rfl, h.len, h.grid, .inl ⟨⟨rfl, hi.rest.work, hi.rest.calm, hi.rest.nJobs, hi.rest.held, by simp, hi.rest.clean⟩,
      hi.mine, hi.left⟩⟩, rfl⟩
  · have ho := hw.own
    unfold Own at ho
    cases hk' : s.kind with
    | raw => exact absurd hk' hk
    | zrle =>
      simp only [hk'] at ho
      obtain ⟨h1, h2, h3, h4, g1, g2, id, b, h5, h6, h7, h9, h8⟩ := ho
      have hne : id ≠ k.id := fun e => h6 k (by simp) e.symm
      rw [encoderUnref_any (n := 1 + bit s.mine) h.freed (by simp [h4]; omega) (by omega)]
      simp only [Outcome.bind_ok]
      unfold workUnref
      simp only [h8, List.cons_append, List.nil_append]
      rw [find_head rfl]
      simp only [hr, if_true]
      rw [filter_head rfl (by simpa using hne)]
      unfold workDestroy
      rw [hj]
      refine ⟨_, rfl, ⟨by simp, rfl, h.len, h.grid, .inr ⟨j, hp, ⟨hw.jobs, hw.mine, hw.left, hw.plain, ?_⟩⟩⟩, hk'⟩
      unfold Own
      simp only [hk']
      exact ⟨h1, h2, h3, by simp, g1, g2, id, b, h5, by simp, h7, h9, by simp⟩
    | tight =>
      simp only [hk'] at ho
      obtain ⟨h1, h2, h3, h4, h5, h6, ⟨g1, g2, g3, g4, g5⟩ | ⟨g1, g2, g3, id, b, g4, g5, g6⟩⟩ := ho
      · rw [encoderUnref_any (n := s.nJobs + bit s.mine) h.freed (by simp [g4]; omega) (by omega)]
        simp only [Outcome.bind_ok]
        unfold workUnref
        simp only [g2]
        rw [find_head rfl]
        simp only [hr, if_true]
        rw [filter_head rfl (by simp)]
        unfold workDestroy
        rw [hj]
        refine ⟨_, rfl, ⟨by simp, rfl, h.len, h.grid, .inr ⟨j, hp, ⟨hw.jobs, hw.mine, hw.left, hw.plain, ?_⟩⟩⟩, hk'⟩
        unfold Own
        simp only [hk']
        exact ⟨h1, h2, h3, h4, h5, h6, .inl ⟨g1, trivial, g3, by simp, g5⟩⟩
      · have hne : id ≠ k.id := fun e => g5 k (by simp) e.symm
        rw [encoderUnref_any (n := 1 + bit s.mine) h.freed (by simp [g3]; omega) (by omega)]
        simp only [Outcome.bind_ok]
        unfold workUnref
        simp only [g6, List.cons_append, List.nil_append]
        rw [find_head rfl]
        simp only [hr, if_true]
        rw [filter_head rfl (by simpa using hne)]
        unfold workDestroy
        rw [hj]
        refine ⟨_, rfl, ⟨by simp, rfl, h.len, h.grid, .inr ⟨j, hp, ⟨hw.jobs, hw.mine, hw.left, hw.plain, ?_⟩⟩⟩, hk'⟩
        unfold Own
        simp only [hk']
        exact ⟨h1, h2, h3, h4, h5, h6, .inr ⟨g1, g2, by simp, id, b, g4, by simp, by simp⟩⟩

/-- Tight forgets the time of a frame that was given inside -/
theorem forget {R : Rest} {P : Job → Prop} {s : State} (hP : ∀ j, P j → j.inside = true) (h : Inv R P s) : Inv R P { s with pts := none } := by
  refine ⟨h.ids, h.freed, h.len, h.grid, ?_⟩
  rcases h.shape with hi | ⟨j, hp, hw⟩
  · exact .inl ⟨⟨hi.rest.works, hi.rest.work, hi.rest.calm, hi.rest.nJobs, hi.rest.held, hi.rest.ref, hi.rest.clean⟩, hi.mine, hi.left⟩
  · refine .inr ⟨j, hp, ⟨hw.jobs, hw.mine, hw.left, hw.plain, ?_⟩⟩
    have ho := hw.own
    unfold Own at ho ⊢
    cases hk : s.kind with
    | raw => simpa only [hk] using ho
    | zrle => simpa only [hk] using ho
    | tight =>
      simp only [hk] at ho ⊢
      obtain ⟨h1, h2, h3⟩ := ho
      exact ⟨h1, .inr ⟨hP j hp, trivial⟩, h3⟩

theorem calm_of_none {zs : List Quarter} (h : nStarted zs = 0) : Calm zs := by
  intro q hq
  have := List.length_eq_zero_iff.1 h
  simpa using List.filter_eq_nil_iff.1 this q hq

theorem parts_of {zs : List Quarter} {c : Coded} (h : ∀ q ∈ zs, q.part = some c) : zs.filterMap (·.part) = List.replicate zs.length c := by
  induction zs with
  | nil => rfl
  | cons q zs ih =>
    rw [List.filterMap_cons_some (h q (by simp)), ih (fun x hx => h x (by simp [hx]))]
    rfl

theorem Inv.none {R : Rest} {as : List Act} {s : State} (h : Inv R (fun j => as ≠ [] ∧ j.inside = true) s) (ha : as = []) :
    Inv R (fun _ => False) s :=
  ⟨h.ids, h.freed, h.len, h.grid, h.shape.imp id fun ⟨_, hp, _⟩ => absurd ha hp.1⟩

theorem workDone_inv {s : State} (h : Top s) (w : Nat) (as : List Act) (has : ∀ a ∈ as, a.Fine s.kind) :
    ∃ s', workDone w as s = .ok s' ∧ Top s' ∧ s'.kind = s.kind ∧
      ((s.works.find? fun k => k.id = w ∧ k.started ∧ k.ran).isSome → as = [] → Inv {} (fun _ => False) s') := by
  unfold workDone
  rcases h.shape with hi | ⟨j, _, hw⟩
  · rw [hi.rest.works]; exact ⟨s, rfl, h, rfl, by simp⟩
  have ho := hw.own
  have hpos : 0 < s.ref := by
    unfold Own at ho
    cases hk : s.kind with
    | raw => simp only [hk] at ho; omega
    | zrle => simp only [hk] at ho; omega
    | tight => simp only [hk] at ho; obtain ⟨-, -, -, -, -, -, ⟨_, -, -, _, -⟩ | ⟨-, -, _, -⟩⟩ := ho <;> omega
  have hf0 : s.freed = false := by simp [h.freed]; omega
  obtain ⟨a, ha, hsh⟩ := hw.jobs
  unfold Own at ho
  rcases hk : s.kind with _ | _ | _
  · simp only [hk] at ho
    obtain ⟨h1, h2, h3, h4, id, b, h5, h6, h7, h8⟩ := ho
    have hq := hw.plain (by simp [hk])
    rw [h8, List.nil_append, find_one]
    by_cases hc : id = w ∧ b = true
    · obtain ⟨rfl, rfl⟩ := hc
      simp only [and_self, decide_true, if_true]
      rw [if_neg (by simp [hf0]), h7]
      simp only
      have e1 : workUnref id s = .ok { s with works := [{ id := id, refs := 1, started := true, ran := true, job := some (j.frame, j.fmt), result := some (result j) }] } := by
        unfold workUnref
        rw [h8]
        simp
      rw [e1]
      simp only [Outcome.bind_ok]
      obtain ⟨s1, e2, i2, k2⟩ := finishFrame_inv (R := { e := 1, ws := [{ id := id, refs := 1, started := true, ran := true, job := some (j.frame, j.fmt), result := some (result j) }], h := one j.frame.fb fun _ => 0 })
        (s := { s with works := [{ id := id, refs := 1, started := true, ran := true, job := some (j.frame, j.fmt), result := some (result j) }], work := none })
        (j := j) (a := a) (r := result j) (as := as)
        ⟨rfl, rfl, h1, h2, h3, by simp [h4], by simp [hk]⟩ (by simpa using h5) h.freed h.len h.grid (by simp) ha hsh
        ⟨by simp [result, coded, hk], rfl, rfl, .inl rfl⟩ (fun c => (hw.mine c).2) hw.left has
      simp only [hk] at e2 k2
      simp only [hk]
      rw [e2]
      simp only [Outcome.bind_ok]
      obtain ⟨s2, e3, i3, k3⟩ := raw_drop (by rw [k2]) i2 rfl rfl
      exact ⟨s2, e3, i3.weaken, by rw [k3, k2], fun _ ha => i3.none ha⟩
    · rw [if_neg (by simpa using hc)]
      exact ⟨s, rfl, h, hk, by simp⟩
  · simp only [hk] at ho
    obtain ⟨h1, h2, h3, h4, g1, g2, id, b, h5, h6, h7, h9, h8⟩ := ho
    rw [h8, List.nil_append, find_one]
    by_cases hc : id = w ∧ b = true
    · obtain ⟨rfl, rfl⟩ := hc
      simp only [and_self, decide_true, if_true]
      rw [if_neg (by simp [hf0]), h7, g2, h9]
      simp only [if_true]
      rw [release_one (h := fun _ => 0) h3]
      simp only [Outcome.bind_ok]
      have e1 : ∀ x : State, x.works = [{ id := id, refs := 2, started := true, ran := true }] →
          workUnref id x = .ok { x with works := [{ id := id, refs := 1, started := true, ran := true }] } := by
        intro x hx
        unfold workUnref
        rw [hx]
        simp
      rw [e1 _ (by simp [h8])]
      simp only [Outcome.bind_ok]
      obtain ⟨s1, e2, i2, k2⟩ := finishFrame_inv (R := { e := 1, ws := [{ id := id, refs := 1, started := true, ran := true }] })
        (s := { s with works := [{ id := id, refs := 1, started := true, ran := true }], work := none, cur := none, result := none, held := fun _ => 0 })
        (j := j) (a := a) (r := result j) (as := as)
        ⟨rfl, rfl, h1, h2, rfl, by simp [h4], fun _ => ⟨rfl, rfl⟩⟩ (by simpa using h5) h.freed h.len h.grid (by simp) ha hsh
        ⟨by simp [result, coded, hk], rfl, rfl, .inl rfl⟩ (fun c => (hw.mine c).2) hw.left has
      simp only [hk] at e2 k2
      simp only [hk]
      rw [e2]
      simp only [Outcome.bind_ok]
      obtain ⟨s2, e3, i3, k3⟩ := late_drop (by rw [k2]; simp) i2 rfl rfl
      exact ⟨s2, e3, i3.weaken, by rw [k3, k2], fun _ ha => i3.none ha⟩
    · rw [if_neg (by simpa using hc)]
      exact ⟨s, rfl, h, hk, by simp⟩
  · simp only [hk] at ho
    obtain ⟨h1, h2, h3, h4, h5, h6, ⟨g1, g2, g3⟩ | ⟨g1, g2, g3, id, b, g4, g5, g6⟩⟩ := ho
    · rw [g2]; exact ⟨s, rfl, h, hk, by simp⟩
    · rw [g6, List.nil_append, find_one]
      by_cases hc : id = w ∧ b = true
      · obtain ⟨rfl, rfl⟩ := hc
        simp only [and_self, decide_true, if_true]
        rw [if_neg (by simp [hf0])]
        have hcalm := calm_of_none (h6.symm.trans g1)
        have hparts : s.zs.filterMap (·.part) = List.replicate 4 (coded j) := by
          rw [← h.len]
          refine parts_of fun q hq => ?_
          rcases h5 q hq with ⟨c, _⟩ | c
          · rw [hcalm q hq] at c; exact absurd c (by simp)
          · exact c
        obtain ⟨s1, e2, i2, k2⟩ := finishFrame_inv (R := { e := 1, ws := [{ id := id, refs := 1, started := true, ran := true }] })
          (s := s) (j := j) (a := a) (r := { parts := s.zs.filterMap (·.part), width := s.width, height := s.height, pts := s.pts }) (as := as)
          ⟨g6, h1, hcalm, g1, g2, by simp [g3], by simp [hk]⟩ (by simpa using g4) h.freed h.len h.grid (by simp) ha hsh
          ⟨by simp [hparts, coded, hk], h3, h4, by rcases h2 with c | ⟨c, d⟩ <;> simp [c, hk]; right; exact d⟩ (fun c => (hw.mine c).2) hw.left has
        rw [e2]
        simp only [Outcome.bind_ok]
        obtain ⟨s2, e3, i3, k3⟩ := late_drop (s := { s1 with pts := none }) (by simp [k2, hk]) (forget (fun _ h => h.2) i2) rfl rfl
        exact ⟨s2, e3, i3.weaken, by rw [k3]; simpa using k2.trans hk, fun _ ha => i3.none ha⟩
      · rw [if_neg (by simpa using hc)]
        exact ⟨s, rfl, h, hk, by simp⟩

theorem nStarted_off {q q' : Quarter} (h : q.started = true) (h' : q'.started = false) : ∀ (zs : List Quarter) (i : Nat), zs[i]? = some q →
    nStarted (zs.set i q') + 1 = nStarted zs := by
  intro zs
  induction zs with
  | nil => intro i hi; simp at hi
  | cons x zs ih =>
    intro i hi
    cases i with
    | zero => simp at hi; subst hi; simp [nStarted, h, h']
    | succ i =>
      have := ih i (by simpa using hi)
      unfold nStarted at this ⊢
      rw [List.set_cons_succ, List.filter_cons, List.filter_cons]
      cases x.started <;> simp <;> omega

theorem nStarted_on {q q' : Quarter} (h : q'.started = q.started) : ∀ (zs : List Quarter) (i : Nat), zs[i]? = some q →
    nStarted (zs.set i q') = nStarted zs := by
  intro zs
  induction zs with
  | nil => intro i hi; simp at hi
  | cons x zs ih =>
    intro i hi
    cases i with
    | zero => simp at hi; subst hi; simp [nStarted, h, List.filter_cons]; split <;> simp
    | succ i =>
      have := ih i (by simpa using hi)
      unfold nStarted at this ⊢
      rw [List.set_cons_succ, List.filter_cons, List.filter_cons]
      cases x.started <;> simp <;> omega

theorem runQuarter_inv {s : State} (h : Top s) (i : Nat) : ∃ s', runQuarter i s = .ok s' ∧ Top s' ∧ s'.kind = s.kind ∧
    nStarted s'.zs = nStarted s.zs ∧ ∀ q, s.zs[i]? = some q → q.started = true → ∃ q', s'.zs[i]? = some q' ∧ q'.started = true ∧ q'.ran = true := by
  unfold runQuarter
  cases hq : s.zs[i]? with
  | none => exact ⟨s, rfl, h, rfl, rfl, by simp⟩
  | some q =>
  simp only
  by_cases hb : (!q.started || q.ran) = true
  · rw [if_pos hb]; exact ⟨s, rfl, h, rfl, rfl, fun q' hq' hs => ⟨q', by rw [hq, hq'], hs, by cases Option.some.inj hq'; simpa [hs] using hb⟩⟩
  rw [if_neg hb]
  have hst : q.started = true ∧ q.ran = false := by
    cases c : q.started <;> cases d : q.ran <;> simp [c, d] at hb ⊢
  rcases h.shape with hi | ⟨j, _, hw⟩
  · have := hi.rest.calm.get hq; rw [hst.1] at this; exact absurd this (by simp)
  by_cases hk : s.kind = .tight
  case neg => have := (hw.quarters hk).get hq; rw [hst.1] at this; exact absurd this (by simp)
  have ho := hw.own
  unfold Own at ho
  simp only [hk] at ho
  obtain ⟨h1, h2, h3, h4, h5, h6, ⟨g1, g2, g3, g4, g5, g6, g7⟩ | ⟨g1, -⟩⟩ := ho
  · have hf0 : s.freed = false := by simp [h.freed]; omega
    rw [if_neg (by simp [hf0]), g5]
    simp only
    rw [look_ok g3]
    simp only [Outcome.bind_ok]
    refine ⟨_, rfl, ⟨h.ids, h.freed, by simp [h.len], h.grid, .inr ⟨j, trivial, ⟨hw.jobs, hw.mine, hw.left, hw.plain, ?_⟩⟩⟩, rfl, nStarted_on (q := q) (by simp [hst.1]) _ _ hq, fun _ _ _ => ⟨_, List.getElem?_set_self (List.getElem?_eq_some_iff.1 hq).1, by simp [hst.1], rfl⟩⟩
    unfold Own
    simp only [hk]
    refine ⟨h1, h2, h3, h4, ?_, ?_, .inl ⟨g1, g2, g3, g4, trivial, g6, g7⟩⟩
    · intro x hx
      rcases List.mem_or_eq_of_mem_set hx with hx | hx
      · exact h5 x hx
      · subst hx; right; simp [coded, g6, g7]
    · rw [nStarted_on (q := q) (by simp [hst.1]) _ _ hq, h6]
  · have := (calm_of_none (h6.symm.trans g1)).get hq; rw [hst.1] at this; exact absurd this (by simp)

theorem scheduleFinish_ok {s : State} {e : Faults} (hw : e.noWork = false) (hs : e.noStart = false) (hf : s.freed = decide (s.ref = 0))
    (hr : 0 < s.ref) (hz : s.works = []) :
    tightScheduleFinish e s = .ok { s with ref := s.ref + 1, next := s.next + 1, works := [{ id := s.next, refs := 1, started := true }] } := by
  unfold tightScheduleFinish
  rw [encoderRef_ok hf hr]
  simp only [Outcome.bind_ok, hw, hs, Bool.false_eq_true, if_false]
  unfold workStart workUnref
  simp [hz]

theorem quarterDone_inv {s : State} (h : Top s) (i : Nat) (e : Faults) (he : e.noWork = false ∧ e.noStart = false) :
    ∃ s', quarterDone i e s = .ok s' ∧ Top s' ∧ s'.kind = s.kind ∧
      ∀ q, s.zs[i]? = some q → q.started = true → q.ran = true → nStarted s'.zs + 1 = nStarted s.zs := by
  unfold quarterDone
  cases hq : s.zs[i]? with
  | none => exact ⟨s, rfl, h, rfl, by simp⟩
  | some q =>
  simp only
  by_cases hb : (!q.started || !q.ran) = true
  · rw [if_pos hb]; exact ⟨s, rfl, h, rfl, fun q' hq' hs hr => by cases Option.some.inj hq'; simp [hs, hr] at hb⟩
  rw [if_neg hb]
  have hst : q.started = true ∧ q.ran = true := by
    cases c : q.started <;> cases d : q.ran <;> simp [c, d] at hb ⊢
  rcases h.shape with hi | ⟨j, _, hw⟩
  · have := hi.rest.calm.get hq; rw [hst.1] at this; exact absurd this (by simp)
  by_cases hk : s.kind = .tight
  case neg => have := (hw.quarters hk).get hq; rw [hst.1] at this; exact absurd this (by simp)
  have ho := hw.own
  unfold Own at ho
  simp only [hk] at ho
  obtain ⟨h1, h2, h3, h4, h5, h6, ⟨g1, g2, g3, g4, g5, g6, g7⟩ | ⟨g1, -⟩⟩ := ho
  · have hf0 : s.freed = false := by simp [h.freed]; omega
    rw [if_neg (by simp [hf0])]
    have hpart : q.part = some (coded j) := by
      rcases h5 q (List.mem_of_getElem? hq) with ⟨_, c⟩ | c
      · rw [hst.2] at c; exact absurd c (by simp)
      · exact c
    have hset : ∀ x ∈ s.zs.set i { q with started := false, ran := false }, QuarterOk j x := by
      intro x hx
      rcases List.mem_or_eq_of_mem_set hx with hx | hx
      · exact h5 x hx
      · subst hx; exact .inr hpart
    have hn := nStarted_off (q := q) (q' := { q with started := false, ran := false }) hst.1 rfl s.zs i hq
    by_cases hlast : s.nJobs = 1
    · skip
      rw [if_pos (by omega), g5]
      simp only
      rw [release_one (h := fun _ => 0) (by simp [g3])]
      simp only [Outcome.bind_ok]
      rw [scheduleFinish_ok he.1 he.2 (by simp [h.freed]) (by simp; omega) (by simp [g2])]
      simp only [Outcome.bind_ok]
      rw [encoderUnref_any (n := 1 + bit s.mine) (by simp [hf0]) (by simp [g4]; omega) (by omega)]
      simp only [Outcome.bind_ok]
      refine ⟨_, rfl, ⟨by simp, by simp, by simp [h.len], h.grid, .inr ⟨j, trivial, ⟨hw.jobs, hw.mine, hw.left, hw.plain, ?_⟩⟩⟩, rfl, fun _ _ _ _ => hn⟩
      unfold Own
      simp only [hk]
      exact ⟨h1, h2, h3, h4, hset, by omega, .inr ⟨by omega, trivial, by simp, s.next, false, by omega, by simp, by simp⟩⟩
    · skip
      rw [if_neg (by omega)]
      simp only [Outcome.bind_ok]
      rw [encoderUnref_any (n := s.nJobs - 1 + bit s.mine) (by simp [h.freed]) (by simp [g4]; omega) (by omega)]
      simp only [Outcome.bind_ok]
      refine ⟨_, rfl, ⟨by simp, by simp, by simp [h.len], h.grid, .inr ⟨j, trivial, ⟨hw.jobs, hw.mine, hw.left, hw.plain, ?_⟩⟩⟩, rfl, fun _ _ _ _ => hn⟩
      unfold Own
      simp only [hk]
      exact ⟨h1, h2, h3, h4, hset, by omega, .inl ⟨by omega, g2, g3, by simp, g5, g6, g7⟩⟩
  · have := (calm_of_none (h6.symm.trans g1)).get hq; rw [hst.1] at this; exact absurd this (by simp)

theorem step_inv {s : State} {o : Op} (h : Top s) (ho : o.Fine s.kind) : ∃ s', step s o = .ok s' ∧ Top s' ∧ s'.kind = s.kind := by
  cases o with
  | client a => exact act_inv h ho (fun _ _ => trivial)
  | runWork w m => cases (show m = true from ho); exact runWork_inv h w
  | runQuarter i => obtain ⟨s', a, b, c, _⟩ := runQuarter_inv h i; exact ⟨s', a, b, c⟩
  | workDone w as => obtain ⟨s', a, b, c, _⟩ := workDone_inv h w as ho; exact ⟨s', a, b, c⟩
  | quarterDone i e => obtain ⟨s', a, b, c, _⟩ := quarterDone_inv h i e ho; exact ⟨s', a, b, c⟩

theorem run_inv : ∀ (os : List Op) (s : State), Top s → (∀ o ∈ os, o.Fine s.kind) → ∃ s', run s os = .ok s' ∧ Top s' ∧ s'.kind = s.kind := by
  intro os
  induction os with
  | nil => intro s h _; exact ⟨s, rfl, h, rfl⟩
  | cons o os ih =>
    intro s h ho
    obtain ⟨s1, e1, h1, k1⟩ := step_inv h (ho o (by simp))
    obtain ⟨s2, e2, h2, k2⟩ := ih s1 h1 (fun x hx => by rw [k1]; exact ho x (by simp [hx]))
    exact ⟨s2, by simp [run, e1, e2, Outcome.bind_ok], h2, k2.trans k1⟩

theorem runWork_works {s s' : State} {w : Nat} (h : runWork w true s = .ok s') :
    ((s.works.find? fun k => k.id = w ∧ k.started ∧ ¬ k.ran) = none ∧ s' = s) ∨
      ∃ r, s'.works = s.works.map fun k => if k.id = w then { k with ran := true, result := r } else k := by
  unfold runWork at h
  cases hf : s.works.find? fun k => k.id = w ∧ k.started ∧ ¬ k.ran with
  | none => rw [hf] at h; left; injection h with h; exact ⟨rfl, h.symm⟩
  | some k =>
    rw [hf] at h
    right
    cases hk : s.kind <;> simp only [hk] at h
    · cases hj : k.job with
      | none => rw [hj] at h; simp at h
      | some p =>
        rw [hj] at h
        simp only [Bool.not_true, Bool.false_eq_true, if_false] at h
        obtain ⟨c, _, h⟩ := Outcome.bind_eq_ok.1 h
        injection h with h; subst h
        exact ⟨_, rfl⟩
    · split at h
      · simp at h
      cases hj : s.cur with
      | none => rw [hj] at h; simp at h
      | some p =>
        rw [hj] at h
        simp only [Bool.not_true, Bool.false_eq_true, if_false] at h
        obtain ⟨c, _, h⟩ := Outcome.bind_eq_ok.1 h
        injection h with h; subst h
        exact ⟨_, rfl⟩
    · split at h
      · simp at h
      injection h with h; subst h
      exact ⟨_, rfl⟩

theorem Idle.landed {s : State} (h : Idle {} s) : s.flying = false := by
  unfold State.flying
  rw [h.rest.works]
  simp only [List.any_nil, Bool.false_or, List.any_eq_false]
  intro q hq
  simp [h.rest.calm q hq]

/-- the one work that is left is run and its callback is called -/
theorem drain_work {s : State} {k : Work} {b : Bool} (h : Top s) (hw : s.works = [{ k with started := true, ran := b }]) :
    ∃ s', run s [.runWork k.id true, .workDone k.id []] = .ok s' ∧ Top s' ∧ s'.flying = false := by
  obtain ⟨s1, e1, t1, -⟩ := runWork_inv h k.id
  have hran : (s1.works.find? fun x => x.id = k.id ∧ x.started ∧ x.ran).isSome := by
    cases b with
    | true =>
      rcases runWork_works e1 with ⟨hn, rfl⟩ | ⟨r, hr⟩
      · rw [hw]; simp
      · rw [hr, hw]; simp
    | false =>
      rcases runWork_works e1 with ⟨hn, rfl⟩ | ⟨r, hr⟩
      · rw [hw] at hn; simp at hn
      · rw [hr, hw]; simp
  obtain ⟨s2, e2, t2, -, hz⟩ := workDone_inv t1 k.id [] (by simp)
  refine ⟨s2, by simp [run, step, e1, e2, Outcome.bind_ok], t2, ?_⟩
  rcases (hz hran rfl).shape with hi | ⟨_, hf, _⟩
  · exact hi.landed
  · exact hf.elim

theorem run_append : ∀ (a b : List Op) (s s' : State), run s a = .ok s' → run s (a ++ b) = run s' b := by
  intro a
  induction a with
  | nil => intro b s s' h; injection h with h; subst h; rfl
  | cons o a ih =>
    intro b s s' h
    simp only [run, List.cons_append] at h ⊢
    obtain ⟨s1, e1, h⟩ := Outcome.bind_eq_ok.1 h
    rw [e1, Outcome.bind_ok]
    exact ih b s1 s' h

theorem drain : ∀ (n : Nat) (s : State), nStarted s.zs = n → Top s → ∃ os s', (∀ o ∈ os, o.Loop) ∧ run s os = .ok s' ∧ Top s' ∧ s'.flying = false := by
  intro n
  induction n with
  | zero =>
    intro s hn h
    have hwork : ∀ {k : Work} {b : Bool}, s.works = [{ k with started := true, ran := b }] →
        ∃ os s', (∀ o ∈ os, o.Loop) ∧ run s os = .ok s' ∧ Top s' ∧ s'.flying = false := by
      intro k b hw
      obtain ⟨s', e, t, f⟩ := drain_work h hw
      exact ⟨_, s', by simp [Op.Loop], e, t, f⟩
    rcases h.shape with hi | ⟨j, _, hw⟩
    · exact ⟨[], s, by simp, rfl, h, hi.landed⟩
    have ho := hw.own
    unfold Own at ho
    cases hk : s.kind with
    | raw =>
      simp only [hk] at ho
      obtain ⟨-, -, -, -, id, b, -, -, -, h8⟩ := ho
      exact hwork (k := { id := id, refs := 2, started := true, ran := b, job := some (j.frame, j.fmt), result := if b then some (result j) else none }) h8
    | zrle =>
      simp only [hk] at ho
      obtain ⟨-, -, -, -, -, -, id, b, -, -, -, -, h8⟩ := ho
      exact hwork (k := { id := id, refs := 2, started := true, ran := b }) h8
    | tight =>
      simp only [hk] at ho
      obtain ⟨-, -, -, -, -, h6, ⟨g1, -⟩ | ⟨-, -, -, id, b, -, -, g6⟩⟩ := ho
      · omega
      · exact hwork (k := { id := id, refs := 1, started := true, ran := b }) g6
  | succ n ih =>
    intro s hn h
    have : ∃ (i : Nat) (q : Quarter), s.zs[i]? = some q ∧ q.started = true := by
      by_cases hc : ∃ q ∈ s.zs, q.started = true
      · obtain ⟨q, hq, hs⟩ := hc
        obtain ⟨i, hi⟩ := List.mem_iff_getElem?.1 hq
        exact ⟨i, q, hi, hs⟩
      · exfalso
        have : nStarted s.zs = 0 := by
          unfold nStarted
          rw [List.length_eq_zero_iff, List.filter_eq_nil_iff]
          intro q hq hs; exact hc ⟨q, hq, hs⟩
        omega
    obtain ⟨i, q, hq, hs⟩ := this
    obtain ⟨s1, e1, t1, -, n1, g1⟩ := runQuarter_inv h i
    obtain ⟨q', hq', hs', hr'⟩ := g1 q hq hs
    obtain ⟨s2, e2, t2, -, n2⟩ := quarterDone_inv t1 i {} ⟨rfl, rfl⟩
    have := n2 q' hq' hs' hr'
    obtain ⟨os, s3, hl, e3, t3, f3⟩ := ih s2 (by omega) t2
    refine ⟨.runQuarter i :: .quarterDone i {} :: os, s3, ?_, ?_, t3, f3⟩
    · intro o ho
      rcases List.mem_cons.1 ho with rfl | ho
      · trivial
      rcases List.mem_cons.1 ho with rfl | ho
      · exact ⟨rfl, rfl⟩
      exact hl o ho
    · simp [run, step, e1, e2, e3, Outcome.bind_ok]

theorem Working.flying {s : State} {j : Job} (h : Working {} j s) : s.flying = true := by
  have ho := h.own
  unfold Own at ho
  unfold State.flying
  cases hk : s.kind with
  | raw =>
    simp only [hk] at ho
    obtain ⟨-, -, -, -, id, b, -, -, -, h8⟩ := ho
    rw [h8]; simp
  | zrle =>
    simp only [hk] at ho
    obtain ⟨-, -, -, -, -, -, id, b, -, -, -, -, h8⟩ := ho
    rw [h8]; simp
  | tight =>
    simp only [hk] at ho
    obtain ⟨-, -, -, -, -, h6, ⟨g1, -⟩ | ⟨-, -, -, id, b, -, -, g6⟩⟩ := ho
    · have : s.zs.any (·.started) = true := by
        cases hc : s.zs.any (·.started) with
        | true => rfl
        | false =>
          rw [List.any_eq_false] at hc
          have h0 : nStarted s.zs = 0 := by
            unfold nStarted
            rw [List.length_eq_zero_iff, List.filter_eq_nil_iff]
            exact hc
          omega
      simp [this]
    · rw [g6]; simp

end Verif.EncWork
