import Verif.Lemmas.Buffers

/-!
# C39, C40: frame buffers, their pool, and other counted objects
-/

namespace Verif.Buffers

/-- C39: whatever the application does with buffers and the pool it owns (references, the
display, the cursor, jobs of encoders), no object is used after it was freed; a buffer exists exactly as
long as somebody owns or uses it or it waits in the pool; it is freed at most once; the pool exists
exactly as long as somebody owns it or one of its buffers is out; and the callback for the release of a
buffer is called right after the release that ends the last hold and at no other time. -/
theorem c39_buffers (d : Dims) (os : List Op) (hl : Legal os (start d) gh0) :
    ∃ t, run os (start d) = .ok t ∧
      (∀ i, (t.fb i).live = true ↔
        0 < (ghRun os (start d) gh0).own i + uses t i ∨ i ∈ t.pool.queue) ∧
      (∀ i, t.log.count (.freed i) = if i < t.next ∧ (t.fb i).live = false then 1 else 0) ∧
      (t.pool.live = true ↔ 0 < (ghRun os (start d) gh0).poolOwn + (ghRun os (start d) gh0).lost +
        (ghRun os (start d) gh0).outs.length) ∧
      (t.log.count .poolFreed = if t.pool.live then 0 else 1) ∧
      (∀ i, held t.log i = (uses t i : Int)) ∧ callbacks none t.log := by
  obtain ⟨t, e, v⟩ := run_inv os (start_opInv d) hl
  refine ⟨t, e, fun i => ?_, v.freed, ?_, v.pfreed, v.logged, v.cb⟩
  · rw [v.live i, decide_eq_true_iff]
    by_cases c : i ∈ t.pool.queue
    · have := List.count_pos_iff.mpr c
      exact ⟨fun _ => .inr c, fun _ => by omega⟩
    · have := List.count_eq_zero_of_not_mem c
      refine ⟨fun h => .inl (by omega), fun h => ?_⟩
      rcases h with h | h
      · omega
      · exact absurd h c
  · rw [v.plive, decide_eq_true_iff]

def d0 : Dims := ⟨8, 8, 875713112, 8⟩

/-- `Legal` as a check -/
def legalB : List Op → St → Gh → Bool
  | [], _, _ => true
  | o :: os, s, g => legal s g o && match step s o with
    | .ok t => legalB os t (ghStep s g o)
    | _ => true

theorem legal_of {os : List Op} : ∀ {s : St} {g : Gh}, legalB os s g = true → Legal os s g := by
  induction os with
  | nil => exact fun _ => trivial
  | cons o os ih =>
    intro s g h
    unfold legalB at h
    rw [Bool.and_eq_true] at h
    refine ⟨h.1, fun t ht => ?_⟩
    have := h.2
    rw [ht] at this
    exact ih this

/-- what became of a run -/
def outcome (os : List Op) : Option (List Ev × List Nat × Int × Bool) :=
  match run os (start d0) with
  | .ok t => some (t.log.reverse, t.pool.queue, t.pool.ref, t.pool.live)
  | _ => none

/-- two buffers of the pool are shown in turn while an encoder works on the first one; everything is
given up in the end -/
def session : List Op :=
  [.acquire true, .feed 0, .unref 0, .startJob 0, .acquire true, .feed 1, .unref 1, .endJob 0,
    .acquire false, .feed 0, .unref 0, .resize ⟨9, 9, 875713112, 9⟩, .poolUnref, .closeDisplay]

example : legalB session (start d0) gh0 = true := by decide +kernel
example : outcome session = some ([.hold 0, .hold 0, .release 0, .hold 1, .release 0, .released 0,
    .release 1, .released 1, .hold 0, .freed 1, .release 0, .released 0, .poolFreed, .freed 0],
    [], 0, false) := by decide +kernel

theorem rcRun_ok (k : Kind) (l : List Bool) : ∀ (n m : Nat), 0 < n → rcOwners l n = some m →
    rcRun k l ⟨n, 0⟩ = .ok ⟨m, if m = 0 then 1 else 0⟩ := by
  induction l with
  | nil =>
    intro n m hn h
    have : n = m := by simpa [rcOwners] using h
    subst this
    rw [if_neg (by omega)]
    rfl
  | cons b l ih =>
    intro n m hn h
    cases b with
    | true =>
      simp only [rcOwners] at h
      rw [if_neg (by omega)] at h
      have e : rcRef k ⟨n, 0⟩ = .ok ⟨((n + 1 : Nat) : Int), 0⟩ := by
        unfold rcRef
        rw [if_neg (by simp), if_neg (by simp; omega)]
        simp
      unfold rcRun
      rw [e]
      exact ih (n + 1) m (by omega) h
    | false =>
      simp only [rcOwners] at h
      rw [if_neg (by omega)] at h
      by_cases c : n = 1
      · subst c
        have hm : l = [] ∧ m = 0 := by
          cases l with
          | nil => exact ⟨rfl, by simpa [rcOwners] using h.symm⟩
          | cons b l => cases b <;> simp [rcOwners] at h
        obtain ⟨rfl, rfl⟩ := hm
        cases k <;> rfl
      · have e : rcUnref k ⟨n, 0⟩ = .ok ⟨((n - 1 : Nat) : Int), 0⟩ := by
          have : ((n - 1 : Nat) : Int) = (n : Int) - 1 := by omega
          rw [this]
          unfold rcUnref
          rw [if_neg (by simp)]
          split
          · rw [if_neg (by simp only; omega), if_pos (by simp only; omega)]
          · rw [if_pos (by simp only; omega)]
        unfold rcRun
        rw [e]
        exact ih (n - 1) m (by omega) h

/-- C39, byte buffers, encoders and displays: as long as only owners give back, once each, the object is
not used after it was freed, no assertion fails, and it has been freed once if nobody owns it any more and
not at all otherwise -/
theorem c39_counted (k : Kind) (l : List Bool) (n : Nat) (h : rcOwners l 1 = some n) :
    ∃ r, rcRun k l rcNew = .ok r ∧ r.freed = if n = 0 then 1 else 0 :=
  ⟨_, rcRun_ok k l 1 n (by omega) h, rfl⟩

example : rcOwners [true, true, false, true, false, false, false] 1 = some 0 := by decide +kernel

/-- C40, for applications that feed every buffer they acquire once and do not feed it again before they
acquired it again: after any such history, the buffer handed out is not in use anywhere, is not out
already, has the dimensions that the pool has now, and exists; and when the application has given up the
pool and the use of all its buffers came to an end, the pool is freed, once. -/
theorem c40_pool_partial (d : Dims) (os : List Op) (hl : Legal os (start d) gh0) :
    ∃ t, run os (start d) = .ok t ∧
      (0 < (ghRun os (start d) gh0).poolOwn → ∀ mem,
        (∃ u i, acquire mem t = .ok (u, some i) ∧ uses t i = 0 ∧
          i ∉ (ghRun os (start d) gh0).outs ∧ (u.fb i).dims = t.pool.dims ∧ (u.fb i).live = true) ∨
        (mem = false ∧ acquire mem t = .ok (t, none))) ∧
      ((ghRun os (start d) gh0).poolOwn = 0 → (ghRun os (start d) gh0).lost = 0 →
        (ghRun os (start d) gh0).outs = [] →
        t.pool.live = false ∧ t.pool.queue = [] ∧ t.log.count .poolFreed = 1) := by
  obtain ⟨t, e, v⟩ := run_inv os (start_opInv d) hl
  refine ⟨t, e, fun hp mem => ?_, fun h1 h2 h3 => ?_⟩
  · rcases acquire_inv mem v (by omega) with ⟨u, i, a, _, b, c, f, _, g, _⟩ | ⟨a, b, _⟩
    · exact .inl ⟨u, i, a, c, b, f, g⟩
    · exact .inr ⟨b, a⟩
  · have hl : t.pool.live = false := by
      rw [v.plive, h1, h2, h3]; rfl
    refine ⟨hl, v.dead hl, ?_⟩
    have := v.pfreed
    rw [hl] at this
    exact this

example : legalB (session.take 8) (start d0) gh0 = true ∧
    outcome (session.take 8) = some ([.hold 0, .hold 0, .release 0, .hold 1, .release 0, .released 0],
      [0], 2, true) ∧ (ghRun (session.take 8) (start d0) gh0).outs = [1] := by decide +kernel

/-- the application passes on and gives back only what it owns -/
def owned (s : St) (g : Gh) : Op → Bool
  | .feed i | .startJob i | .setCursor (some i) => 0 < g.own i
  | o => legal s g o

def ownedB : List Op → St → Gh → Bool
  | [], _, _ => true
  | o :: os, s, g => owned s g o && match step s o with
    | .ok t => ownedB os t (ghStep s g o)
    | _ => true

/-- C40 does not hold for an application that feeds the same buffer again, for instance because only
part of it changed: the display releases the old buffer before it holds the new one, so that the buffer
goes back to the pool while it is shown, and the pool hands it out to be drawn on.  Feeding it a third
time drops a reference to the pool that is the application's, and the next use of the pool is a use after
free. -/
theorem c40_twice_violated : ∃ os t u i, ownedB os (start d0) gh0 = true ∧
    run os (start d0) = .ok t ∧ acquire true t = .ok (u, some i) ∧ uses t i = 1 ∧
    t.display = some i ∧
    ownedB (os ++ [.feed i, .acquire true]) (start d0) gh0 = true ∧
    run (os ++ [.feed i, .acquire true]) (start d0) = .ub "pool used after it was freed" := by
  refine ⟨[.acquire true, .feed 0, .feed 0], _, _, 0, ?_, rfl, rfl, ?_, ?_, ?_, rfl⟩ <;>
    decide +kernel

/-- C40: a buffer that is acquired and given up without having been fed keeps the pool alive for ever -/
theorem c40_unfed_violated : ∃ os t, legalB os (start d0) gh0 = true ∧ run os (start d0) = .ok t ∧
    (ghRun os (start d0) gh0).poolOwn = 0 ∧ (∀ i, (t.fb i).live = false) ∧ t.pool.live = true := by
  refine ⟨[.acquire true, .unref 0, .poolUnref], _, ?_, rfl, ?_, ?_, ?_⟩
  · decide +kernel
  · decide +kernel
  · intro i
    show (if i = 0 then (⟨false, 0, 0, d0, true⟩ : Fb) else
      if i = 0 then ⟨true, 1, 0, d0, true⟩ else noFb).live = false
    split
    · rfl
    · rfl
  · decide +kernel

/-- C40: giving an acquired buffer back with nvnc_fb_pool_release leaves the reference to the pool that
came with it: the pool and the buffer exist for ever -/
theorem c40_giveback_violated : ∃ os t, legalB os (start d0) gh0 = true ∧
    run os (start d0) = .ok t ∧ (ghRun os (start d0) gh0).poolOwn = 0 ∧
    (ghRun os (start d0) gh0).own 0 = 0 ∧ uses t 0 = 0 ∧ t.pool.live = true ∧
    (t.fb 0).live = true := by
  refine ⟨[.acquire true, .giveBack 0, .unref 0, .poolUnref], _, ?_, rfl, ?_, ?_, ?_, ?_, ?_⟩ <;>
    decide +kernel

end Verif.Buffers
