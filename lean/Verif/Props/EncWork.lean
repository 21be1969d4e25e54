import Verif.Lemmas.EncWork

/-! # C105: an encoder hands over each frame once, and gives back what it took -/

namespace Verif.EncWork

/-- Whatever the client, the threads and the main loop do, and in whatever order: no encoder, framebuffer or work is
used after it was freed, and no assertion fails.  (Frames can come while another is being handed over; the client may
be closed at any time.)  Missing: what `Op.Fine` leaves out, see the witnesses. -/
theorem c105_safe_partial (k : Kind) (w h : Nat) (os : List Op) (hos : ∀ o ∈ os, o.Fine k) : ∃ s, run (fresh k w h) os = .ok s := by
  obtain ⟨s, e, -⟩ := run_inv os (fresh k w h) (fresh_inv k w h) hos
  exact ⟨s, e⟩

/-- The client gets what was accepted, in order and nothing twice.  At most one is outstanding, and none if nobody is
at work for a client that is still there. -/
theorem c105_once_partial (k : Kind) (w h : Nat) (os : List Op) (hos : ∀ o ∈ os, o.Fine k) (s : State) (hs : run (fresh k w h) os = .ok s) :
    ∃ a b, s.accepted = a ++ b ∧ b.length ≤ 1 ∧ AllShown k a s.done ∧ (s.mine = true → s.flying = false → b = []) ∧
      (s.mine = true → s.busy = s.flying) := by
  obtain ⟨s', e, t, hk⟩ := run_inv os (fresh k w h) (fresh_inv k w h) hos
  rw [hs] at e; injection e with e; subst e
  have hk : s.kind = k := hk
  rcases t.shape with hi | ⟨j, _, hw⟩
  · cases hm : s.mine with
    | true =>
      obtain ⟨hb, hsh⟩ := hi.mine hm
      rw [hk] at hsh
      exact ⟨s.accepted, [], by simp, by simp, hsh, by simp, fun _ => by rw [hb, hi.landed]⟩
    | false =>
      obtain ⟨-, a, b, h1, h2, h3⟩ := hi.left hm
      rw [hk] at h3
      exact ⟨a, b, h1, h2, h3, by simp, by simp⟩
  · obtain ⟨a, ha, hsh⟩ := hw.jobs
    rw [hk] at hsh
    exact ⟨a, [j], ha, by simp, hsh, fun _ hc => by rw [hw.flying] at hc; exact absurd hc (by simp), fun hm => by rw [(hw.mine hm).1, hw.flying]⟩

/-- When nobody is at work, no framebuffer is held and no work is left, and the encoder is freed just if the client is
gone.  A freed encoder has nobody at work. -/
theorem c105_given_back_partial (k : Kind) (w h : Nat) (os : List Op) (hos : ∀ o ∈ os, o.Fine k) (s : State) (hs : run (fresh k w h) os = .ok s) :
    (s.flying = false → (∀ fb, s.held fb = 0) ∧ s.works = [] ∧ s.freed = !s.mine) ∧ (s.freed = true → s.flying = false ∧ s.mine = false) := by
  obtain ⟨s', e, t, -⟩ := run_inv os (fresh k w h) (fresh_inv k w h) hos
  rw [hs] at e; injection e with e; subst e
  rcases t.shape with hi | ⟨j, _, hw⟩
  · have hfr : s.freed = !s.mine := by
      rw [t.freed, hi.rest.ref]
      cases s.mine <;> simp [bit]
    exact ⟨fun _ => ⟨fun fb => by rw [hi.rest.held], hi.rest.works, hfr⟩, fun hf => ⟨hi.landed, by rw [hf] at hfr; simpa using hfr⟩⟩
  · refine ⟨fun hc => by rw [hw.flying] at hc; exact absurd hc (by simp), fun hf => ?_⟩
    exfalso
    have h0 : s.ref = 0 := by simpa [t.freed] using hf
    have ho := hw.own
    unfold Own at ho
    cases hk : s.kind with
    | raw => simp only [hk] at ho; omega
    | zrle => simp only [hk] at ho; omega
    | tight => simp only [hk] at ho; obtain ⟨-, -, -, -, -, -, ⟨_, -, -, _, -⟩ | ⟨-, -, _, -⟩⟩ := ho <;> omega

/-- From wherever a history leads, threads and the main loop alone can come to an end: so a frame that was accepted is
handed over to a client that stays. -/
theorem c105_ends_partial (k : Kind) (w h : Nat) (os : List Op) (hos : ∀ o ∈ os, o.Fine k) :
    ∃ os' s, (∀ o ∈ os', o.Loop) ∧ run (fresh k w h) (os ++ os') = .ok s ∧ s.flying = false := by
  obtain ⟨s, e, t, -⟩ := run_inv os (fresh k w h) (fresh_inv k w h) hos
  obtain ⟨os', s', hl, e', -, hf⟩ := drain _ s rfl t
  exact ⟨os', s', hl, by rw [run_append _ _ _ _ e, e'], hf⟩

/-! ## Cases -/

def fa : Frame := { fb := 1, damage := 10, width := 64, height := 64, pts := some 5 }
def fc : Frame := { fb := 2, damage := 11, width := 64, height := 64, pts := some 6 }

structure Seen where
  done : List Result
  held1 : Nat
  held2 : Nat
  freed : Bool
  flying : Bool
  n : Nat
  deriving DecidableEq, Repr

def seen : Outcome State → Option Seen
  | .ok s => some { done := s.done, held1 := s.held 1, held2 := s.held 2, freed := s.freed, flying := s.flying, n := s.accepted.length }
  | _ => none

def isUb : Outcome State → Bool
  | .ub _ => true
  | _ => false

def isAbort : Outcome State → Bool
  | .abort _ => true
  | _ => false

/-- two frames through Raw, the second given while the first is handed over; the client leaves before it gets the
second -/
def rawRun : List Op := [.client (.encode fa 3 9 {}), .runWork 0 true, .workDone 0 [.encode fc 4 9 {}], .client .close, .runWork 1 true, .workDone 1 []]

example : (∀ o ∈ rawRun, o.Fine .raw) ∧
    seen (run (fresh .raw 64 64) rawRun) =
      some { done := [{ parts := [{ fb := 1, damage := 10, fmt := 3, quality := 0 }], width := 64, height := 64, pts := some 5 }],
             held1 := 0, held2 := 0, freed := true, flying := false, n := 2 } := by
  constructor
  · simp [rawRun, Op.Fine, Act.Fine]
  · decide +kernel

/-- ZRLE, the same; before the second runs -/
example : seen (run (fresh .zrle 64 64) (rawRun.take 3)) =
      some { done := [{ parts := [{ fb := 1, damage := 10, fmt := 3, quality := 0 }], width := 64, height := 64, pts := some 5 }],
             held1 := 0, held2 := 1, freed := false, flying := true, n := 2 } := by decide +kernel

def four : List Op := [.runQuarter 0, .runQuarter 1, .quarterDone 1 {}, .runQuarter 3, .quarterDone 0 {}, .runQuarter 2, .quarterDone 2 {}, .quarterDone 3 {}]

/-- Tight, with a frame of another size and a start that fails -/
def tightRun : List Op :=
  [.client (.encode fa 3 9 { noJob := fun _ => true }), .client (.encode { fa with width := 100 } 3 9 {})] ++ four ++ [.runWork 0 true, .workDone 0 [.close]]

example : (∀ o ∈ tightRun, o.Fine .tight) ∧
    seen (run (fresh .tight 64 64) tightRun) =
      some { done := [{ parts := List.replicate 4 { fb := 1, damage := 10, fmt := 3, quality := 9 }, width := 100, height := 64, pts := some 5 }],
             held1 := 0, held2 := 0, freed := true, flying := false, n := 1 } := by
  constructor
  · simp [tightRun, four, Op.Fine, Act.Fine, Faults.Fine]
  · decide +kernel

/-! ## What `Op.Fine` leaves out, and the time that Tight forgets -/

/-- Tight: a frame that is given while another is handed over loses its time, `on_tight_finished` clears it -/
theorem c105_pts_violated :
    ∃ os : List Op, (∀ o ∈ os, o.Fine .tight) ∧ ∃ r, seen (run (fresh .tight 64 64) os) = some r ∧ r.n = 2 ∧ r.done.map (·.pts) = [some 5, none] := by
  refine ⟨[.client (.encode fa 3 9 {})] ++ four ++ [.runWork 0 true, .workDone 0 [.encode fc 3 9 {}]] ++ four ++ [.runWork 1 true, .workDone 1 []], ?_, _, rfl, ?_⟩
  · simp [four, Op.Fine, Act.Fine, Faults.Fine]
  · decide +kernel

/-- Tight: one of its workers cannot be started, the others go on with a framebuffer that was given back -/
theorem c105_start_violated :
    isUb (run (fresh .tight 64 64) [.client (.encode fa 3 9 { noJob := fun i => i == 2 }), .runQuarter 0]) = true := by decide +kernel

/-- Tight: its last work cannot be made or started, the frame never comes, nobody is at work, and the client waits.
If it cannot be started then the encoder is not freed when the client leaves either. -/
theorem c105_finish_violated :
    (∃ s, run (fresh .tight 64 64) ([.client (.encode fa 3 9 {})] ++ four.take 7 ++ [.quarterDone 3 { noWork := true }]) = .ok s ∧
      s.flying = false ∧ s.busy = true ∧ s.mine = true ∧ s.done = []) ∧
    (∃ s, run (fresh .tight 64 64) ([.client (.encode fa 3 9 {})] ++ four.take 7 ++ [.quarterDone 3 { noStart := true }, .client .close]) = .ok s ∧
      s.flying = false ∧ s.mine = false ∧ s.freed = false) := by
  exact ⟨⟨_, rfl, by decide +kernel⟩, ⟨_, rfl, by decide +kernel⟩⟩

/-- Tight: its grid cannot be allocated, the next frame of that size uses it -/
theorem c105_resize_violated :
    isUb (run (fresh .tight 32 32) [.client (.encode fa 3 9 { noGrid := true }), .client (.encode fc 3 9 {})]) = true := by decide +kernel

/-- Raw, ZRLE: a framebuffer that cannot be mapped ends the server -/
theorem c105_map_violated :
    isAbort (run (fresh .raw 64 64) [.client (.encode fa 3 9 {}), .runWork 0 false]) = true ∧
    isAbort (run (fresh .zrle 64 64) [.client (.encode fa 3 9 {}), .runWork 0 false]) = true := by decide +kernel

end Verif.EncWork
