import Verif.Lemmas.Displays

/-!
# C107: framebuffers, displays and the server may be given up in any order

The full statement: whatever an application does with framebuffers, displays and the server that it has references to,
in whatever order it lets go of them, nothing that was freed is used, everything lives for exactly as long as somebody
has it, and what the application attaches to a framebuffer is its own.  It is false in five ways.
-/

namespace Verif.Displays

/-! ## Histories for examples -/

def play : List Op → Sess → Option Sess
  | [], x => some x
  | o :: os, x => if Legal o x then match act o x with
      | .ok y => play os y
      | _ => Option.none
    else Option.none

theorem play_plays : ∀ (os : List Op) {x y : Sess}, Plays x → play os x = some y → Plays y
  | [], _, _, h, e => by cases e; exact h
  | o :: os, x, y, h, e => by
    unfold play at e
    split at e
    · next hl =>
      split at e
      · next z hz => exact play_plays os (.next o h hl hz) e
      · exact absurd e (by simp)
    · exact absurd e (by simp)

def isCareful (o : Op) (x y : Sess) : Bool :=
  (match o with | .feed .. => x.st.server | _ => true) &&
  (List.range x.st.disps).all (fun d => !(x.st.disp d).live || (y.st.disp d).live ||
    (y.st.jobs.all (fun j => j.disp != d) && y.turned.all (fun p => p.1 != d || !(y.st.fb p.2).live))) &&
  (!x.st.server || y.st.server || y.st.jobs.isEmpty)

theorem isCareful_sound {o : Op} {x y : Sess} (c : Tidy x.set x.st) (h : isCareful o x y = true) : Careful o x y := by
  unfold isCareful at h
  simp only [Bool.and_eq_true] at h
  obtain ⟨⟨h1, h2⟩, h3⟩ := h
  have key : ∀ d, (x.st.disp d).live = true → (y.st.disp d).live = false →
      y.st.jobs.all (fun j => j.disp != d) = true ∧
        y.turned.all (fun p => p.1 != d || !(y.st.fb p.2).live) = true := by
    intro d a b
    have := List.all_eq_true.mp h2 d (List.mem_range.mpr (c.dlow d a))
    simpa [a, b] using this
  refine ⟨?_, ?_, ?_, ?_⟩
  · rintro d i t r rfl
    exact h1
  · intro d a b j hj
    simpa using List.all_eq_true.mp (key d a b).1 j hj
  · intro d a b i hi
    simpa using List.all_eq_true.mp (key d a b).2 (d, i) hi
  · intro a b
    simpa [a, b] using h3

def tread : List Op → Sess → Option Sess
  | [], x => some x
  | o :: os, x => if Legal o x then match act o x with
      | .ok y => if isCareful o x y then tread os y else Option.none
      | _ => Option.none
    else Option.none

theorem tread_reach : ∀ (os : List Op) {x y : Sess}, Reach x → tread os x = some y → Reach y
  | [], _, _, h, e => by cases e; exact h
  | o :: os, x, y, h, e => by
    unfold tread at e
    split at e
    · next hl =>
      split at e
      · next z hz =>
        split at e
        · next hc => exact tread_reach os (.next o h hl hz (isCareful_sound (plays_tidy (reach_plays h)) hc)) e
        · exact absurd e (by simp)
      · exact absurd e (by simp)
    · exact absurd e (by simp)

/-! ## What holds -/

/-- **C107**, as far as it is true.  An application that uses only what it has, that feeds no display once the server
is gone, that lets a display go only when no turning of a framebuffer is under way for it and when the framebuffers
fed to it with a transform are gone, and that deletes the server only when nothing is being turned, makes no call
that uses anything freed or that aborts.  Missing: these conditions, which the interface does not state. -/
theorem c107_orders_partial {x : Sess} (h : Reach x) {o : Op} (hl : Legal o x)
    (hv : ∀ d i t r, o = .feed d i t r → x.st.server = true) : ∃ y, act o x = .ok y := by
  obtain ⟨y, e, _⟩ := (reach_inv h).act hl hv
  exact ⟨y, e⟩

/-- **C107**: a framebuffer is there for exactly as long as the application has it, an encoder has it, it is being
turned, or a display shows it. -/
theorem c107_alive {x : Sess} (h : Reach x) (i : Nat) :
    (x.st.fb i).live = true ↔ 0 < x.own i ∨ 0 < x.lent i ∨ (∃ j ∈ x.st.jobs, j.src = i) ∨
      ∃ d, (x.st.disp d).live = true ∧ (x.st.disp d).shown = some i := by
  have c := reach_inv h
  have hr := c.refs i
  have hrd : 0 < readers x.st i ↔ ∃ j ∈ x.st.jobs, j.src = i := by
    simp [readers, List.countP_pos_iff]
  have hsh : 0 < shownBy x.st i ↔ ∃ d, (x.st.disp d).live = true ∧ (x.st.disp d).shown = some i := by
    constructor
    · intro h
      obtain ⟨d, _, e⟩ := cnt_pos _ h
      have e' : (x.st.disp d).shown = some i := by simpa [shows] using e
      exact ⟨d, c.shown d i e', e'⟩
    · rintro ⟨d, hd, e⟩
      have := shownBy_set { x.st.disp d with shown := Option.none } (c.lt_of_live hd) i
      simp only [e] at this
      simp at this
      omega
  rw [c.core.alive, ← hrd, ← hsh]
  omega

/-- **C107**: a display is there for exactly as long as the application has it or it is the server's. -/
theorem c107_display_alive {x : Sess} (h : Reach x) (d : Nat) :
    (x.st.disp d).live = true ↔ 0 < x.downs d ∨ x.st.current = some d := by
  have c := reach_inv h
  have := c.drefs d
  rw [c.core.dalive, this]
  split <;> simp_all

/-- **C107**: nothing is freed twice, and it is freed when it goes, in every history. -/
theorem c107_once {x : Sess} (h : Plays x) :
    (∀ i, x.st.log.count (.freed i) ≤ 1 ∧ (i < x.st.fbs → (Ev.freed i ∈ x.st.log ↔ (x.st.fb i).live = false))) ∧
    ∀ d, x.st.log.count (.gone d) ≤ 1 ∧ (d < x.st.disps → (Ev.gone d ∈ x.st.log ↔ (x.st.disp d).live = false)) := by
  have c := plays_tidy h
  constructor
  · intro i
    have := c.freed i
    rw [← List.count_pos_iff, this]
    split <;> simp_all
  · intro d
    have := c.gone d
    rw [← List.count_pos_iff, this]
    split <;> simp_all

/-- **C107**: what the application attached to a framebuffer last stays attached, and its clean-up function is called
with it right before the framebuffer is freed. -/
theorem c107_cleanup {x : Sess} (h : Plays x) {i n : Nat} (hs : x.set i = some n) :
    (x.st.fb i).user = .app n ∧
      (Ev.freed i ∈ x.st.log → [Ev.freed i, Ev.cleanup n] <:+: x.st.log) :=
  ⟨(plays_tidy h).user i n hs, (plays_tidy h).clean i n hs⟩

/-- **C107**: when nobody has anything any more, every framebuffer and every display is gone, freed once. -/
theorem c107_over {x : Sess} (h : Reach x) (ho : Over x) :
    (∀ i, (x.st.fb i).live = false ∧ (i < x.st.fbs → x.st.log.count (.freed i) = 1)) ∧
    ∀ d, (x.st.disp d).live = false ∧ (d < x.st.disps → x.st.log.count (.gone d) = 1) := by
  have t := plays_tidy (reach_plays h)
  have hd : ∀ d, (x.st.disp d).live = false := by
    intro d
    refine Bool.eq_false_iff.mpr fun hn => ?_
    rcases (c107_display_alive h d).mp hn with h1 | h1
    · have := ho.downs d; omega
    · rw [ho.current] at h1; exact absurd h1 (by simp)
  have hf : ∀ i, (x.st.fb i).live = false := by
    intro i
    refine Bool.eq_false_iff.mpr fun hn => ?_
    rcases (c107_alive h i).mp hn with h1 | h1 | ⟨j, h1, _⟩ | ⟨d, h1, _⟩
    · have := ho.own i; omega
    · have := ho.lent i; omega
    · rw [ho.jobs] at h1; exact absurd h1 (by simp)
    · rw [hd d] at h1; exact absurd h1 (by simp)
  refine ⟨fun i => ⟨hf i, fun hi => ?_⟩, fun d => ⟨hd d, fun hi => ?_⟩⟩
  · rw [t.freed i, if_pos ⟨hi, hf i⟩]
  · rw [t.gone d, if_pos ⟨hi, hd d⟩]

theorem neat_reach {x : Sess} (h : Neat x) : Reach x := by
  induction h with
  | start => exact .start
  | next o _ hl e hc _ ih => exact .next o ih hl e hc

/-- **C107**: and so is every record of a resampler, unless the application attached something to a framebuffer that
was fed with a transform.  Missing: `c107_record_violated`. -/
theorem c107_records_partial {x : Sess} (h : Neat x) (ho : Over x) (k : Nat) : x.st.held k = false := by
  have c : Kept x.turned x.st := by
    clear ho
    induction h with
    | start => refine ⟨?_, ?_, ?_⟩ <;> intros <;> simp_all
    | next o _ _ e _ hs ih => exact ih.act e hs
  refine Bool.eq_false_iff.mpr fun hn => ?_
  obtain ⟨i, hi, _⟩ := c.held k hn
  have := ((c107_over (neat_reach h) ho).1 i).1
  rw [this] at hi
  exact absurd hi (by simp)

/-- a session: two framebuffers, one is shown, the other is turned and shown in turn, an encoder is slow -/
def long : List Op :=
  [.newFb, .newFb, .setUser 0 (some 7), .newDisp, .add 0, .feed 0 0 false .enough, .lend 0, .feed 0 1 true .enough,
    .unref 0, .finish 0, .back 0, .feed 0 1 true .noJob, .unref 1, .del, .dunref 0]

def longEnd : Sess := (tread long {}).get (by decide +kernel)

theorem long_reach : Reach longEnd := tread_reach long .start (by simp [longEnd])

example : longEnd.st.log = [.gone 0, .freed 1, .freed 0, .cleanup 7] := by decide +kernel

example : longEnd.set 0 = some 7 ∧ longEnd.st.fbs = 2 ∧ longEnd.st.disps = 1 := by decide +kernel

/-- `Over` is met: nobody has anything -/
example : Over longEnd := by
  have c := reach_inv long_reach
  refine ⟨fun i => ?_, fun d => ?_, fun i => ?_, by decide +kernel, by decide +kernel⟩
  · by_cases h : i < 2
    · exact (by decide +kernel : ∀ i < 2, longEnd.own i = 0) i h
    · have := c.fnew i (by have : longEnd.st.fbs = 2 := by decide +kernel
                           omega)
      have := c.refs i
      omega
  · by_cases h : d < 1
    · exact (by decide +kernel : ∀ d < 1, longEnd.downs d = 0) d h
    · have := c.dnew d (by have : longEnd.st.disps = 1 := by decide +kernel
                           omega)
      have := c.drefs d
      omega
  · by_cases h : i < 2
    · exact (by decide +kernel : ∀ i < 2, longEnd.lent i = 0) i h
    · have := c.fnew i (by have : longEnd.st.fbs = 2 := by decide +kernel
                           omega)
      have := c.refs i
      omega

def isNeat (o : Op) (x : Sess) : Bool :=
  match o with | .setUser i _ => x.turned.all (fun p => p.2 != i) | _ => true

def trim : List Op → Sess → Option Sess
  | [], x => some x
  | o :: os, x => if Legal o x ∧ isNeat o x = true then match act o x with
      | .ok y => if isCareful o x y then trim os y else Option.none
      | _ => Option.none
    else Option.none

theorem trim_neat : ∀ (os : List Op) {x y : Sess}, Neat x → trim os x = some y → Neat y
  | [], _, _, h, e => by cases e; exact h
  | o :: os, x, y, h, e => by
    unfold trim at e
    split at e
    · next hl =>
      split at e
      · next z hz =>
        split at e
        · next hc =>
          refine trim_neat os (.next o h hl.1 hz (isCareful_sound (plays_tidy (reach_plays (neat_reach h))) hc) ?_) e
          rintro i n rfl d hd
          simpa using List.all_eq_true.mp hl.2 (d, i) hd
        · exact absurd e (by simp)
      · exact absurd e (by simp)
    · exact absurd e (by simp)

/-- the session is `Neat`; a record was made for framebuffer 1 and is gone in the end -/
example : Neat ((trim long {}).get (by decide +kernel)) ∧
    ((trim (long.take 12) {}).map fun x => (x.st.held 0, (x.st.fb 1).user)) = some (true, .side 0) ∧
    ((trim long {}).map fun x => x.st.held 0) = some false :=
  ⟨trim_neat long .start (by simp), by decide +kernel, by decide +kernel⟩

/-- half way, an encoder alone keeps framebuffer 0 -/
example : (tread (long.take 10) {}).map (fun x => ((x.st.fb 0).live, x.own 0, x.lent 0, (x.st.disp 0).shown)) =
    some (true, 0, 1, Option.none) := by decide +kernel

/-! ## What does not -/

/-- the full statement -/
def Orders : Prop := ∀ x o, Plays x → Legal o x → ∃ y, act o x = .ok y

def why : Outcome Sess → Option String
  | .ub w => some w
  | _ => Option.none

theorem why_ub {r : Outcome Sess} {w : String} (h : why r = some w) : r = .ub w := by
  cases r with
  | ok _ => exact absurd h (by simp [why])
  | abort _ => exact absurd h (by simp [why])
  | ub v => simp [why] at h; rw [h]

theorem bad {os : List Op} {o : Op} {w : String} (h1 : (play os {}).isSome = true)
    (h2 : decide (Legal o ((play os {}).get h1)) = true) (h3 : why (act o ((play os {}).get h1)) = some w) :
    ∃ x, Plays x ∧ Legal o x ∧ act o x = .ub w :=
  ⟨(play os {}).get h1, play_plays os .start (by simp), of_decide_eq_true h2, why_ub h3⟩

/-- **C107** is false: a framebuffer that was fed with a transform outlives the display that it was fed to.  Freeing
it takes its record out of a list whose head was in the resampler of that display. -/
theorem c107_framebuffer_last_violated : ∃ x, Plays x ∧ Legal (.unref 0) x ∧
    act (.unref 0) x = .ub "list head of a freed resampler" :=
  bad (os := [.newFb, .newDisp, .add 0, .feed 0 0 true .enough, .finish 0, .del, .dunref 0]) (by decide +kernel)
    (by decide +kernel) (by decide +kernel)

/-- **C107** is false: a display is let go while a framebuffer is being turned for it -/
theorem c107_display_violated : ∃ x, Plays x ∧ Legal (.finish 0) x ∧
    act (.finish 0) x = .ub "display used after it was freed" :=
  bad (os := [.newFb, .newDisp, .add 0, .feed 0 0 true .enough, .remove 0, .dunref 0]) (by decide +kernel)
    (by decide +kernel) (by decide +kernel)

/-- **C107** is false: the server is deleted while a framebuffer is being turned; the application still has the
display -/
theorem c107_server_violated : ∃ x, Plays x ∧ Legal (.finish 0) x ∧
    act (.finish 0) x = .ub "server used after it was freed" :=
  bad (os := [.newFb, .newDisp, .add 0, .feed 0 0 true .enough, .del]) (by decide +kernel) (by decide +kernel)
    (by decide +kernel)

/-- **C107** is false: a display is fed after the server is gone -/
theorem c107_feed_violated : ∃ x, Plays x ∧ Legal (.feed 0 0 false .enough) x ∧
    act (.feed 0 0 false .enough) x = .ub "server used after it was freed" :=
  bad (os := [.newFb, .newDisp, .add 0, .del]) (by decide +kernel) (by decide +kernel) (by decide +kernel)

theorem c107_orders_violated : ¬ Orders := by
  intro h
  obtain ⟨x, a, b, e⟩ := c107_feed_violated
  obtain ⟨y, e'⟩ := h x _ a b
  rw [e] at e'
  exact absurd e' (by simp)

/-- **C107** is false: the application attached nothing to a framebuffer, and something is attached to it -/
theorem c107_user_violated : ∃ x, Reach x ∧ x.set 0 = Option.none ∧ (x.st.fb 0).live = true ∧
    (x.st.fb 0).user = .side 0 := by
  refine ⟨(tread [.newFb, .newDisp, .add 0, .feed 0 0 true .enough] {}).get (by decide +kernel),
    tread_reach _ .start (by simp; rfl), ?_, ?_, ?_⟩ <;> decide +kernel

/-- **C107** is false: what the application attaches to a framebuffer takes the place of the record of a resampler,
which nobody frees any more -/
theorem c107_record_violated : ∃ x, Reach x ∧ x.st.held 0 = true ∧ (x.st.fb 0).live = false ∧
    (x.st.disp 0).live = false ∧ x.st.server = false ∧ x.st.jobs = [] := by
  refine ⟨(tread [.newFb, .newDisp, .add 0, .feed 0 0 true .enough, .finish 0, .setUser 0 (some 1), .unref 0, .del,
    .dunref 0] {}).get (by decide +kernel), tread_reach _ .start (by simp; rfl), ?_, ?_, ?_, ?_, ?_⟩ <;> decide +kernel

end Verif.Displays
