import Verif.Spec.Make

/-! # Rules for programs over the ledger -/

namespace Verif.Make

/-- `m` started with the things `own` (beside others, which it leaves alone) returns and has then what
`Q` says. -/
def Does {α : Type} (sure : List String) (m : M α) (own : Nat → Nat)
    (Q : α → (Nat → Nat) → Prop) : Prop :=
  ∀ (w : World) (rest : Nat → Nat), w.Sound → w.Sure sure → (∀ x, w.live x = own x + rest x) →
    ∃ r w' own', m w = .ok (r, w') ∧ w'.Sound ∧ w'.fine = w.fine ∧
      (∀ x, w'.live x = own' x + rest x) ∧ Q r own'

variable {α β : Type} {sure : List String} {own : Nat → Nat}

theorem Does.pure {a : α} {Q} (h : Q a own) : Does sure (pure a : M α) own Q :=
  fun w _ hs _ hw => ⟨a, w, own, rfl, hs, rfl, hw, h⟩

theorem Does.bind {m : M α} {f : α → M β} {R Q} (hm : Does sure m own R)
    (hf : ∀ a own', R a own' → Does sure (f a) own' Q) : Does sure (m >>= f) own Q := by
  intro w rest hs hsu hw
  obtain ⟨a, w₁, own₁, e₁, hs₁, hsu₁, hw₁, hR⟩ := hm w rest hs hsu hw
  obtain ⟨b, w₂, own₂, e₂, hs₂, hsu₂, hw₂, hQ⟩ := hf a own₁ hR w₁ rest hs₁
    (fun n hn k => by rw [hsu₁]; exact hsu n hn k) hw₁
  refine ⟨b, w₂, own₂, ?_, hs₂, hsu₂.trans hsu₁, hw₂, hQ⟩
  change (m w >>= fun p => f p.1 p.2) = _
  rw [e₁]
  exact e₂

theorem Does.mono {m : M α} {Q Q' : α → (Nat → Nat) → Prop} (hm : Does sure m own Q)
    (h : ∀ a o, Q a o → Q' a o) : Does sure m own Q' := by
  intro w rest hs hsu hw
  obtain ⟨a, w₁, own₁, e₁, hs₁, hsu₁, hw₁, hR⟩ := hm w rest hs hsu hw
  exact ⟨a, w₁, own₁, e₁, hs₁, hsu₁, hw₁, h _ _ hR⟩

theorem Does.own_eq {m : M α} {Q} {own'} (h : ∀ x, own x = own' x) (hm : Does sure m own' Q) :
    Does sure m own Q :=
  fun w rest hs hsu hw => hm w rest hs hsu fun x => by rw [hw, h]

/-- A program that is fine with some things is so beside others. -/
theorem Does.frame {m : M α} {Q} (hm : Does sure m own Q) (more : Nat → Nat) :
    Does sure m (fun x => own x + more x) (fun a o => ∃ o', (∀ x, o x = o' x + more x) ∧ Q a o') := by
  intro w rest hs hsu hw
  obtain ⟨a, w₁, own₁, e₁, hs₁, hsu₁, hw₁, hR⟩ :=
    hm w (fun x => more x + rest x) hs hsu fun x => by rw [hw]; dsimp only; omega
  exact ⟨a, w₁, fun x => own₁ x + more x, e₁, hs₁, hsu₁, fun x => by rw [hw₁]; dsimp only; omega,
    own₁, fun _ => rfl, hR⟩

theorem Does.ask {name : String} {Q} (no : name ∉ sure → Q false own) (yes : Q true own) :
    Does sure (ask name) own Q := by
  intro w rest hs hsu hw
  refine ⟨w.fine name w.calls, { w with calls := w.calls + 1 }, own, rfl, hs, rfl, hw, ?_⟩
  cases h : w.fine name w.calls with
  | true => exact yes
  | false => exact no fun hm => by rw [hsu name hm] at h; cases h

theorem Does.fresh {Q} (h : ∀ n, Q n (fun x => own x + one n x)) : Does sure fresh own Q := by
  intro w rest hs hsu hw
  refine ⟨w.next, { w with live := fun x => w.live x + one w.next x, next := w.next + 1 },
    fun x => own x + one w.next x, rfl, ?_, rfl, ?_, h _⟩
  · intro x hx
    have hx : w.next + 1 ≤ x := hx
    have := hs x (by omega)
    change w.live x + one w.next x = 0
    rw [this, one, if_neg (by omega)]
  · intro x
    change w.live x + one w.next x = _
    have := hw x
    dsimp only
    omega

theorem Does.make {name : String} {Q} (no : name ∉ sure → Q none own)
    (yes : ∀ h, Q (some h) (fun x => own x + one h x)) : Does sure (make name) own Q := by
  unfold Make.make
  refine Does.bind (R := fun b o => o = own ∧ (b = false → name ∉ sure))
    (Does.ask (fun h => ⟨rfl, fun _ => h⟩) ⟨rfl, fun h => by cases h⟩) ?_
  rintro b o ⟨rfl, hb⟩
  cases b with
  | false => exact Does.pure (no (hb rfl))
  | true =>
    refine Does.bind (R := fun n o' => o' = fun x => o x + one n x) (Does.fresh fun n => rfl) ?_
    rintro n o' rfl
    exact Does.pure (yes n)

theorem one_self (h : Nat) : one h h = 1 := by simp [one]

theorem Does.free {h : Nat} {Q : Unit → (Nat → Nat) → Prop} (own' : Nat → Nat)
    (he : ∀ x, own x = own' x + one h x) (hq : Q () own') : Does sure (free h) own Q := by
  intro w rest hs hsu hw
  have hl : w.live h ≠ 0 := by have := hw h; have := he h; rw [one_self] at this; omega
  refine ⟨(), { w with live := fun x => w.live x - one h x }, own', ?_, ?_, rfl, ?_, hq⟩
  · exact if_neg hl
  · intro x hx
    have := hs x hx
    change w.live x - one h x = 0
    omega
  · intro x
    have := hw x
    have := he x
    change w.live x - one h x = _
    omega

theorem Does.use {h : Nat} {Q : Unit → (Nat → Nat) → Prop} (he : 0 < own h) (hq : Q () own) :
    Does sure (use h) own Q := by
  intro w rest hs hsu hw
  have hl : w.live h ≠ 0 := by have := hw h; omega
  exact ⟨(), w, own, if_neg hl, hs, rfl, hw, hq⟩

/-! ### The rules in front of a continuation -/

theorem Does.make_bind {name : String} {f : Option Nat → M β} {Q}
    (no : name ∉ sure → Does sure (f none) own Q)
    (yes : ∀ h, Does sure (f (some h)) (fun x => own x + one h x) Q) :
    Does sure (Make.make name >>= f) own Q :=
  Does.bind (R := fun a o => Does sure (f a) o Q) (Does.make no yes) fun _ _ h => h

theorem Does.ask_bind {name : String} {f : Bool → M β} {Q}
    (no : name ∉ sure → Does sure (f false) own Q) (yes : Does sure (f true) own Q) :
    Does sure (Make.ask name >>= f) own Q :=
  Does.bind (R := fun a o => Does sure (f a) o Q) (Does.ask no yes) fun _ _ h => h

theorem Does.fresh_bind {f : Nat → M β} {Q}
    (h : ∀ n, Does sure (f n) (fun x => own x + one n x) Q) : Does sure (Make.fresh >>= f) own Q :=
  Does.bind (R := fun a o => Does sure (f a) o Q) (Does.fresh h) fun _ _ h => h

theorem Does.free_bind {h : Nat} {f : Unit → M β} {Q} (own' : Nat → Nat)
    (he : ∀ x, own x = own' x + one h x) (hf : Does sure (f ()) own' Q) :
    Does sure (Make.free h >>= f) own Q :=
  Does.bind (R := fun a o => Does sure (f a) o Q) (Does.free own' he hf) fun _ _ h => h

theorem Does.use_bind {h : Nat} {f : Unit → M β} {Q} (he : 0 < own h)
    (hf : Does sure (f ()) own Q) : Does sure (Make.use h >>= f) own Q :=
  Does.bind (R := fun a o => Does sure (f a) o Q) (Does.use he hf) fun _ _ h => h

theorem Does.freeMaybe {h : Option Nat} {Q : Unit → (Nat → Nat) → Prop} (own' : Nat → Nat)
    (he : ∀ x, own x = own' x + maybe h x) (hq : Q () own') : Does sure (freeMaybe h) own Q := by
  cases h with
  | none => exact Does.own_eq (fun x => he x) (Does.pure hq)
  | some h => exact Does.free own' he hq

theorem Does.freeMaybe_bind {h : Option Nat} {f : Unit → M β} {Q} (own' : Nat → Nat)
    (he : ∀ x, own x = own' x + maybe h x) (hf : Does sure (f ()) own' Q) :
    Does sure (Make.freeMaybe h >>= f) own Q :=
  Does.bind (R := fun a o => Does sure (f a) o Q) (Does.freeMaybe own' he hf) fun _ _ h => h

theorem Does.insist_bind {name : String} {f : Unit → M β} {Q} (hn : name ∈ sure)
    (hf : Does sure (f ()) own Q) : Does sure (insist name >>= f) own Q := by
  refine Does.bind (R := fun _ o => o = own) ?_ fun _ o ho => by subst ho; exact hf
  exact Does.ask_bind (fun h => absurd hn h) (Does.pure (by rfl))

theorem Does.insistMake_bind {name : String} {f : Nat → M β} {Q} (hn : name ∈ sure)
    (hf : ∀ n, Does sure (f n) (fun x => own x + one n x) Q) :
    Does sure (insistMake name >>= f) own Q := by
  refine Does.bind (R := fun n o => o = fun x => own x + one n x) ?_
    fun n o ho => by subst ho; exact hf n
  exact Does.make_bind (fun h => absurd hn h) fun h => Does.pure (by rfl)

/-! ### From the rules to the statements -/

theorem clean_of {given : Nat → Nat} {new : M (Option α)} {del : α → M Unit} (mine : α → Nat → Nat)
    (hn : Does sure new given fun r o => match r with
      | none => ∀ x, o x = given x
      | some a => ∀ x, o x = mine a x)
    (hd : ∀ a, Does [] (del a) (mine a) fun _ o => ∀ x, o x = 0) : Clean sure given new del := by
  intro w hs hsu hg
  obtain ⟨r, w', o, e, hs', _, hw', hQ⟩ :=
    hn w (fun x => w.live x - given x) hs hsu fun x => by have := hg x; omega
  refine ⟨r, w', e, hs', ?_⟩
  cases r with
  | none => intro x; rw [hw', hQ x]; have := hg x; omega
  | some a =>
    refine ⟨mine a, ?_, ?_⟩
    · intro x; rw [hw', hQ x]; have := hg x; omega
    · intro v hvs hv
      obtain ⟨_, v', o', e', hvs', _, hv', hz⟩ :=
        hd a v (fun x => v.live x - mine a x) hvs (fun _ h => by cases h)
          fun x => by have := hv x; omega
      exact ⟨v', e', hvs', fun x => by rw [hv', hz x]; have := hv x; omega⟩

theorem neutral_of {m : M α} (hm : Does sure m nothing fun _ o => ∀ x, o x = 0) :
    Neutral sure m := by
  intro w hs hsu
  obtain ⟨r, w', o, e, hs', _, hw', hQ⟩ := hm w w.live hs hsu fun x => by simp [nothing]
  exact ⟨r, w', e, hs', fun x => by rw [hw', hQ x]; omega⟩

theorem givesBack_of {m : M Unit} {mine : Nat → Nat}
    (hm : Does [] m mine fun _ o => ∀ x, o x = 0) : GivesBack mine m := by
  intro v hvs hv
  obtain ⟨_, v', o', e', hvs', _, hv', hz⟩ :=
    hm v (fun x => v.live x - mine x) hvs (fun _ h => by cases h) fun x => by have := hv x; omega
  exact ⟨v', e', hvs', fun x => by rw [hv', hz x]; have := hv x; omega⟩

/-! ### Running a program by the rules -/

theorem Does.free' {h : Nat} {Q : Unit → (Nat → Nat) → Prop} (he : ∀ x, one h x ≤ own x)
    (hq : Q () fun x => own x - one h x) : Does sure (Make.free h) own Q :=
  Does.free _ (fun x => by have := he x; omega) hq

theorem Does.free_bind' {h : Nat} {f : Unit → M β} {Q} (he : ∀ x, one h x ≤ own x)
    (hf : Does sure (f ()) (fun x => own x - one h x) Q) : Does sure (Make.free h >>= f) own Q :=
  Does.free_bind _ (fun x => by have := he x; omega) hf

theorem Does.freeMaybe' {h : Option Nat} {Q : Unit → (Nat → Nat) → Prop}
    (he : ∀ x, maybe h x ≤ own x) (hq : Q () fun x => own x - maybe h x) :
    Does sure (Make.freeMaybe h) own Q :=
  Does.freeMaybe _ (fun x => by have := he x; omega) hq

theorem Does.freeMaybe_bind' {h : Option Nat} {f : Unit → M β} {Q} (he : ∀ x, maybe h x ≤ own x)
    (hf : Does sure (f ()) (fun x => own x - maybe h x) Q) :
    Does sure (Make.freeMaybe h >>= f) own Q :=
  Does.freeMaybe_bind _ (fun x => by have := he x; omega) hf

theorem Does.pure_bind {a : α} {f : α → M β} {Q} (h : Does sure (f a) own Q) :
    Does sure ((Pure.pure a : M α) >>= f) own Q :=
  Does.bind (R := fun a o => Does sure (f a) o Q) (Does.pure h) fun _ _ h => h

theorem Does.assoc {γ : Type} {m : M α} {f : α → M β} {g : β → M γ} {Q}
    (h : Does sure (m >>= fun a => f a >>= g) own Q) : Does sure ((m >>= f) >>= g) own Q := by
  have e : ((m >>= f) >>= g) = (m >>= fun a => f a >>= g) := by
    funext w
    change ((m w >>= fun p => f p.1 p.2) >>= fun q => g q.1 q.2) =
      (m w >>= fun p => (f p.1 p.2 >>= fun q => g q.1 q.2))
    cases m w <;> rfl
  rw [e]
  exact h

/-- Calling a function for which a statement is proved already, beside other things. -/
theorem Does.call_bind {m : M α} {f : α → M β} {need : Nat → Nat} {R Q} (hm : Does sure m need R)
    (he : ∀ x, need x ≤ own x)
    (hf : ∀ a o, R a o → Does sure (f a) (fun x => o x + (own x - need x)) Q) :
    Does sure (m >>= f) own Q := by
  refine Does.own_eq (own' := fun x => need x + (own x - need x))
    (fun x => by have := he x; omega) ?_
  refine Does.bind (hm.frame fun x => own x - need x) ?_
  rintro a o ⟨o', ho, hR⟩
  exact Does.own_eq ho (hf a o' hR)

theorem Does.call {m : M α} {need : Nat → Nat} {R Q} (hm : Does sure m need R)
    (he : ∀ x, need x ≤ own x)
    (hf : ∀ a o o', R a o → (∀ x, o' x = o x + (own x - need x)) → Q a o') : Does sure m own Q := by
  refine Does.own_eq (own' := fun x => need x + (own x - need x))
    (fun x => by have := he x; omega) ?_
  refine (hm.frame fun x => own x - need x).mono ?_
  rintro a o ⟨o', ho, hR⟩
  exact hf a o' o hR ho

theorem Does.weaken {m : M α} {Q} {sure' : List String} (hm : Does sure m own Q)
    (h : ∀ n ∈ sure, n ∈ sure') : Does sure' m own Q := by
  intro w rest hs hsu hw
  obtain ⟨a, w₁, own₁, e₁, hs₁, hsu₁, hw₁, hR⟩ := hm w rest hs (fun n hn => hsu n (h n hn)) hw
  exact ⟨a, w₁, own₁, e₁, hs₁, hsu₁, hw₁, hR⟩

set_option hygiene false in
/-- Runs the calls of the ledger one after the other. -/
macro "run" : tactic => `(tactic| repeat' (first
  | (exfalso; refine hno ?_; first | assumption | (simp; done))
  | (with_reducible_and_instances refine Does.make_bind (fun hno => ?_) (fun _ => ?_) <;> try dsimp only)
  | (with_reducible_and_instances refine Does.ask_bind (fun hno => ?_) ?_ <;> try dsimp only)
  | (with_reducible_and_instances refine Does.fresh_bind (fun _ => ?_) <;> try dsimp only)
  | (with_reducible_and_instances refine Does.free_bind' ?_ ?_ <;> try dsimp only)
  | (with_reducible_and_instances refine Does.freeMaybe_bind' ?_ ?_ <;> try dsimp only)
  | (with_reducible_and_instances refine Does.use_bind ?_ ?_ <;> try dsimp only)
  | (with_reducible_and_instances refine Does.insist_bind (by simp) ?_ <;> try dsimp only)
  | (with_reducible_and_instances refine Does.insistMake_bind (by simp) (fun _ => ?_) <;> try dsimp only)
  | (with_reducible_and_instances refine Does.pure_bind ?_ <;> try dsimp only)
  | (with_reducible_and_instances refine Does.assoc ?_; try dsimp only)
  | (with_reducible_and_instances refine Does.free' ?_ ?_ <;> try dsimp only)
  | (with_reducible_and_instances refine Does.freeMaybe' ?_ ?_ <;> try dsimp only)
  | (with_reducible_and_instances refine Does.make (fun hno => ?_) (fun _ => ?_) <;> try dsimp only)
  | (with_reducible_and_instances refine Does.pure ?_ <;> try dsimp only)))

/-! ### What each object owns -/

def Rcbuf.things (b : Rcbuf) : Nat → Nat := fun x => one b.self x + one b.payload x
def Zrle.things (b : Zrle) : Nat → Nat := fun x => one b.self x + one b.zs x
def pair (p : Nat × Nat) : Nat → Nat := fun x => one p.1 x + one p.2 x

/-- What the pointers of a list point to. -/
def maybes : List (Option Nat) → Nat → Nat
  | [], _ => 0
  | h :: hs, x => maybe h x + maybes hs x

def Tight.things (e : Tight) : Nat → Nat := fun x =>
  one e.self x + one e.grid x + maybes e.zs x + maybes e.workers x
def Refinery.things (r : Refinery) : Nat → Nat := fun x => maybe r.state x + maybe r.hashes x
def Display.things (d : Display) : Nat → Nat := fun x =>
  one d.self x + one d.resampler x + one d.pool x + d.refinery.things x
def Job.things (j : Job) : Nat → Nat := fun x => one j.ctx x + maybe j.region x + one j.dst x
def Stream.things (s : Stream) : Nat → Nat := fun x => one s.self x + one s.fd x + maybe s.handler x
def Ffmpeg.things (e : Ffmpeg) : Nat → Nat := fun x =>
  one e.self x + one e.packet x + one e.work x + one e.device x + maybe e.frames x + one e.graph x +
    one e.codec x
def AvFrame.things (f : AvFrame) : Nat → Nat := fun x =>
  one f.self x + one f.ref x + one f.desc x + maybes f.fds x
def V4l2.things (e : V4l2) : Nat → Nat := fun x =>
  one e.self x + one e.fd x + these e.maps x + one e.handler x
def H264.things : H264 → Nat → Nat
  | .v4l2 e => e.things
  | .ffmpeg e => e.things

theorem maybe_none (x : Nat) : maybe none x = 0 := rfl
theorem maybe_some (h x : Nat) : maybe (some h) x = one h x := rfl

/-- What is left when a program was run: how many of each thing there are. -/
macro "count" : tactic => `(tactic| (
  (try with_reducible intro x)
  (try simp only [nothing, maybe_none, maybe_some, maybes, these, one_self, Rcbuf.things, Zrle.things,
    pair, Tight.things, Refinery.things, Display.things, Job.things, Stream.things, Ffmpeg.things,
    AvFrame.things, V4l2.things, Bool.false_eq_true, reduceIte] at *)
  (first | done | omega)))

theorem rcbufFromMem_clean : Clean [] nothing rcbufFromMem rcbufDel := by
  refine clean_of Rcbuf.things ?_ fun b => ?_
  · unfold rcbufFromMem rcbufNew
    run
    all_goals count
  · unfold rcbufDel
    run
    all_goals count

theorem rcbufNew_clean (p : Nat) : Clean [] (one p) (rcbufNew p) rcbufDel := by
  refine clean_of Rcbuf.things ?_ fun b => ?_
  · unfold rcbufNew
    run
    all_goals count
  · unfold rcbufDel
    run
    all_goals count

theorem rcbufFromString_clean : Clean ["calloc"] nothing rcbufFromString rcbufDel := by
  refine clean_of Rcbuf.things ?_ fun b => ?_
  · unfold rcbufFromString rcbufNew
    run
    all_goals count
  · unfold rcbufDel
    run
    all_goals count

theorem raw_clean : Clean [] nothing rawNew rawDel := by
  refine clean_of one ?_ fun b => ?_
  · unfold rawNew
    run
    all_goals count
  · unfold rawDel
    run
    all_goals count

theorem zrle_clean : Clean [] nothing zrleNew zrleDel := by
  refine clean_of Zrle.things ?_ fun b => ?_
  · unfold zrleNew
    run
    all_goals count
  · unfold zrleDel
    run
    all_goals count

/-! Tight -/

theorem tightStreams_does (n : Nat) :
    Does sure (tightStreams n) nothing fun zs o => ∀ x, o x = maybes zs x := by
  induction n with
  | zero => unfold tightStreams; run; count
  | succ n ih =>
    unfold tightStreams
    run
    · refine Does.call_bind ih (by count) fun zs o ho => ?_
      run
      intro x; have := ho x; count
    · refine Does.call_bind ih (by count) fun zs o ho => ?_
      run
      intro x; have := ho x; count

theorem tightWorkers_does (n : Nat) :
    Does ["calloc of a worker", "aml_work_new"] (tightWorkers n) nothing fun wk o =>
      ∃ hs : List Nat, wk = hs.map some ∧ ∀ x, o x = these hs x := by
  induction n with
  | zero =>
    unfold tightWorkers
    run
    exact ⟨[], rfl, by count⟩
  | succ n ih =>
    unfold tightWorkers tightWorker
    run
    rename_i h
    refine Does.call_bind ih (by count) fun zs o ho => ?_
    obtain ⟨hs, rfl, ho⟩ := ho
    run
    exact ⟨h :: hs, rfl, fun x => by have := ho x; count⟩

theorem unrefAll_does (hs : List Nat) :
    Does sure (unrefAll (hs.map some)) (these hs) fun _ o => ∀ x, o x = 0 := by
  induction hs with
  | nil => unfold unrefAll; exact Does.pure (by count)
  | cons h hs ih =>
    change Does sure (free h >>= fun _ => unrefAll (hs.map some)) _ _
    exact Does.free_bind (these hs) (by count) ih

theorem endAll_does (hs : List (Option Nat)) :
    Does sure (endAll hs) (maybes hs) fun _ o => ∀ x, o x = 0 := by
  induction hs with
  | nil => unfold endAll; exact Does.pure (by count)
  | cons h hs ih =>
    unfold endAll
    exact Does.freeMaybe_bind (maybes hs) (by count) ih

theorem maybes_some (hs : List Nat) (x : Nat) : maybes (hs.map some) x = these hs x := by
  induction hs with
  | nil => rfl
  | cons h hs ih => simp [maybes, these, maybe_some, ih]

theorem Clean.of_dep {α : Type} {sure : List String} {given : Nat → Nat} {new : M (Option α)}
    {del : α → M Unit} (mine : α → Nat → Nat) (whole : α → Prop)
    (hn : Does sure new given fun r o => match r with
      | none => ∀ x, o x = given x
      | some a => whole a ∧ ∀ x, o x = mine a x)
    (hd : ∀ a, whole a → Does [] (del a) (mine a) fun _ o => ∀ x, o x = 0) :
    Clean sure given new del := by
  intro w hs hsu hg
  obtain ⟨r, w', o, e, hs', _, hw', hQ⟩ :=
    hn w (fun x => w.live x - given x) hs hsu fun x => by have := hg x; omega
  refine ⟨r, w', e, hs', ?_⟩
  cases r with
  | none => intro x; rw [hw', hQ x]; have := hg x; omega
  | some a =>
    refine ⟨mine a, ?_, ?_⟩
    · intro x; rw [hw', hQ.2 x]; have := hg x; omega
    · exact givesBack_of (hd a hQ.1)

theorem tight_clean :
    Clean ["calloc of a worker", "aml_work_new"] nothing tightNew tightDel := by
  refine Clean.of_dep Tight.things (fun e => ∃ hs : List Nat, e.workers = hs.map some) ?_ ?_
  · unfold tightNew
    run
    all_goals try count
    refine Does.call_bind (tightStreams_does 4) (by count) fun zs o ho => ?_
    refine Does.call_bind (tightWorkers_does 4) (by count) fun wk o' ho' => ?_
    obtain ⟨hs, rfl, ho'⟩ := ho'
    run
    refine ⟨⟨hs, rfl⟩, fun x => ?_⟩
    have h1 := ho x
    have h2 := ho' x
    have h3 := maybes_some hs x
    count
  · rintro e ⟨hs, he⟩
    unfold tightDel
    rw [he]
    refine Does.call_bind (unrefAll_does hs) ?_ fun _ o ho => ?_
    · intro x; have := maybes_some hs x; simp only [Tight.things, he]; omega
    refine Does.call_bind (endAll_does e.zs) ?_ fun _ o' ho' => ?_
    · intro x
      have := maybes_some hs x
      have := ho x
      simp only [Tight.things, he]
      omega
    run
    all_goals
      intro x
      have h1 := maybes_some hs x
      have h2 := ho x
      have h3 := ho' x
      simp only [Tight.things, he]
      omega

/-! The pieces of a display -/

theorem refineryInit_does (old : Refinery) :
    Does sure (refineryInit old) nothing fun r o =>
      ∀ x, o x = if r.1 then r.2.things x else 0 := by
  unfold refineryInit
  run
  all_goals count

theorem refineryDel_does (r : Refinery) :
    Does sure (refineryDel r) r.things fun _ o => ∀ x, o x = 0 := by
  unfold refineryDel
  run
  all_goals count

theorem resampler_clean : Clean [] nothing resamplerNew fun r => resamplerDel r.1 r.2 := by
  refine clean_of pair ?_ fun b => ?_
  · unfold resamplerNew poolNew
    run
    all_goals count
  · unfold resamplerDel
    run
    all_goals count

theorem fb_clean : Clean [] nothing fbNew fbDel := by
  refine clean_of pair ?_ fun b => ?_
  · unfold fbNew
    run
    all_goals count
  · unfold fbDel
    run
    all_goals count

theorem display_clean : Clean [] nothing displayNew displayDel := by
  refine clean_of Display.things ?_ fun d => ?_
  · unfold displayNew resamplerNew poolNew resamplerDel
    run
    all_goals try count
    refine Does.call_bind (refineryInit_does _) (by count) fun r o ho => ?_
    obtain ⟨good, r⟩ := r
    cases good with
    | false =>
      run
      all_goals
        intro x
        have h := ho x
        count
    | true =>
      run
      intro x
      have h := ho x
      count
  · unfold displayDel resamplerDel
    refine Does.call_bind (refineryDel_does _) (by count) fun _ o ho => ?_
    run
    all_goals
      intro x
      have h := ho x
      count

theorem displayResizes_does (n : Nat) (d : Display) :
    Does ["XXH3_createState", "calloc of the hashes"] (displayResizes n d) d.things
      fun d' o => ∀ x, o x = d'.things x := by
  induction n generalizing d with
  | zero => unfold displayResizes; run; count
  | succ n ih =>
    unfold displayResizes displayResize refineryResize refineryInit
    run
    refine Does.call_bind (refineryDel_does _) (by count) fun _ o ho => ?_
    run
    refine Does.own_eq ?_ (ih _)
    intro x
    have := ho x
    count

theorem displayDel_does (d : Display) : Does sure (displayDel d) d.things fun _ o => ∀ x, o x = 0 := by
  unfold displayDel resamplerDel
  refine Does.call_bind (refineryDel_does _) (by count) fun _ o ho => ?_
  run
  all_goals
    intro x
    have h := ho x
    count

theorem displayNew_does : Does sure displayNew nothing fun r o => match r with
    | none => ∀ x, o x = nothing x
    | some d => ∀ x, o x = d.things x := by
  unfold displayNew resamplerNew poolNew resamplerDel
  run
  all_goals try count
  refine Does.call_bind (refineryInit_does _) (by count) fun r o ho => ?_
  obtain ⟨good, r⟩ := r
  cases good with
  | false =>
    run
    all_goals
      intro x
      have h := ho x
      count
  | true =>
    run
    intro x
    have h := ho x
    count

theorem displayLife_neutral (n : Nat) :
    Neutral ["XXH3_createState", "calloc of the hashes"] (displayLife n) := by
  refine neutral_of ?_
  unfold displayLife
  refine Does.bind displayNew_does fun r o ho => ?_
  cases r with
  | none => exact Does.pure ho
  | some d =>
    refine Does.own_eq ho ?_
    refine Does.bind (displayResizes_does n d) fun d' o' ho' => ?_
    exact Does.own_eq ho' (displayDel_does d')

theorem jobDel_does (j : Job) : Does sure (jobDel j) j.things fun _ o => ∀ x, o x = 0 := by
  unfold jobDel
  run
  all_goals count

/-- What the work owns, if there is any. -/
def jobThings : Option Job → Nat → Nat
  | none, _ => 0
  | some j, x => j.things x

theorem resamplerFeed_does (old : Option Nat) :
    Does ["nvnc_fb_pool_acquire", "calloc side data"] (resamplerFeed old) (maybe old)
      fun r o => ∀ x, o x = maybe r.2 x + jobThings r.1 x := by
  unfold resamplerFeed jobDel
  cases old with
  | none =>
    run
    all_goals (try intro x); (try simp only [jobThings]); count
  | some side =>
    run
    all_goals (try intro x); (try simp only [jobThings]); count

/-! Streams -/

theorem stream_clean (fd : Nat) : Clean [] (one fd) (streamNew fd) streamDel := by
  refine Clean.of_dep Stream.things (fun s => ∃ h, s.handler = some h) ?_ ?_
  · unfold streamNew tcpInit
    run
    all_goals try count
    exact ⟨⟨_, rfl⟩, by count⟩
  · rintro ⟨self, fd, handler⟩ ⟨h, he⟩
    cases he
    unfold streamDel useMaybe
    run
    all_goals count

theorem ws_clean (fd : Nat) :
    Clean ["aml_handler_new", "aml_start"] (one fd) (wsNew fd) streamDel := by
  refine Clean.of_dep Stream.things (fun s => ∃ h, s.handler = some h) ?_ ?_
  · unfold wsNew tcpInit
    run
    all_goals try count
    exact ⟨⟨_, rfl⟩, by count⟩
  · rintro ⟨self, fd, handler⟩ ⟨h, he⟩
    cases he
    unfold streamDel useMaybe
    run
    all_goals count

theorem rsa_clean : Clean [] nothing rsaUpgrade rsaDowngrade := by
  refine clean_of pair ?_ fun b => ?_
  · unfold rsaUpgrade
    run
    all_goals count
  · unfold rsaDowngrade
    run
    all_goals count

theorem tls_clean (h : Nat) :
    Clean ["aml_handler_new", "aml_start"] (one h) (tlsUpgrade h) tlsDowngrade := by
  refine clean_of pair ?_ fun b => ?_
  · unfold tlsUpgrade
    run
    all_goals count
  · unfold tlsDowngrade
    run
    all_goals count

theorem tlsCreds_clean : Clean [] nothing tlsCreds tlsCredsDel := by
  refine clean_of pair ?_ fun b => ?_
  · unfold tlsCreds
    run
    all_goals count
  · unfold tlsCredsDel
    run
    all_goals count

theorem rsaLines_does (n : Nat) : Does sure (rsaLines n) nothing fun _ o => ∀ x, o x = 0 := by
  induction n with
  | zero => unfold rsaLines; run; count
  | succ n ih =>
    unfold rsaLines
    run
    · count
    · exact ih

theorem rsaKeyLoad_neutral (n : Nat) : Neutral ["first line", "malloc"] (rsaKeyLoad n) := by
  refine neutral_of ?_
  unfold rsaKeyLoad
  run
  all_goals try count
  refine Does.call_bind (rsaLines_does n) (by count) fun _ o ho => ?_
  run
  all_goals
    intro x
    have := ho x
    count

/-! H.264 -/

theorem buffersrcInit_does :
    Does ["av_buffersrc_parameters_set"] buffersrcInit nothing fun _ o => ∀ x, o x = 0 := by
  unfold buffersrcInit
  run
  all_goals count

theorem filtersFill_does :
    Does ["av_buffersrc_parameters_set"] filtersFill nothing fun _ o => ∀ x, o x = 0 := by
  unfold filtersFill
  refine Does.bind buffersrcInit_does fun r o ho => ?_
  cases r with
  | false => exact Does.pure ho
  | true =>
    dsimp only
    refine Does.own_eq (own' := nothing) ho ?_
    run
    all_goals try count
    exact Does.ask (fun _ => by count) (by count)

theorem filtersInit_does :
    Does ["av_buffersrc_parameters_set"] filtersInit nothing fun r o => ∀ x, o x = maybe r x := by
  unfold filtersInit
  run
  · count
  · refine Does.call_bind filtersFill_does (by count) fun r o ho => ?_
    cases r with
    | false =>
      run
      all_goals (intro x; have := ho x; count)
    | true =>
      run
      all_goals (intro x; have := ho x; count)

theorem framesInit_does : Does sure framesInit nothing fun r o =>
    (∀ x, o x = maybe r.2 x) ∧ (r.1 = false → r.2 = none) ∧
      (r.1 = true → "av_hwframe_ctx_init" ∈ sure → ∃ h, r.2 = some h) := by
  unfold framesInit
  run
  · exact ⟨by count, fun _ => rfl, (fun h => by cases h)⟩
  · count
  · exact ⟨by count, fun _ => rfl, fun _ h => absurd h hno⟩
  · exact ⟨by count, (fun h => by cases h), fun _ _ => ⟨_, rfl⟩⟩

theorem ffmpegNew_does (known : Bool)
    (hsure : ∀ n ∈ ["render node", "av_buffersrc_parameters_set", "avcodec_alloc_context3",
      "avcodec_open2"], n ∈ sure) :
    Does sure (ffmpegNew known) nothing fun r o => match r with
      | none => ∀ x, o x = nothing x
      | some e => ("av_hwframe_ctx_init" ∈ sure → ∃ h, e.frames = some h) ∧
          ∀ x, o x = e.things x := by
  have s1 := hsure "render node" (by simp)
  have s3 := hsure "avcodec_alloc_context3" (by simp)
  have s4 := hsure "avcodec_open2" (by simp)
  unfold ffmpegNew
  run
  all_goals try count
  cases known with
  | false =>
    run
    all_goals count
  | true =>
    run
    all_goals try count
    refine Does.call_bind framesInit_does (by count) fun r o ho => ?_
    obtain ⟨good, frames⟩ := r
    obtain ⟨ho, hnone, hsome⟩ := ho
    cases good with
    | false =>
      cases hnone rfl
      run
      all_goals (intro x; have := ho x; count)
    | true =>
      dsimp only
      refine Does.call_bind (filtersInit_does.weaken fun n hn => hsure n ?_) (by count)
        fun r o' ho' => ?_
      · simp only [List.mem_singleton] at hn
        subst hn
        simp
      cases r with
      | none =>
        run
        all_goals (intro x; have := ho x; have := ho' x; count)
      | some graph =>
        run
        refine ⟨hsome rfl, ?_⟩
        intro x; have := ho x; have := ho' x; count

theorem ffmpegDel_does (e : Ffmpeg) : Does sure (ffmpegDel e) e.things fun _ o => ∀ x, o x = 0 := by
  unfold ffmpegDel
  run
  all_goals count

theorem planeFds_does (n : Nat) :
    Does sure (planeFds n) nothing fun zs o => ∀ x, o x = maybes zs x := by
  induction n with
  | zero => unfold planeFds; run; count
  | succ n ih =>
    unfold planeFds
    run
    · refine Does.call_bind ih (by count) fun zs o ho => ?_
      run
      intro x; have := ho x; count
    · refine Does.call_bind ih (by count) fun zs o ho => ?_
      run
      intro x; have := ho x; count

theorem descFree_does (d : Nat) (fds : List (Option Nat)) :
    Does sure (descFree d fds) (fun x => one d x + maybes fds x) fun _ o => ∀ x, o x = 0 := by
  unfold descFree
  refine Does.call_bind (endAll_does fds) (by count) fun _ o ho => ?_
  run
  all_goals (intro x; have := ho x; count)

theorem fbToAvframe_does (n : Nat) (hd : "calloc of the descriptor" ∈ sure) :
    Does sure (fbToAvframe n) nothing fun r o => match r with
      | none => (∀ x, o x = 0) ∧
          ¬ ("av_frame_alloc of the input" ∈ sure ∧ "av_buffer_create" ∈ sure)
      | some f => ∀ x, o x = f.things x := by
  unfold fbToAvframe
  run
  · unfold useMaybe
    run
    · count
    refine Does.call_bind (planeFds_does n) (by count) fun fds o ho => ?_
    run
    · refine Does.call_bind (descFree_does _ fds) ?_ fun _ o' ho' => ?_
      · intro x; have := ho x; count
      · run
        refine ⟨?_, fun h => absurd h.1 hno⟩
        intro x; have := ho x; have := ho' x; count
    · refine Does.call_bind (descFree_does _ fds) ?_ fun _ o' ho' => ?_
      · intro x; have := ho x; count
      · run
        · intro x; have := ho x; have := ho' x; count
        · refine ⟨?_, fun h => absurd h.2 hno⟩
          intro x; have := ho x; have := ho' x; count
    · intro x; have := ho x; count

theorem avframeFree_does (f : AvFrame) :
    Does sure (avframeFree f) f.things fun _ o => ∀ x, o x = 0 := by
  unfold avframeFree
  refine Does.call_bind (descFree_does _ _) (by count) fun _ o ho => ?_
  run
  all_goals (intro x; have := ho x; count)

theorem receivePackets_does (n : Nat) :
    Does sure (receivePackets n) nothing fun _ o => ∀ x, o x = 0 := by
  induction n with
  | zero => unfold receivePackets; run; count
  | succ n ih =>
    unfold receivePackets
    run
    · count
    · count
    · exact Does.own_eq (by count) ih

theorem ffmpegEncode_does (n : Nat) (hp : "av_packet_alloc" ∈ sure) :
    Does sure (ffmpegEncode n) nothing fun _ o => ∀ x, o x = 0 := by
  unfold ffmpegEncode
  run
  all_goals try count
  refine Does.insistMake_bind hp fun _ => ?_
  refine Does.call_bind (receivePackets_does n) (by count) fun _ o ho => ?_
  run
  all_goals (intro x; have := ho x; count)

/-- The calls that `ffmpegWork` needs. -/
def workSure : List String :=
  ["calloc of the descriptor", "av_frame_alloc of the input", "av_buffer_create", "av_packet_alloc"]

theorem ffmpegWork_does (h planes n : Nat) (hs : ∀ n ∈ workSure, n ∈ sure) :
    Does sure (ffmpegWork (some h) planes n) (one h) fun _ o => ∀ x, o x = one h x := by
  unfold ffmpegWork
  refine Does.call_bind (fbToAvframe_does planes (hs _ (by simp [workSure]))) (by count)
    fun r o ho => ?_
  cases r with
  | none => exact absurd ⟨hs _ (by simp [workSure]), hs _ (by simp [workSure])⟩ ho.2
  | some f =>
    unfold useMaybe
    run
    · have := one_self h
      count
    · refine Does.call_bind (ffmpegEncode_does n (hs _ (by simp [workSure]))) (by count)
        fun _ o' ho' => ?_
      run
      · intro x; have := ho' x; count
      refine Does.call (avframeFree_does f) ?_ fun _ oy oz hy hz => ?_
      · intro x; have := ho x; have := ho' x; count
      · intro x; have := ho x; have := ho' x; have := hy x; have := hz x; count
    · refine Does.call_bind (ffmpegEncode_does n (hs _ (by simp [workSure]))) (by count)
        fun _ o' ho' => ?_
      run
      · intro x; have := ho' x; count
      refine Does.call (avframeFree_does f) ?_ fun _ oy oz hy hz => ?_
      · intro x; have := ho x; have := ho' x; count
      · intro x; have := ho x; have := ho' x; have := hy x; have := hz x; count

theorem packetCopy_does : Does sure packetCopy nothing fun _ o => ∀ x, o x = nothing x := by
  unfold packetCopy
  run
  all_goals count

theorem ffmpegFrame_does (h planes n : Nat) (he : "calloc of the entry" ∈ sure)
    (hs : ∀ n ∈ workSure, n ∈ sure) :
    Does sure (ffmpegFrame (some h) planes n) (one h) fun _ o => ∀ x, o x = one h x := by
  unfold ffmpegFrame enqueue dequeue
  refine Does.insistMake_bind he fun e => ?_
  run
  · count
  refine Does.call_bind (ffmpegWork_does h planes n hs) (by count) fun _ o ho => ?_
  refine Does.call packetCopy_does (by count) fun _ oy oz hy hz => ?_
  intro x; have := ho x; have := hy x; have := hz x; count

theorem ffmpegWorks_does (h planes n k : Nat) (he : "calloc of the entry" ∈ sure)
    (hs : ∀ n ∈ workSure, n ∈ sure) :
    Does sure (ffmpegWorks (some h) planes n k) (one h) fun _ o => ∀ x, o x = one h x := by
  induction k with
  | zero => unfold ffmpegWorks; run; count
  | succ k ih =>
    unfold ffmpegWorks
    exact Does.bind (ffmpegFrame_does h planes n he hs) fun _ o ho => Does.own_eq ho ih

theorem ffmpeg_clean (known : Bool) :
    Clean ["render node", "av_buffersrc_parameters_set", "avcodec_alloc_context3", "avcodec_open2"]
      nothing (ffmpegNew known) ffmpegDel := by
  refine clean_of Ffmpeg.things ?_ fun e => ffmpegDel_does e
  refine (ffmpegNew_does known fun n h => h).mono fun r o h => ?_
  cases r with
  | none => exact h
  | some e => exact h.2

theorem ffmpegLife_neutral (known : Bool) (planes packets n : Nat) :
    Neutral ["render node", "av_buffersrc_parameters_set", "avcodec_alloc_context3", "avcodec_open2",
      "av_hwframe_ctx_init", "calloc of the descriptor", "av_frame_alloc of the input",
      "av_buffer_create", "av_packet_alloc", "calloc of the entry"] (ffmpegLife known planes packets n) := by
  refine neutral_of ?_
  unfold ffmpegLife
  refine Does.bind (ffmpegNew_does known (by simp)) fun r o ho => ?_
  cases r with
  | none => exact Does.pure ho
  | some e =>
    obtain ⟨hf, ho⟩ := ho
    obtain ⟨h, hf⟩ := hf (by simp)
    dsimp only
    rw [hf]
    refine Does.call_bind (ffmpegWorks_does h planes packets n (by simp) (by simp [workSure])) ?_
      fun _ o' ho' => ?_
    · intro x; have := ho x; simp only [Ffmpeg.things, hf] at this; count
    · refine Does.own_eq ?_ (ffmpegDel_does e)
      intro x
      have := ho x
      have := ho' x
      simp only [Ffmpeg.things, hf] at *
      count

/-! V4L2 -/

theorem searchDev_does (es : List Bool) :
    Does sure (searchDev es) nothing fun r o => ∀ x, o x = maybe r x := by
  induction es with
  | nil => unfold searchDev; run; count
  | cons e es ih =>
    cases e with
    | false => exact ih
    | true =>
      unfold searchDev
      run
      · exact ih
      · count
      · exact Does.own_eq (by count) ih
      · count

theorem findDevice_does (es : List Bool) (h : "opendir" ∈ sure) :
    Does sure (findDevice es) nothing fun r o => ∀ x, o x = maybe r x := by
  unfold findDevice
  refine Does.insistMake_bind h fun _ => ?_
  refine Does.call_bind (searchDev_does es) (by count) fun _ o ho => ?_
  run
  all_goals (intro x; have := ho x; count)

theorem mapAll_does (n : Nat) (h1 : "VIDIOC_QUERYBUF" ∈ sure) (h2 : "mmap" ∈ sure) :
    Does sure (mapAll n) nothing fun r o => r.1 = true ∧ ∀ x, o x = these r.2 x := by
  induction n with
  | zero => unfold mapAll; run; exact ⟨rfl, by count⟩
  | succ n ih =>
    unfold mapAll
    run
    refine Does.call_bind ih (by count) fun r o ho => ?_
    obtain ⟨good, ms⟩ := r
    run
    exact ⟨ho.1, fun x => by have := ho.2 x; count⟩

theorem askAll_does (name : String) (n : Nat) (h : name ∈ sure) :
    Does sure (askAll name n) nothing fun r o => r = true ∧ ∀ x, o x = 0 := by
  induction n with
  | zero => unfold askAll; run; exact ⟨rfl, by count⟩
  | succ n ih =>
    unfold askAll
    run
    exact ih

theorem insistAll_does (name : String) (n : Nat) (h : name ∈ sure) :
    Does sure (insistAll name n) nothing fun _ o => ∀ x, o x = 0 := by
  induction n with
  | zero => unfold insistAll; run; count
  | succ n ih =>
    unfold insistAll
    exact Does.insist_bind h ih

theorem freeAll_does (hs : List Nat) : Does sure (freeAll hs) (these hs) fun _ o => ∀ x, o x = 0 := by
  induction hs with
  | nil => unfold freeAll; exact Does.pure (by count)
  | cons h hs ih =>
    unfold freeAll
    exact Does.free_bind (these hs) (by count) ih

/-- The calls that `v4l2New` needs. -/
def v4l2Sure : List String :=
  ["opendir", "VIDIOC_QUERYBUF", "mmap", "alloc_src_buffers", "v4l2_qbuf", "stream_on",
    "aml_handler_new", "aml_start"]

theorem v4l2New_does (dev : List Bool) (hs : ∀ n ∈ v4l2Sure, n ∈ sure) :
    Does sure (v4l2New dev) nothing fun r o => match r with
      | none => ∀ x, o x = nothing x
      | some e => ∀ x, o x = e.things x := by
  have s1 := hs "opendir" (by simp [v4l2Sure])
  have s2 := hs "VIDIOC_QUERYBUF" (by simp [v4l2Sure])
  have s3 := hs "mmap" (by simp [v4l2Sure])
  have s4 := hs "alloc_src_buffers" (by simp [v4l2Sure])
  have s5 := hs "v4l2_qbuf" (by simp [v4l2Sure])
  have s6 := hs "stream_on" (by simp [v4l2Sure])
  have s7 := hs "aml_handler_new" (by simp [v4l2Sure])
  have s8 := hs "aml_start" (by simp [v4l2Sure])
  unfold v4l2New
  run
  · count
  refine Does.call_bind (findDevice_does dev s1) (by count) fun r o ho => ?_
  cases r with
  | none =>
    run
    all_goals (intro x; have := ho x; count)
  | some fd =>
    run
    all_goals try (intro x; have := ho x; count)
    refine Does.call_bind (mapAll_does 3 s2 s3) (by count) fun r o1 ho1 => ?_
    obtain ⟨good, maps⟩ := r
    obtain ⟨rfl, ho1⟩ : good = true ∧ _ := ho1
    dsimp only
    refine Does.call_bind (askAll_does _ 4 s4) (by count) fun r o2 ho2 => ?_
    obtain ⟨rfl, ho2⟩ := ho2
    dsimp only
    refine Does.call_bind (insistAll_does _ 3 s5) (by count) fun _ o3 ho3 => ?_
    run
    intro x
    have := ho x
    have := ho1 x
    have := ho2 x
    have := ho3 x
    count

theorem v4l2Del_does (e : V4l2) : Does sure (v4l2Del e) e.things fun _ o => ∀ x, o x = 0 := by
  unfold v4l2Del
  run
  · have := one_self e.handler
    count
  · count
  refine Does.call_bind (freeAll_does _) (by count) fun _ o ho => ?_
  run
  all_goals (intro x; have := ho x; count)

theorem v4l2_clean (dev : List Bool) : Clean v4l2Sure nothing (v4l2New dev) v4l2Del :=
  clean_of V4l2.things
    ((v4l2New_does dev fun _ h => h).mono fun r o h => by cases r <;> exact h)
    fun e => v4l2Del_does e

/-! Open H.264 -/

/-- The calls that `ffmpegNew` needs. -/
def ffmpegSure : List String :=
  ["render node", "av_buffersrc_parameters_set", "avcodec_alloc_context3", "avcodec_open2"]

/-- What an encoder owns, if there is one. -/
def h264Things : Option H264 → Nat → Nat
  | none, _ => 0
  | some e, x => e.things x

theorem h264New_does (dev : List Bool) (known : Bool) (h1 : ∀ n ∈ v4l2Sure, n ∈ sure)
    (h2 : ∀ n ∈ ffmpegSure, n ∈ sure) :
    Does sure (h264New dev known) nothing fun r o => ∀ x, o x = h264Things r x := by
  unfold h264New
  refine Does.bind (v4l2New_does dev h1) fun r o ho => ?_
  cases r with
  | some e => exact Does.pure ho
  | none =>
    refine Does.own_eq ho ?_
    refine Does.bind (ffmpegNew_does known h2) fun r o ho => ?_
    cases r with
    | some e => exact Does.pure ho.2
    | none => exact Does.pure ho

theorem h264Del_does (e : H264) : Does sure (h264Del e) e.things fun _ o => ∀ x, o x = 0 := by
  cases e with
  | v4l2 e => exact v4l2Del_does e
  | ffmpeg e => exact ffmpegDel_does e

def openThings (e : OpenH264) : Nat → Nat := fun x =>
  one e.self x + one e.pending x + h264Things e.encoder x

theorem openH264New_does : Does sure openH264New nothing fun r o => match r with
    | none => ∀ x, o x = nothing x
    | some e => ∀ x, o x = openThings e x := by
  unfold openH264New
  run
  · count
  · count
  · count
  · intro x
    simp only [openThings, h264Things]
    count

theorem openH264Del_does (e : OpenH264) :
    Does sure (openH264Del e) (openThings e) fun _ o => ∀ x, o x = 0 := by
  obtain ⟨self, pending, enc⟩ := e
  unfold openH264Del
  cases enc with
  | none =>
    run
    all_goals (intro x; simp only [openThings, h264Things]; count)
  | some e =>
    dsimp only
    refine Does.call_bind (h264Del_does e) ?_ fun _ o ho => ?_
    · intro x; simp only [openThings, h264Things]; omega
    run
    all_goals (intro x; have := ho x; simp only [openThings, h264Things]; count)

theorem openH264Resize_does (e : OpenH264) (dev : List Bool) (known : Bool)
    (h1 : ∀ n ∈ v4l2Sure, n ∈ sure) (h2 : ∀ n ∈ ffmpegSure, n ∈ sure) :
    Does sure (openH264Resize e dev known) (openThings e) fun r o => ∀ x, o x = openThings r.2 x := by
  obtain ⟨self, pending, enc⟩ := e
  unfold openH264Resize
  refine Does.call_bind (h264New_does dev known h1 h2) (by count) fun r o ho => ?_
  cases r with
  | none =>
    run
    intro x; have := ho x; simp only [openThings, h264Things] at *; count
  | some new =>
    cases enc with
    | none =>
      run
      intro x; have := ho x; simp only [openThings, h264Things] at *; count
    | some old =>
      dsimp only
      refine Does.call_bind (h264Del_does old) ?_ fun _ o' ho' => ?_
      · intro x; simp only [openThings, h264Things, nothing]; omega
      run
      intro x
      have := ho x
      have := ho' x
      simp only [openThings, h264Things] at *
      count

theorem openH264Resizes_does (sizes : List (List Bool × Bool)) (e : OpenH264)
    (h1 : ∀ n ∈ v4l2Sure, n ∈ sure) (h2 : ∀ n ∈ ffmpegSure, n ∈ sure) :
    Does sure (openH264Resizes sizes e) (openThings e) fun r o => ∀ x, o x = openThings r x := by
  induction sizes generalizing e with
  | nil => unfold openH264Resizes; exact Does.pure fun _ => rfl
  | cons s ss ih =>
    unfold openH264Resizes
    refine Does.bind (openH264Resize_does e s.1 s.2 h1 h2) fun r o ho => ?_
    exact Does.own_eq ho (ih _)

theorem openH264Life_neutral (sizes : List (List Bool × Bool)) :
    Neutral (v4l2Sure ++ ffmpegSure) (openH264Life sizes) := by
  refine neutral_of ?_
  unfold openH264Life
  refine Does.bind openH264New_does fun r o ho => ?_
  cases r with
  | none => exact Does.pure ho
  | some e =>
    refine Does.own_eq ho ?_
    refine Does.bind (openH264Resizes_does sizes e (fun n h => List.mem_append_left _ h)
      fun n h => List.mem_append_right _ h) fun r o ho => ?_
    exact Does.own_eq ho (openH264Del_does r)

/-! More about pieces -/

theorem tightWorkers_any (n : Nat) :
    Does sure (tightWorkers n) nothing fun wk o => ∀ x, o x = maybes wk x := by
  induction n with
  | zero => unfold tightWorkers; run; count
  | succ n ih =>
    unfold tightWorkers tightWorker
    run
    all_goals try count
    all_goals
      refine Does.call_bind ih (by count) fun zs o ho => ?_
      run
      intro x; have := ho x; count

theorem tightNew_any : Clean [] nothing tightNew tightDelChecked := by
  refine clean_of Tight.things ?_ fun e => ?_
  · unfold tightNew
    run
    all_goals try count
    refine Does.call_bind (tightStreams_does 4) (by count) fun zs o ho => ?_
    refine Does.call_bind (tightWorkers_any 4) (by count) fun wk o' ho' => ?_
    run
    intro x
    have h1 := ho x
    have h2 := ho' x
    count
  · unfold tightDelChecked
    refine Does.call_bind (endAll_does e.workers) (by count) fun _ o ho => ?_
    refine Does.call_bind (endAll_does e.zs) ?_ fun _ o' ho' => ?_
    · intro x; have := ho x; count
    run
    all_goals
      intro x
      have h2 := ho x
      have h3 := ho' x
      count

theorem fbToAvframe_clean (n : Nat) :
    Clean ["calloc of the descriptor"] nothing (fbToAvframe n) avframeFree :=
  clean_of AvFrame.things
    ((fbToAvframe_does n (by simp)).mono fun r o h => by
      cases r with
      | none => exact h.1
      | some f => exact h)
    fun f => avframeFree_does f

end Verif.Make
