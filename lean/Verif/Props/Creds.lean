import Verif.Model.Creds

/-! # C121: the key that the application sets is the key that clients see -/

namespace Verif.Creds

/-- the key that a call loads -/
def setKey : Op → Option Nat
  | .setRsa file => file
  | _ => .none

/-- the key of the last call that loaded one -/
def lastSet : List Op → Option Nat
  | [] => .none
  | o :: os => (lastSet os).or (setKey o)

/-- the key that would be made for the first client that chooses RSA-AES -/
def firstMade : List Op → Option Nat
  | [] => .none
  | .choose _ new :: _ => some new
  | _ :: os => firstMade os

/-- the first of the files for TLS that was any good -/
def firstTls : List Op → Option Nat
  | [] => .none
  | .setTls (some c) :: _ => some c
  | _ :: os => firstTls os

/-- the key that the server ought to have after `os`: the last one that was set, or else the one it made itself -/
def due (os : List Op) : Option Nat :=
  match lastSet os with
  | some k => some k
  | .none => firstMade os

theorem run_snoc (os : List Op) (o : Op) (s : St) : run (os ++ [o]) s = step o (run os s) := by
  unfold run; rw [List.foldl_append]; rfl

theorem run_append (a b : List Op) (s : St) : run (a ++ b) s = run b (run a s) := by
  unfold run; rw [List.foldl_append]

theorem lastSet_snoc (os : List Op) (o : Op) : lastSet (os ++ [o]) = (setKey o).or (lastSet os) := by
  induction os with
  | nil => simp [lastSet]
  | cons a os ih =>
    rw [List.cons_append, lastSet, ih, lastSet, Option.or_assoc]

def madeKey : Op → Option Nat
  | .choose _ n => some n
  | _ => .none

theorem firstMade_snoc (os : List Op) (o : Op) : firstMade (os ++ [o]) = (firstMade os).or (madeKey o) := by
  induction os with
  | nil => cases o <;> rfl
  | cons a os ih =>
    cases a with
    | choose i n => rfl
    | _ => exact ih

/-- what holds at any time if every file was good -/
structure Known (os : List Op) (s : St) : Prop where
  rsa : s.rsa = (due os).map .pair
  stage : ∀ id, s.stage id ≠ 0 → s.rsa ≠ .none

theorem snoc_induction {P : List Op → Prop} (h0 : P []) (h1 : ∀ os o, P os → P (os ++ [o])) : ∀ os, P os := by
  have : ∀ os : List Op, P os.reverse := by
    intro os
    induction os with
    | nil => exact h0
    | cons o os ih => rw [List.reverse_cons]; exact h1 _ _ ih
  intro os
  have h := this os.reverse
  rwa [List.reverse_reverse] at h

theorem setStage_stage {id n i : Nat} {s : St} (h : (setStage id n s).stage i ≠ 0) : i = id ∨ s.stage i ≠ 0 := by
  by_cases hi : i = id
  · exact .inl hi
  · refine .inr ?_
    unfold setStage at h
    dsimp only at h
    rwa [if_neg hi] at h

theorem known (os : List Op) : (∀ o ∈ os, o ≠ .setRsa .none) → Known os (run os {}) := by
  induction os using snoc_induction with
  | h0 => exact fun _ => ⟨rfl, fun _ h => absurd rfl h⟩
  | h1 os o ih =>
    intro h
    obtain ⟨hr, hs⟩ := ih fun o ho => h o (by simp [ho])
    have hne := h o (by simp)
    rw [run_snoc]
    generalize run os {} = s at hr hs
    have hdue : due (os ++ [o]) = (setKey o).or ((due os).or (madeKey o)) := by
      unfold due
      rw [lastSet_snoc, firstMade_snoc]
      cases setKey o <;> cases lastSet os <;> cases firstMade os <;> rfl
    cases o with
    | setRsa f =>
      cases f with
      | none => exact absurd rfl hne
      | some k => exact ⟨by rw [hdue]; rfl, fun _ _ h => nomatch h⟩
    | setTls f =>
      have e1 : (step (.setTls f) s).rsa = s.rsa := by unfold step; dsimp only; split <;> rfl
      have e2 : (step (.setTls f) s).stage = s.stage := by unfold step; dsimp only; split <;> rfl
      exact ⟨by rw [e1, hr, hdue]; cases due os <;> rfl, by rw [e1, e2]; exact hs⟩
    | choose id n =>
      unfold step
      dsimp only
      split
      · refine ⟨?_, fun _ _ h => nomatch h⟩
        dsimp only
        rw [hdue, keyFor, hr]
        cases due os <;> rfl
      · rename_i hst
        refine ⟨?_, hs⟩
        have := hs id hst
        rw [hr] at this ⊢
        rw [hdue]
        cases hd : due os with
        | none => rw [hd] at this; exact absurd rfl this
        | some k => rfl
    | challenge id =>
      have e1 : (step (.challenge id) s).rsa = s.rsa := by
        unfold step
        dsimp only
        split
        · split <;> rfl
        · rfl
      refine ⟨by rw [e1, hr, hdue]; cases due os <;> rfl, fun i hi => ?_⟩
      rw [e1]
      unfold step at hi
      dsimp only at hi
      split at hi
      · rename_i hk; rw [hk]; exact fun h => nomatch h
      · exact hs i hi
    | hash id =>
      have e1 : (step (.hash id) s).rsa = s.rsa := by
        unfold step
        dsimp only
        split
        · split <;> rfl
        · rfl
      refine ⟨by rw [e1, hr, hdue]; cases due os <;> rfl, fun i hi => ?_⟩
      rw [e1]
      unfold step at hi
      dsimp only at hi
      split at hi
      · rename_i hk; rw [hk]; exact fun h => nomatch h
      · exact hs i hi

/-- **C121** (partial).  If every file that the application gives to nvnc_set_rsa_creds is good, then each client that
chooses RSA-AES is shown the key of the last of these calls; and if there was none, the key that was made for the first
such client. Missing: what a call that fails leaves, see `c121_failed_violated`. -/
theorem c121_shown_partial (os : List Op) (h : ∀ o ∈ os, o ≠ .setRsa .none) (id new : Nat)
    (h0 : (run os {}).stage id = 0) :
    (run (os ++ [.choose id new]) {}).log = (run os {}).log ++ [.shown id (.pair ((due os).getD new))] := by
  obtain ⟨hr, _⟩ := known os h
  rw [run_snoc]
  unfold step
  dsimp only
  rw [if_pos h0]
  dsimp only
  rw [keyFor, hr]
  cases due os <;> rfl

example : (run [.choose 1 70, .setRsa (some 8), .choose 2 71, .setRsa (some 9), .choose 3 72] {}).log =
    [.shown 1 (.pair 70), .set true, .shown 2 (.pair 8), .set true, .shown 3 (.pair 9)] := by decide +kernel

/-- the keys of a log -/
def keysOf : List Ev → List Key
  | [] => []
  | .shown _ k :: l => k :: keysOf l
  | .decrypts _ k :: l => k :: keysOf l
  | .hashes _ k :: l => k :: keysOf l
  | _ :: l => keysOf l

theorem keysOf_append (a b : List Ev) : keysOf (a ++ b) = keysOf a ++ keysOf b := by
  induction a with
  | nil => rfl
  | cons e a ih => cases e <;> simp [keysOf, ih]

def isSet : Op → Bool
  | .setRsa _ => true
  | _ => false

theorem run_same (k : Key) : ∀ (os : List Op) (s : St), s.rsa = some k → (∀ o ∈ os, isSet o = false) →
    ∃ l, (run os s).log = s.log ++ l ∧ ∀ q ∈ keysOf l, q = k := by
  intro os
  induction os with
  | nil => exact fun s _ _ => ⟨[], by simp [run], by simp [keysOf]⟩
  | cons o os ih =>
    intro s hk h
    have hstep : (step o s).rsa = some k ∧ ∃ l, (step o s).log = s.log ++ l ∧ ∀ q ∈ keysOf l, q = k := by
      cases o with
      | setRsa f => exact absurd (h (.setRsa f) (by simp)) (by simp [isSet])
      | setTls f =>
        unfold step
        dsimp only
        split
        · exact ⟨hk, _, rfl, by simp [keysOf]⟩
        · exact ⟨hk, _, rfl, by simp [keysOf]⟩
      | choose id n =>
        unfold step
        dsimp only
        split
        · refine ⟨by simp [keyFor, hk], _, rfl, ?_⟩
          simp [keysOf, keyFor, hk]
        · exact ⟨hk, [], by simp, by simp [keysOf]⟩
      | challenge id =>
        unfold step
        dsimp only
        rw [hk]
        dsimp only
        split
        · exact ⟨hk, _, rfl, by simp [keysOf]⟩
        · exact ⟨hk, [], by simp, by simp [keysOf]⟩
      | hash id =>
        unfold step
        dsimp only
        rw [hk]
        dsimp only
        split
        · exact ⟨hk, _, rfl, by simp [keysOf]⟩
        · exact ⟨hk, [], by simp, by simp [keysOf]⟩
    obtain ⟨h1, l1, e1, q1⟩ := hstep
    obtain ⟨l2, e2, q2⟩ := ih (step o s) h1 fun o ho => h o (by simp [ho])
    refine ⟨l1 ++ l2, ?_, ?_⟩
    · show (run os (step o s)).log = _
      rw [e2, e1, List.append_assoc]
    · intro q hq
      rw [keysOf_append] at hq
      rcases List.mem_append.mp hq with hq | hq
      · exact q1 q hq
      · exact q2 q hq

/-- **C121** (partial).  While nvnc_set_rsa_creds is not called, everything that is done in handshakes is done with one
key: from the moment on that a client is shown it, this key decrypts the challenges and goes into the hashes, of that client
and of all that come after it. Missing: handshakes during which the key is set, see `c121_changed_violated`. -/
theorem c121_handshake_partial (s : St) (id new : Nat) (h0 : s.stage id = 0) (os : List Op)
    (h : ∀ o ∈ os, isSet o = false) :
    ∃ k l, (run (.choose id new :: os) s).log = s.log ++ .shown id k :: l ∧ ∀ q ∈ keysOf l, q = k := by
  have e : run (.choose id new :: os) s = run os (step (.choose id new) s) := rfl
  have e1 : step (.choose id new) s =
      { setStage id 1 s with rsa := some (keyFor new s), log := s.log ++ [.shown id (keyFor new s)] } := by
    unfold step; dsimp only; rw [if_pos h0]
  obtain ⟨l, e2, q⟩ := run_same (keyFor new s) os (step (.choose id new) s) (by rw [e1]) h
  refine ⟨keyFor new s, l, ?_, q⟩
  rw [e, e2, e1]
  simp

example : (run [.choose 1 70, .choose 2 71, .challenge 2, .challenge 1, .hash 1] {}).log =
    [.shown 1 (.pair 70), .shown 2 (.pair 70), .decrypts 2 (.pair 70), .hashes 2 (.pair 70), .decrypts 1 (.pair 70),
      .hashes 1 (.pair 70), .hashes 1 (.pair 70)] := by decide +kernel

/-- **C121** (violated).  A call of nvnc_set_rsa_creds that fails takes the key away that was there, whatever it was, and no
other one is made for it: each client that chooses RSA-AES is then shown what is not a usable key, one of no bits
if the file could not be opened. -/
theorem c121_failed_violated (os : List Op) (id new : Nat) (h0 : (run os {}).stage id = 0) :
    (run (os ++ [.setRsa .none, .choose id new]) {}).log = (run os {}).log ++ [.set false, .shown id .none] := by
  rw [show os ++ [Op.setRsa .none, .choose id new] = (os ++ [.setRsa .none]) ++ [.choose id new] by simp, run_snoc, run_snoc]
  generalize run os {} = s at h0
  unfold step
  dsimp only
  rw [if_pos h0]
  simp [keyFor, loaded]

example : (run [.setRsa (some 8), .choose 1 70, .setRsa .none, .choose 2 71] {}).log =
    [.set true, .shown 1 (.pair 8), .set false, .shown 2 .none] := by decide +kernel

/-- **C121** (violated).  If the key is set while a client is in its handshake, what the client encrypted for the key
that it was shown is decrypted with another one. -/
theorem c121_changed_violated (os : List Op) (h : ∀ o ∈ os, o ≠ .setRsa .none) (id new k : Nat)
    (h0 : (run os {}).stage id = 0) (hk : (due os).getD new ≠ k) :
    ∃ a, (run (os ++ [.choose id new, .setRsa (some k), .challenge id]) {}).log =
      (run os {}).log ++ [.shown id a, .set true, .decrypts id (.pair k), .hashes id (.pair k)] ∧ a ≠ .pair k := by
  refine ⟨.pair ((due os).getD new), ?_, fun e => hk (by cases e; rfl)⟩
  have e := c121_shown_partial os h id new h0
  rw [show os ++ [Op.choose id new, .setRsa (some k), .challenge id] =
    ((os ++ [.choose id new]) ++ [.setRsa (some k)]) ++ [.challenge id] by simp, run_snoc, run_snoc]
  have hst : (run (os ++ [.choose id new]) {}).stage id = 1 := by
    rw [run_snoc]
    unfold step
    dsimp only
    rw [if_pos h0]
    simp [setStage]
  generalize run (os ++ [.choose id new]) {} = s at e hst
  unfold step
  dsimp only
  rw [if_pos hst]
  simp [e, loaded]

example : (run [.setRsa (some 8), .choose 1 70, .setRsa (some 9), .challenge 1] {}).log =
    [.set true, .shown 1 (.pair 8), .set true, .decrypts 1 (.pair 9), .hashes 1 (.pair 9)] := by decide +kernel

/-- **C121**: of the certificates the first one that is good is used, for good: calls before it that fail change nothing,
and calls after it fail and change nothing. -/
theorem c121_tls (os : List Op) : (run os {}).tls = firstTls os ∧
    ∀ file, (run (os ++ [.setTls file]) {}).log = (run os {}).log ++ [.tlsSet (decide (firstTls os = .none) && file.isSome)] := by
  have H : ∀ (os : List Op) (s : St), (run os s).tls = match s.tls with
      | some c => some c
      | .none => firstTls os := by
    intro os
    induction os with
    | nil => intro s; simp only [run, List.foldl_nil, firstTls]; cases s.tls <;> rfl
    | cons o os ih =>
      intro s
      show (run os (step o s)).tls = _
      rw [ih]
      cases o with
      | setTls f =>
        unfold step
        dsimp only
        cases hs : s.tls with
        | none => cases f <;> rfl
        | some c => simp
      | setRsa f => rfl
      | choose id n =>
        have : (step (.choose id n) s).tls = s.tls := by unfold step; dsimp only; split <;> rfl
        rw [this]; rfl
      | challenge id =>
        have : (step (.challenge id) s).tls = s.tls := by
          unfold step
          dsimp only
          split
          · split <;> rfl
          · rfl
        rw [this]; rfl
      | hash id =>
        have : (step (.hash id) s).tls = s.tls := by
          unfold step
          dsimp only
          split
          · split <;> rfl
          · rfl
        rw [this]; rfl
  have h := H os {}
  refine ⟨h, fun file => ?_⟩
  rw [run_snoc]
  generalize run os {} = s at h
  unfold step
  dsimp only at h ⊢
  rw [h]
  cases firstTls os <;> simp

example : (run [.setTls .none, .setTls (some 3), .setTls (some 4)] {}).tls = some 3 ∧
    (run [.setTls .none, .setTls (some 3), .setTls (some 4)] {}).log = [.tlsSet false, .tlsSet true, .tlsSet false] := by
  decide +kernel

end Verif.Creds
