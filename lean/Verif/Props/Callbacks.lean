import Verif.Model.Callbacks

/-! # C120: an application that closes clients in its callbacks -/

namespace Verif.Callbacks

/-- the clients that the application closes, in the order in which it is told of their ends -/
def closings : React → List Nat
  | .done => []
  | .use _ rest => closings rest
  | .close id data bye rest => closings data ++ id :: closings bye ++ closings rest

/-- the application closes no client that somebody is busy with: neither those of `busy` nor, while a client is being
closed, that client -/
def Spares (busy : Nat → Prop) : React → Prop
  | .done => True
  | .use _ rest => Spares busy rest
  | .close id data bye rest =>
    ¬ busy id ∧ Spares (fun n => busy n ∨ n = id) data ∧ Spares (fun n => busy n ∨ n = id) bye ∧ Spares busy rest

/-- nothing is undefined but what the application itself does with clients that it was told are gone -/
def Fine (o : Outcome St) : Prop := o = .ub app ∨ ∃ s, o = .ok s

theorem app_ne_lib : (Outcome.ub app : Outcome St) ≠ .ub lib := by decide

/-- what has been done when nothing was undefined -/
theorem run_ok (r : React) : ∀ {s s' : St}, run r s = .ok s' →
    s'.ended = s.ended ++ closings r ∧ s.clients.Perm (closings r ++ s'.clients) := by
  induction r with
  | done =>
    intro s s' h
    cases h
    simp [closings]
  | use id rest ih =>
    intro s s' h
    unfold run at h
    split at h
    · exact ih h
    · exact nomatch h
  | close id data bye rest hd hb hr =>
    intro s s' h
    unfold run at h
    split at h
    · exact nomatch h
    · obtain ⟨s1, h1, h⟩ := Outcome.bind_eq_ok.mp h
      split at h
      · exact nomatch h
      · obtain ⟨s2, h2, h⟩ := Outcome.bind_eq_ok.mp h
        split at h
        · exact nomatch h
        · rename_i hin
          have hin : id ∈ s2.clients := Decidable.byContradiction hin
          obtain ⟨e1, p1⟩ := hd h1
          obtain ⟨e2, p2⟩ := hb h2
          obtain ⟨e3, p3⟩ := hr h
          dsimp only at e2 p2 e3 p3
          refine ⟨by rw [e3, e2, e1]; simp [closings], ?_⟩
          refine p1.trans ?_
          rw [closings, List.append_assoc, List.append_assoc]
          refine List.Perm.append_left _ ?_
          refine p2.trans ?_
          refine (List.Perm.append_left _ (List.perm_cons_erase hin)).trans ?_
          refine (List.Perm.append_left _ (p3.cons id)).trans ?_
          exact List.perm_middle

/-- who is busy is spared -/
theorem run_spares (r : React) : ∀ {busy : Nat → Prop} {s : St}, Spares busy r →
    Fine (run r s) ∧ ∀ s', run r s = .ok s' → ∀ b, busy b → b ∈ s.clients → b ∈ s'.clients := by
  induction r with
  | done =>
    intro busy s _
    refine ⟨.inr ⟨s, rfl⟩, ?_⟩
    intro s' h b _ hb
    cases h
    exact hb
  | use id rest ih =>
    intro busy s h
    unfold run
    split
    · exact ih h
    · exact ⟨.inl rfl, fun _ h => nomatch h⟩
  | close id data bye rest hd hb hr =>
    intro busy s h
    obtain ⟨nb, sd, sb, sr⟩ := h
    unfold run
    split
    · exact ⟨.inl rfl, fun _ h => nomatch h⟩
    rename_i hin
    have hin : id ∈ s.clients := Decidable.byContradiction hin
    obtain ⟨f1, k1⟩ := hd (s := s) sd
    rcases f1 with f1 | ⟨s1, f1⟩
    · rw [f1]
      exact ⟨.inl rfl, fun _ h => nomatch h⟩
    rw [f1]
    have k1 := k1 s1 f1
    rw [Outcome.bind_ok, if_neg (fun h => h (k1 id (.inr rfl) hin))]
    obtain ⟨f2, k2⟩ := hb (s := { s1 with ended := s1.ended ++ [id] }) sb
    rcases f2 with f2 | ⟨s2, f2⟩
    · rw [f2]
      exact ⟨.inl rfl, fun _ h => nomatch h⟩
    rw [f2]
    have k2 := k2 s2 f2
    rw [Outcome.bind_ok, if_neg (fun h => h (k2 id (.inr rfl) (k1 id (.inr rfl) hin)))]
    obtain ⟨f3, k3⟩ := hr (s := { s2 with clients := s2.clients.erase id }) sr
    refine ⟨f3, ?_⟩
    intro s' h b hbusy hbin
    refine k3 s' h b hbusy ?_
    have : b ≠ id := fun e => nb (e ▸ hbusy)
    exact (List.mem_erase_of_ne this).mpr (k2 b (.inl hbusy) (k1 b (.inl hbusy) hbin))

theorem serve_ok {id : Nat} : ∀ {rs : List React} {s s' : St}, serve id rs s = .ok s' →
    s'.ended = s.ended ++ rs.flatMap closings ∧ s.clients.Perm (rs.flatMap closings ++ s'.clients) := by
  intro rs
  induction rs with
  | nil =>
    intro s s' h
    cases h
    simp
  | cons r rs ih =>
    intro s s' h
    unfold serve at h
    obtain ⟨s1, h1, h⟩ := Outcome.bind_eq_ok.mp h
    split at h
    · exact nomatch h
    · obtain ⟨e1, p1⟩ := run_ok r h1
      obtain ⟨e2, p2⟩ := ih h
      refine ⟨by rw [e2, e1]; simp, ?_⟩
      rw [List.flatMap_cons, List.append_assoc]
      exact p1.trans (List.Perm.append_left _ p2)

theorem serve_spares {id : Nat} : ∀ {rs : List React} {s : St}, id ∈ s.clients → (∀ r ∈ rs, Spares (· = id) r) →
    Fine (serve id rs s) := by
  intro rs
  induction rs with
  | nil => exact fun {s} _ _ => .inr ⟨s, rfl⟩
  | cons r rs ih =>
    intro s hin h
    obtain ⟨f, k⟩ := run_spares r (s := s) (h r (by simp))
    unfold serve
    rcases f with f | ⟨s1, f⟩
    · rw [f]
      exact .inl rfl
    · rw [f, Outcome.bind_ok]
      have := k s1 f id rfl hin
      rw [if_neg (fun h => h this)]
      exact ih this fun r hr => h r (by simp [hr])

theorem close_ok {id : Nat} {f : React × React} {s s' : St} (h : close id f s = .ok s') :
    ∃ l, s'.ended = s.ended ++ l ∧ s.clients.Perm (l ++ s'.clients) := by
  have := run_ok _ h
  exact ⟨_, this.1, this.2⟩

theorem sweep_ok {self : Option Nat} {f : Nat → React × React} : ∀ {k : Nat} {o : Option Nat} {s s' : St},
    sweep self f k o s = .ok s' → ∃ l, s'.ended = s.ended ++ l ∧ s.clients.Perm (l ++ s'.clients) := by
  intro k
  induction k with
  | zero =>
    intro o s s' h
    cases o with
    | none => cases h; exact ⟨[], by simp, by simp⟩
    | some n => exact nomatch h
  | succ k ih =>
    intro o s s' h
    cases o with
    | none => cases h; exact ⟨[], by simp, by simp⟩
    | some n =>
      unfold sweep at h
      split at h
      · exact nomatch h
      · split at h
        · exact ih h
        · obtain ⟨s1, h1, h⟩ := Outcome.bind_eq_ok.mp h
          obtain ⟨l1, e1, p1⟩ := close_ok h1
          obtain ⟨l2, e2, p2⟩ := ih h
          exact ⟨l1 ++ l2, by rw [e2, e1, List.append_assoc], by
            rw [List.append_assoc]; exact p1.trans (List.Perm.append_left _ p2)⟩

/-- a callback that closes nobody -/
theorem run_idle (r : React) : ∀ {s : St}, closings r = [] → run r s = .ub app ∨ run r s = .ok s := by
  induction r with
  | done => exact fun _ => .inr rfl
  | use id rest ih =>
    intro s h
    unfold run
    split
    · exact ih h
    · exact .inl rfl
  | close id data bye rest => intro s h; simp [closings] at h

theorem close_idle {id : Nat} {f : React × React} {s : St} (hin : id ∈ s.clients) (h1 : closings f.1 = [])
    (h2 : closings f.2 = []) :
    close id f s = .ub app ∨ close id f s = .ok { clients := s.clients.erase id, ended := s.ended ++ [id] } := by
  unfold close run
  rw [if_neg (fun h => h hin)]
  rcases run_idle f.1 (s := s) h1 with e | e
  · rw [e]; exact .inl rfl
  · rw [e, Outcome.bind_ok, if_neg (fun h => h hin)]
    rcases run_idle f.2 (s := { s with ended := s.ended ++ [id] }) h2 with e | e
    · rw [e]; exact .inl rfl
    · rw [e, Outcome.bind_ok, if_neg (fun h => h hin)]
      exact .inr rfl

theorem nextOf_append {p t : List Nat} {n : Nat} (h : n ∉ p) : nextOf (p ++ n :: t) n = t.head? := by
  have : (p ++ n :: t).dropWhile (· != n) = n :: t := by
    induction p with
    | nil => simp
    | cons a p ih =>
      have ha : a ≠ n := fun e => h (by simp [e])
      rw [List.cons_append, List.dropWhile_cons_of_pos (by simpa using ha)]
      exact ih fun hm => h (by simp [hm])
  unfold nextOf
  rw [this]
  cases t <;> rfl

theorem sweep_idle {self : Option Nat} {f : Nat → React × React}
    (hf : ∀ n, closings (f n).1 = [] ∧ closings (f n).2 = []) : ∀ {k : Nat} {p t : List Nat} {s : St},
    s.clients = p ++ t → s.clients.Nodup → t.length ≤ k →
    sweep self f k t.head? s = .ub app ∨
      sweep self f k t.head? s = .ok { clients := p ++ t.filter (fun n => self == some n),
                                       ended := s.ended ++ t.filter (fun n => self != some n) } := by
  intro k
  induction k with
  | zero =>
    intro p t s he _ hk
    cases t with
    | nil => exact .inr (by simp [sweep, ← he])
    | cons => simp at hk
  | succ k ih =>
    intro p t s he hn hk
    cases t with
    | nil => exact .inr (by simp [sweep, ← he])
    | cons n t =>
      have hin : n ∈ s.clients := by simp [he]
      rw [he] at hn
      have hp : n ∉ p := fun h => (List.nodup_append.mp hn).2.2 n h n (by simp) rfl
      have hk : t.length ≤ k := by simpa using hk
      have hnext : nextOf s.clients n = t.head? := by rw [he, nextOf_append hp]
      unfold sweep
      dsimp only [List.head?_cons]
      rw [if_neg (fun h => h hin), hnext]
      by_cases hs : self = some n
      · rw [if_pos hs]
        have := ih (p := p ++ [n]) (t := t) (s := s) (by simp [he]) (by rw [he]; exact hn) hk
        simpa [hs] using this
      · rw [if_neg hs]
        rcases close_idle hin (hf n).1 (hf n).2 with e | e
        · rw [e]; exact .inl rfl
        · rw [e, Outcome.bind_ok]
          have herase : s.clients.erase n = p ++ t := by
            rw [he, List.erase_append_right _ hp]; simp
          have := ih (p := p) (t := t) (s := { clients := s.clients.erase n, ended := s.ended ++ [n] }) herase
            (by show (s.clients.erase n).Nodup; rw [he]; exact hn.erase n) hk
          simpa [hs] using this

/-- the clients that connect -/
def arrivals : List Ev → List Nat
  | [] => []
  | .connect id :: es => id :: arrivals es
  | _ :: es => arrivals es

/-- The rule: in a callback of a client, and while a client is being closed, the application does not close that client;
and while a client that wants the server for itself drives out the others, the application closes nobody. -/
def Careful : Ev → Prop
  | .connect _ => True
  | .serve id rs => ∀ r ∈ rs, Spares (· = id) r
  | .init id _ f r => (∀ n, closings (f n).1 = [] ∧ closings (f n).2 = []) ∧ Spares (· = id) r
  | .hangUp id f => Spares (· = id) f.1 ∧ Spares (· = id) f.2
  | .app r => Spares (fun _ => False) r

theorem spares_mono {p q : Nat → Prop} (hpq : ∀ n, q n → p n) (r : React) : Spares p r → Spares q r := by
  induction r generalizing p q with
  | done => exact id
  | use _ rest ih => exact ih hpq
  | close id data bye rest hd hb hr =>
    rintro ⟨a, b, c, d⟩
    exact ⟨fun h => a (hpq _ h), hd (fun n h => h.imp (hpq n) fun x => x) b,
      hb (fun n h => h.imp (hpq n) fun x => x) c, hr hpq d⟩

theorem filter_self {l : List Nat} {id : Nat} (hn : l.Nodup) (h : id ∈ l) : l.filter (fun n => some id == some n) = [id] := by
  induction l with
  | nil => simp at h
  | cons a l ih =>
    rw [List.nodup_cons] at hn
    by_cases ha : a = id
    · subst ha
      rw [List.filter_cons_of_pos (by simp)]
      congr 1
      rw [List.filter_eq_nil_iff]
      intro b hb hb'
      have : a = b := by simpa using hb'
      exact hn.1 (this ▸ hb)
    · rw [List.filter_cons_of_neg (by simpa using fun e => ha (Eq.symm e))]
      exact ih hn.2 (by simpa [Ne.symm ha] using h)

theorem step_fine {e : Ev} {s : St} (hc : Careful e) (hn : s.clients.Nodup) : Fine (step e s) := by
  unfold step
  cases e with
  | connect id => exact .inr ⟨_, rfl⟩
  | serve id rs =>
    dsimp only
    split
    · exact serve_spares (by assumption) hc
    · exact .inr ⟨_, rfl⟩
  | init id shared f r =>
    dsimp only
    split
    · rename_i hin
      obtain ⟨hf, hr⟩ := hc
      cases shared with
      | true =>
        rw [others, if_pos rfl, Outcome.bind_ok, if_neg (fun h => h hin)]
        exact serve_spares hin (by simpa using hr)
      | false =>
        rw [others, if_neg (by simp)]
        rcases sweep_idle (self := some id) hf (p := []) (t := s.clients) (s := s) rfl hn (Nat.le_refl _) with e | e
        · rw [e]; exact .inl rfl
        · rw [e, Outcome.bind_ok, List.nil_append, filter_self hn hin, if_neg (by simp)]
          exact serve_spares (by simp) (by simpa using hr)
    · exact .inr ⟨_, rfl⟩
  | hangUp id f =>
    dsimp only
    split
    · refine (run_spares (busy := fun _ => False) _ ?_).1
      refine ⟨fun h => h, spares_mono ?_ _ hc.1, spares_mono ?_ _ hc.2, trivial⟩
      · exact fun n h => h.elim False.elim fun x => x
      · exact fun n h => h.elim False.elim fun x => x
    · exact .inr ⟨_, rfl⟩
  | app r => exact (run_spares r hc).1

theorem step_ok {e : Ev} {s s' : St} (h : step e s = .ok s') :
    ∃ l, s'.ended = s.ended ++ l ∧ (arrivals [e] ++ s.clients).Perm (l ++ s'.clients) := by
  unfold step at h
  cases e with
  | connect id => cases h; exact ⟨[], by simp, by simp [arrivals]⟩
  | serve id rs =>
    dsimp only at h
    split at h
    · exact ⟨_, serve_ok h⟩
    · cases h; exact ⟨[], by simp, by simp [arrivals]⟩
  | init id shared f r =>
    dsimp only at h
    split at h
    · obtain ⟨s1, h1, h⟩ := Outcome.bind_eq_ok.mp h
      split at h
      · exact nomatch h
      · obtain ⟨e2, p2⟩ := serve_ok h
        have : ∃ l, s1.ended = s.ended ++ l ∧ s.clients.Perm (l ++ s1.clients) := by
          cases shared with
          | true => cases h1; exact ⟨[], by simp, by simp⟩
          | false => exact sweep_ok h1
        obtain ⟨l, e1, p1⟩ := this
        refine ⟨l ++ [r].flatMap closings, by rw [e2, e1, List.append_assoc], ?_⟩
        rw [List.append_assoc]
        exact p1.trans (List.Perm.append_left _ p2)
    · cases h; exact ⟨[], by simp, by simp [arrivals]⟩
  | hangUp id f =>
    dsimp only at h
    split at h
    · exact close_ok h
    · cases h; exact ⟨[], by simp, by simp [arrivals]⟩
  | app r => exact ⟨_, run_ok r h⟩

theorem arrivals_cons (e : Ev) (es : List Ev) : arrivals (e :: es) = arrivals [e] ++ arrivals es := by
  cases e <;> rfl

theorem steps_ok : ∀ {es : List Ev} {s s' : St}, steps es s = .ok s' →
    ∃ l, s'.ended = s.ended ++ l ∧ (arrivals es ++ s.clients).Perm (l ++ s'.clients) := by
  intro es
  induction es with
  | nil => intro s s' h; cases h; exact ⟨[], by simp, by simp [arrivals]⟩
  | cons e es ih =>
    intro s s' h
    obtain ⟨s1, h1, h⟩ := Outcome.bind_eq_ok.mp h
    obtain ⟨l1, e1, p1⟩ := step_ok h1
    obtain ⟨l2, e2, p2⟩ := ih h
    refine ⟨l1 ++ l2, by rw [e2, e1, List.append_assoc], ?_⟩
    rw [arrivals_cons]
    have a : (arrivals [e] ++ arrivals es ++ s.clients).Perm (arrivals es ++ (arrivals [e] ++ s.clients)) := by
      rw [← List.append_assoc]
      exact List.Perm.append_right _ List.perm_append_comm
    have b : (arrivals es ++ (l1 ++ s1.clients)).Perm (l1 ++ (arrivals es ++ s1.clients)) := by
      rw [← List.append_assoc, ← List.append_assoc]
      exact List.Perm.append_right _ List.perm_append_comm
    rw [List.append_assoc l1]
    exact a.trans ((List.Perm.append_left _ p1).trans (b.trans (List.Perm.append_left _ p2)))

theorem steps_fine : ∀ {es : List Ev} {s : St}, (∀ e ∈ es, Careful e) → (arrivals es ++ s.clients).Nodup →
    Fine (steps es s) := by
  intro es
  induction es with
  | nil => exact fun {s} _ _ => .inr ⟨s, rfl⟩
  | cons e es ih =>
    intro s hc hn
    rw [arrivals_cons, List.append_assoc] at hn
    have hs : s.clients.Nodup := (List.nodup_append.mp (List.nodup_append.mp hn).2.1).2.1
    unfold steps
    rcases step_fine (hc e (by simp)) hs with f | ⟨s1, f⟩
    · rw [f]; exact .inl rfl
    · rw [f, Outcome.bind_ok]
      refine ih (fun e he => hc e (by simp [he])) ?_
      obtain ⟨l, _, p⟩ := step_ok f
      have q : (arrivals [e] ++ (arrivals es ++ s.clients)).Perm (arrivals es ++ (l ++ s1.clients)) := by
        have a : (arrivals [e] ++ (arrivals es ++ s.clients)).Perm (arrivals es ++ (arrivals [e] ++ s.clients)) := by
          rw [← List.append_assoc, ← List.append_assoc]
          exact List.Perm.append_right _ List.perm_append_comm
        exact a.trans (List.Perm.append_left _ p)
      have hq := q.nodup_iff.mp hn
      refine (List.Sublist.append_left ?_ _).nodup hq
      exact List.sublist_append_right _ _

/-- **C120** (partial).  An application that follows the rule (`Careful`) may close clients in its callbacks, also
clients of which it is not told at the moment and in callbacks within callbacks: the library never uses a client that has
been freed, and of all clients that ever connected each is either still connected, or has gone and the application was
told of that once.  What is missing is the rule: the theorems below show that it is needed. -/
theorem c120_callbacks_partial (es : List Ev) (hc : ∀ e ∈ es, Careful e) (hn : (arrivals es).Nodup) :
    steps es {} ≠ .ub lib ∧ Fine (steps es {}) ∧
    ∀ s, steps es {} = .ok s → (s.ended ++ s.clients).Perm (arrivals es) ∧ (s.ended ++ s.clients).Nodup := by
  have f := steps_fine (s := {}) hc (by simpa using hn)
  refine ⟨?_, f, ?_⟩
  · rcases f with f | ⟨s, f⟩
    · rw [f]; exact app_ne_lib
    · rw [f]; exact fun h => nomatch h
  · intro s h
    obtain ⟨l, e, p⟩ := steps_ok h
    have e : s.ended = l := by simpa using e
    have p : (arrivals es).Perm (l ++ s.clients) := by simpa using p
    rw [e]
    exact ⟨p.symm, p.nodup_iff.mp hn⟩

/-- three clients; in a callback of the third the application closes the first, and when it is told of that end the
second: that is defined, and leaves the third -/
example : let es := [.connect 1, .connect 2, .connect 3,
      .serve 3 [.done, .close 1 .done (.close 2 .done .done (.use 1 .done)) (.use 3 .done)]]
    (∀ e ∈ es, Careful e) ∧ steps es {} = .ok { clients := [3], ended := [1, 2] } := by
  refine ⟨?_, by decide +kernel⟩
  intro e he
  simp only [List.mem_cons, List.not_mem_nil, or_false] at he
  rcases he with rfl | rfl | rfl | rfl
  · trivial
  · trivial
  · trivial
  · intro r hr
    simp only [List.mem_cons, List.not_mem_nil, or_false] at hr
    rcases hr with rfl | rfl
    · trivial
    · simp [Spares]

/-- **C120**: a client that asks for the server to itself is alone with it afterwards, and the application is told of the
end of all others, in the order of the list, if its callbacks close nobody. -/
theorem c120_exclusive (s : St) (id : Nat) (f : Nat → React × React) (r : React) (hn : s.clients.Nodup)
    (hin : id ∈ s.clients) (hf : ∀ n, closings (f n).1 = [] ∧ closings (f n).2 = []) (hr : closings r = []) :
    step (.init id false f r) s = .ub app ∨
    step (.init id false f r) s = .ok { clients := [id], ended := s.ended ++ s.clients.filter (· != id) } := by
  unfold step
  dsimp only
  rw [if_pos hin, others, if_neg (by simp)]
  rcases sweep_idle (self := some id) hf (p := []) (t := s.clients) (s := s) rfl hn (Nat.le_refl _) with e | e
  · rw [e]; exact .inl rfl
  · rw [e, Outcome.bind_ok, List.nil_append, filter_self hn hin, if_neg (by simp)]
    have : (s.clients.filter fun n => some id != some n) = s.clients.filter (· != id) := by
      congr 1
      funext n
      show (!(some id == some n)) = !(n == id)
      rw [show (some id == some n) = (id == n) from rfl, BEq.comm]
    rw [this]
    unfold serve
    rcases run_idle r (s := ⟨[id], s.ended ++ s.clients.filter (· != id)⟩) hr with e | e
    · rw [e]; exact .inl rfl
    · rw [e, Outcome.bind_ok, if_neg (by simp)]
      exact .inr rfl

example : step (.init 2 false (fun n => (.done, .use n .done)) .done) { clients := [3, 2, 1] } =
    .ok { clients := [2], ended := [3, 1] } := by decide +kernel

/-- **C120** (violated).  No callback of a client may close that client, whatever else it does and wherever it does so:
what happens then is always undefined, for the library goes on with the client. -/
theorem c120_self_violated (s : St) (hn : s.clients.Nodup) (id : Nat) (rs : List React)
    (h : ∃ r ∈ rs, id ∈ closings r) : ∀ s', serve id rs s ≠ .ok s' := by
  intro s' he
  induction rs generalizing s with
  | nil => obtain ⟨r, hr, _⟩ := h; simp at hr
  | cons r rs ih =>
    obtain ⟨s1, h1, h2⟩ := Outcome.bind_eq_ok.mp he
    split at h2
    · exact nomatch h2
    · rename_i hin
      have hin : id ∈ s1.clients := Decidable.byContradiction hin
      obtain ⟨_, p⟩ := run_ok r h1
      have hn1 := p.nodup_iff.mp hn
      obtain ⟨r', hr', hid⟩ := h
      rcases List.mem_cons.mp hr' with rfl | hr'
      · exact (List.nodup_append.mp hn1).2.2 id hid id hin rfl
      · exact ih s1 (List.nodup_append.mp hn1).2.1 ⟨r', hr', hid⟩ h2

/-- it is the library that does the undefined thing, if all that the application does is to close its client -/
example : step (.serve 1 [.close 1 .done .done .done]) { clients := [2, 1] } = .ub lib ∧
    step (.init 1 true (fun _ => (.done, .done)) (.close 1 .done .done .done)) { clients := [1] } = .ub lib := by
  decide +kernel

/-- **C120** (violated).  Nor may the application close a client while it is told of its end: that is undefined as
well. -/
theorem c120_again_violated (s : St) (hn : s.clients.Nodup) (id : Nat) (data bye rest : React)
    (h : id ∈ closings data ∨ id ∈ closings bye) : ∀ s', run (.close id data bye rest) s ≠ .ok s' := by
  intro s' he
  obtain ⟨_, p⟩ := run_ok _ he
  have hp := p.nodup_iff.mp hn
  have : (closings data ++ id :: closings bye ++ closings rest).Nodup := by
    unfold closings at hp
    exact (List.nodup_append.mp hp).1
  have := (List.nodup_append.mp this).1
  rw [List.nodup_append] at this
  obtain ⟨_, h2, h3⟩ := this
  rcases h with h | h
  · exact h3 id h id (by simp) rfl
  · exact (List.nodup_cons.mp h2).1 h

example : step (.hangUp 1 (.done, .close 1 .done .done .done)) { clients := [2, 1] } = .ub lib ∧
    step (.hangUp 1 (.close 1 .done .done .done, .done)) { clients := [2, 1] } = .ub lib := by decide +kernel

/-- **C120** (violated).  And when a client drives out the others, the application must not, told of the end of one of
them, close the one that comes next in the list: disconnect_all_other_clients has it in `tmp`. -/
theorem c120_next_violated (a b : Nat) (l : List Nat) (hn : (a :: b :: l).Nodup) (id : Nat) (hid : id ∈ l)
    (f : Nat → React × React) (ha : f a = (.done, .close b .done .done .done)) (r : React) (e : List Nat) :
    step (.init id false f r) { clients := a :: b :: l, ended := e } = .ub lib := by
  have hab : a ≠ b := fun h => by simp [h] at hn
  have hai : id ≠ a := fun h => by subst h; simp [hid] at hn
  have hbl : b ∉ l := by
    rw [List.nodup_cons, List.nodup_cons] at hn
    exact hn.2.1
  have hc : close a (f a) { clients := a :: b :: l, ended := e } = .ok { clients := l, ended := e ++ [a] ++ [b] } := by
    rw [ha]
    simp [close, run, hab, Outcome.bind_ok, Ne.symm hab]
  have hnext : nextOf (a :: b :: l) a = some b := by simp [nextOf]
  unfold step
  dsimp only
  rw [if_pos (by simp [hid]), others, if_neg (by simp), List.length_cons, List.head?_cons]
  unfold sweep
  dsimp only
  rw [if_neg (by simp), if_neg (by simpa using hai), hc, Outcome.bind_ok, hnext, List.length_cons]
  unfold sweep
  dsimp only
  rw [if_pos hbl]
  rfl

example : step (.init 1 false (fun n => if n = 3 then (.done, .close 2 .done .done .done) else (.done, .done)) .done)
    { clients := [3, 2, 1] } = .ub lib := by decide +kernel

/-- **C120**: an application that goes through the clients with nvnc_client_first and nvnc_client_next, closing nobody,
comes to each client once, the latest first. -/
theorem c120_walk (s : St) (f : Nat → React) (hn : s.clients.Nodup) (hf : ∀ n, closings (f n) = [])
    (hu : ∀ n ∈ s.clients, run (f n) s ≠ .ub app) :
    walk f s.clients.length s.clients.head? s = .ok (s.clients, s) := by
  suffices H : ∀ (k : Nat) (p t : List Nat), s.clients = p ++ t → t.length ≤ k → walk f k t.head? s = .ok (t, s) from
    H _ [] s.clients rfl (Nat.le_refl _)
  intro k
  induction k with
  | zero =>
    intro p t _ hk
    cases t with
    | nil => rfl
    | cons => simp at hk
  | succ k ih =>
    intro p t he hk
    cases t with
    | nil => rfl
    | cons n t =>
      have hin : n ∈ s.clients := by simp [he]
      have hn' := hn
      rw [he] at hn'
      have hp : n ∉ p := fun h => (List.nodup_append.mp hn').2.2 n h n (by simp) rfl
      have hrun : run (f n) s = .ok s := (run_idle (f n) (hf n)).resolve_left (hu n hin)
      unfold walk
      dsimp only [List.head?_cons]
      rw [hrun, Outcome.bind_ok, if_neg (fun h => h hin), he, nextOf_append hp,
        ih (p ++ [n]) t (by simp [he]) (by simpa using hk), Outcome.bind_ok]

example : walk (fun n => .use n .done) 3 (some 3) { clients := [3, 2, 1] } = .ok ([3, 2, 1], { clients := [3, 2, 1] }) := by
  decide +kernel

/-- **C120** (violated): if it closes the client that it has come to, it cannot go on from there -/
theorem c120_walk_violated (s : St) (f : Nat → React) (hn : s.clients.Nodup) (n : Nat)
    (hf : n ∈ closings (f n)) (k : Nat) : ∀ x, walk f (k + 1) (some n) s ≠ .ok x := by
  intro x h
  unfold walk at h
  obtain ⟨s1, h1, h⟩ := Outcome.bind_eq_ok.mp h
  split at h
  · exact nomatch h
  · rename_i hin'
    have hin' : n ∈ s1.clients := Decidable.byContradiction hin'
    have hp := (run_ok _ h1).2.nodup_iff.mp hn
    exact (List.nodup_append.mp hp).2.2 n hf n hin' rfl

example : walk (fun n => .close n .done .done .done) 2 (some 2) { clients := [2, 1] } = .ub app := by decide +kernel

end Verif.Callbacks
