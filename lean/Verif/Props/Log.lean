import Verif.Spec.Log

/-! # Properties of logging: C95, C96 -/

namespace Verif.Log

/-! ## C95: log messages go where they should -/

theorem run_eq (os : List Op) : ∀ s : State,
    (run os s).level = (last Op.level? os).getD s.level ∧
    (run os s).fn = ((last Op.fn? os).map (·.getD 0)).getD s.fn ∧
    ∀ t, (run os s).threadFn.lookup t = (last (Op.threadFn? t) os).or (s.threadFn.lookup t) := by
  induction os with
  | nil => intro s; exact ⟨rfl, rfl, fun t => rfl⟩
  | cons o os ih =>
    intro s
    obtain ⟨h1, h2, h3⟩ := ih (step o s)
    rw [run, List.foldl_cons]
    refine ⟨h1.trans ?_, h2.trans ?_, fun t => (h3 t).trans ?_⟩
    · rw [last]
      cases last Op.level? os <;> cases o <;> rfl
    · rw [last]
      cases last Op.fn? os <;> cases o <;> rfl
    · rw [last]
      cases last (Op.threadFn? t) os with
      | some f => rfl
      | none =>
        cases o with
        | setLevel l => rfl
        | setFn f => rfl
        | setThreadFn u f =>
          rw [step, Op.threadFn?]
          by_cases h : t = u
          · rw [if_pos h, h]
            simp [List.lookup]
          · rw [if_neg h]
            have : (t == u) = false := by simp [h]
            simp [List.lookup, this]

/-- C95: after any sequence of settings, a message is logged exactly when its level is at most the one set last, and then
by the function set last for the thread, or if there is none, by the one set last for all threads, or if there is none, by
the default.  Messages of the level PANIC are logged at any setting, and end the process. -/
theorem c95_routed (ndebug : Bool) (os : List Op) (thread : Nat) (l : Level) (text : Bytes) (r : Option (Nat × Bytes))
    (aborts : Bool) (e : vlog thread l text (run os (init ndebug)) = .ok (r, aborts)) :
    (r.isSome = true ↔ l ≤ (last Op.level? os).getD (if ndebug then 2 else 4)) ∧
    (∀ f m, r = some (f, m) →
      f = (((last (Op.threadFn? thread) os).join).or (last Op.fn? os).join).getD 0) ∧
    (aborts = true ↔ l = panic) ∧ (aborts = true → r.isSome = true) := by
  obtain ⟨h1, h2, h3⟩ := run_eq os (init ndebug)
  have hl : (run os (init ndebug)).level = (last Op.level? os).getD (if ndebug then 2 else 4) := h1
  have hf : getLogFn thread (run os (init ndebug)) =
      (((last (Op.threadFn? thread) os).join).or (last Op.fn? os).join).getD 0 := by
    rw [getLogFn, h3 thread, h2]
    cases last (Op.threadFn? thread) os with
    | none => cases last Op.fn? os with
      | none => rfl
      | some f => cases f <;> rfl
    | some f => cases f with
      | some f => rfl
      | none => cases last Op.fn? os with
        | none => rfl
        | some f => cases f <;> rfl
  rw [vlog, hl] at e
  generalize (last Op.level? os).getD (if ndebug then 2 else 4) = lim at e
  by_cases h : l ≤ lim
  · rw [if_pos h] at e
    cases hr : render text with
    | ok m =>
      rw [hr] at e
      cases e
      refine ⟨⟨fun _ => h, fun _ => rfl⟩, ?_, by simp, fun _ => rfl⟩
      intro f m' h'
      cases h'
      exact hf
    | ub w => rw [hr] at e; cases e
    | abort w => rw [hr] at e; cases e
  · rw [if_neg h] at e
    cases e
    refine ⟨⟨nofun, fun h' => absurd h' h⟩, nofun, by simp, ?_⟩
    intro h'
    have : l = panic := by simpa using h'
    exact absurd (by rw [this]; exact Nat.zero_le _) h

example : vlog 7 1 [110, 111] (run [.setFn (some 3), .setThreadFn 7 (some 5), .setLevel 1] (init true)) =
      .ok (some (5, [110, 111]), false) ∧
    vlog 7 1 [110, 111] (run [.setFn (some 3), .setThreadFn 7 (some 5), .setThreadFn 7 none] (init true)) =
      .ok (some (3, [110, 111]), false) ∧
    vlog 7 3 [110, 111] (run [.setFn (some 3)] (init true)) = .ok (none, false) ∧
    vlog 7 0 [110, 111] (run [.setFn none] (init true)) = .ok (some (0, [110, 111]), true) := ⟨rfl, rfl, rfl, rfl⟩

/-- C95: a level of neatvnc's survives the way to libav and back, and with the levels of libav a more important one never
becomes a less important one. -/
theorem c95_libav (l : Level) (hl : l ≤ 5) : fromAv (toAv l) = l ∧
    ∀ a ∈ ([0, 8, 16, 24, 32, 40, 48, 56] : List Int), ∀ b ∈ ([0, 8, 16, 24, 32, 40, 48, 56] : List Int),
      a ≤ b → fromAv a ≤ fromAv b := by
  constructor
  · have : ∀ l ≤ 5, fromAv (toAv l) = l := by decide
    exact this l hl
  · decide

/-! ## C96: log messages are complete -/

theorem isspace_eq (b : UInt8) :
    (Plain b → (White b → isspace b = .ok true) ∧ (¬ White b → isspace b = .ok false)) ∧
    (¬ Plain b → isspace b = .ub "isspace of a negative char") := by
  constructor
  · intro hp
    have hn : ¬ (128 ≤ b.toNat ∧ b.toNat ≠ 255) := by
      rw [Plain] at hp
      omega
    rw [isspace, if_neg hn]
    have hw : White b ↔ (decide (b.toNat = 32) || (decide (9 ≤ b.toNat) && decide (b.toNat ≤ 13))) = true := by
      rw [White]
      simp only [List.mem_cons, List.not_mem_nil, or_false, Bool.or_eq_true, Bool.and_eq_true, decide_eq_true_eq]
      omega
    refine ⟨fun h => by rw [hw.mp h], fun h => ?_⟩
    rw [hw] at h
    rw [Bool.not_eq_true] at h
    rw [h]
  · intro hp
    rw [isspace, if_pos]
    rw [Plain] at hp
    omega

theorem white_plain {b : UInt8} (h : White b) : Plain b := by
  rw [White] at h
  simp only [List.mem_cons, List.not_mem_nil, or_false] at h
  rw [Plain]
  omega

theorem isspace_true {b : UInt8} : isspace b = .ok true ↔ White b := by
  constructor
  · intro h
    by_cases hp : Plain b
    · refine Classical.byContradiction fun hw => ?_
      rw [((isspace_eq b).1 hp).2 hw] at h
      cases h
    · rw [(isspace_eq b).2 hp] at h
      cases h
  · intro h
    exact ((isspace_eq b).1 (white_plain h)).1 h

theorem isspace_false {b : UInt8} : isspace b = .ok false ↔ ¬ White b ∧ Plain b := by
  constructor
  · intro h
    by_cases hp : Plain b
    · refine ⟨fun hw => ?_, hp⟩
      rw [((isspace_eq b).1 hp).1 hw] at h
      cases h
    · rw [(isspace_eq b).2 hp] at h
      cases h
  · intro h
    exact ((isspace_eq b).1 h.2).2 h.1

theorem head_append {m post : Bytes} (h : m ≠ []) : (m ++ post).head? = m.head? := by
  cases m with
  | nil => exact absurd rfl h
  | cons b l => rfl

theorem trimLeft_ok : ∀ (t : Bytes) (n : Nat) (r : Bytes), trimLeft t = .ok (n, r) →
    ∃ pre, t = pre ++ r ∧ pre.length = n ∧ (∀ b ∈ pre, White b) ∧ ∀ b, r.head? = some b → ¬ White b
  | [], n, r, e => by
    cases e
    exact ⟨[], rfl, rfl, nofun, nofun⟩
  | b :: l, n, r, e => by
    rw [trimLeft] at e
    split at e
    next hb =>
      split at e
      next n' q' e' =>
        cases e
        obtain ⟨pre, h1, h2, h3, h4⟩ := trimLeft_ok l n' r e'
        refine ⟨b :: pre, by rw [h1]; rfl, by rw [List.length_cons, h2], ?_, h4⟩
        intro c hc
        rcases List.mem_cons.mp hc with rfl | hc
        · exact isspace_true.mp hb
        · exact h3 c hc
      · cases e
      · cases e
    next hb =>
      cases e
      refine ⟨[], rfl, rfl, nofun, ?_⟩
      intro c hc
      cases hc
      exact (isspace_false.mp hb).1
    · cases e
    · cases e

theorem trimLeft_total : ∀ (pre r : Bytes), (∀ b ∈ pre, White b) → (∀ b, r.head? = some b → ¬ White b ∧ Plain b) →
    trimLeft (pre ++ r) = .ok (pre.length, r)
  | [], [], _, _ => rfl
  | [], b :: r, _, h => by
    rw [List.nil_append, trimLeft, isspace_false.mpr (h b rfl)]
    rfl
  | b :: pre, r, hp, h => by
    rw [List.cons_append, trimLeft, isspace_true.mpr (hp b (by simp)),
      trimLeft_total pre r (fun c hc => hp c (by simp [hc])) h]
    rfl

theorem trimBack_ok : ∀ (t r : Bytes), trimBack t = .ok r → (∀ b, t.getLast? = some b → ¬ White b) →
    ∃ post, t = post ++ r ∧ (∀ b ∈ post, White b) ∧ (∀ b, r.head? = some b → ¬ White b) ∧
      r.getLast? = t.getLast?
  | [], r, e, _ => by cases e; exact ⟨[], rfl, nofun, nofun, rfl⟩
  | [b], r, e, h => by
    cases e
    refine ⟨[], rfl, nofun, ?_, rfl⟩
    intro c hc
    cases hc
    exact h b rfl
  | b :: c :: l, r, e, h => by
    rw [trimBack] at e
    split at e
    next hb =>
      obtain ⟨post, h1, h2, h3, h4⟩ := trimBack_ok (c :: l) r e (fun d hd => h d (by rw [List.getLast?_cons_cons]; exact hd))
      refine ⟨b :: post, by rw [h1]; rfl, ?_, h3, by rw [h4, List.getLast?_cons_cons]⟩
      intro d hd
      rcases List.mem_cons.mp hd with rfl | hd
      · exact isspace_true.mp hb
      · exact h2 d hd
    next hb =>
      cases e
      refine ⟨[], rfl, nofun, ?_, rfl⟩
      intro d hd
      cases hd
      exact (isspace_false.mp hb).1
    · cases e
    · cases e

theorem trimBack_total : ∀ (post r : Bytes), (∀ b ∈ post, White b) → r ≠ [] →
    (∀ b, r.head? = some b → ¬ White b ∧ Plain b) → trimBack (post ++ r) = .ok r
  | [], [b], _, _, _ => rfl
  | [], b :: c :: r, _, _, h => by
    rw [List.nil_append, trimBack, isspace_false.mpr (h b rfl)]
  | b :: post, r, hp, hr, h => by
    have ih := trimBack_total post r (fun c hc => hp c (by simp [hc])) hr h
    cases hpr : post ++ r with
    | nil => exact absurd (List.append_eq_nil_iff.mp hpr).2 hr
    | cons c l =>
      rw [List.cons_append, hpr, trimBack, isspace_true.mpr (hp b (by simp))]
      rw [hpr] at ih
      exact ih
  | [], [], _, hr, _ => absurd rfl hr

/-- C96: whatever is passed to the logger is the first 1023 bytes of the text without the white space around them. -/
theorem c96_text {text m : Bytes} (e : render text = .ok m) : Stripped (text.take 1023) m := by
  rw [render, trim] at e
  split at e
  next n r hl =>
    obtain ⟨pre, h1, h2, h3, h4⟩ := trimLeft_ok _ _ _ hl
    rw [trimRight] at e
    split at e
    · cases e
    · split at e
      next r' hb =>
        cases e
        obtain ⟨post, g1, g2, g3, g4⟩ := trimBack_ok _ _ hb (fun b hb => h4 b (by rwa [List.getLast?_reverse] at hb))
        have hr : r = r'.reverse ++ post.reverse := by
          rw [← List.reverse_append, ← g1, List.reverse_reverse]
        refine ⟨pre, post.reverse, ?_, h3, ?_, ?_, ?_⟩
        · rw [h1, hr, List.append_assoc]
        · intro b hb
          exact g2 b (List.mem_reverse.mp hb)
        · intro b hb
          rw [List.head?_reverse, g4, List.getLast?_reverse] at hb
          exact h4 b hb
        · intro b hb
          rw [List.getLast?_reverse] at hb
          exact g3 b hb
      · cases e
      · cases e
  · cases e
  · cases e

/-- there is only one way to strip a text -/
theorem stripped_unique {t m m' : Bytes} (h : Stripped t m) (h' : Stripped t m') : m = m' := by
  have key : ∀ (t : Bytes), ∀ {m pre post}, t = pre ++ m ++ post → (∀ b ∈ pre, White b) → (∀ b ∈ post, White b) →
      (∀ b, m.head? = some b → ¬ White b) → (∀ b, m.getLast? = some b → ¬ White b) →
      m = ((t.dropWhile fun b => decide (b.toNat ∈ [32, 9, 10, 11, 12, 13])).reverse.dropWhile
        fun b => decide (b.toNat ∈ [32, 9, 10, 11, 12, 13])).reverse := by
    intro t m pre post ht h1 h2 h3 h4
    have dw : ∀ (p q : Bytes), (∀ b ∈ p, White b) → (∀ b, q.head? = some b → ¬ White b) →
        (p ++ q).dropWhile (fun b => decide (b.toNat ∈ [32, 9, 10, 11, 12, 13])) = q := by
      intro p q hp hq
      induction p with
      | nil =>
        cases q with
        | nil => rfl
        | cons b q =>
          rw [List.nil_append, List.dropWhile_cons_of_neg]
          have := hq b rfl
          rw [White] at this
          simpa using this
      | cons b p ih =>
        rw [List.cons_append, List.dropWhile_cons_of_pos]
        · exact ih fun c hc => hp c (by simp [hc])
        · have := hp b (by simp)
          rw [White] at this
          simpa using this
    by_cases hm : m = []
    · subst hm
      rw [List.append_nil] at ht
      have : ∀ b ∈ t, White b := by
        intro b hb
        rw [ht] at hb
        rcases List.mem_append.mp hb with hb | hb
        · exact h1 b hb
        · exact h2 b hb
      have := dw t [] this nofun
      rw [List.append_nil] at this
      rw [this]
      rfl
    · have e1 := dw pre (m ++ post) h1 (by
        intro b hb
        rw [head_append hm] at hb
        exact h3 b hb)
      rw [← List.append_assoc, ← ht] at e1
      have e2 := dw post.reverse m.reverse (fun b hb => h2 b (List.mem_reverse.mp hb)) (by
        intro b hb
        rw [List.head?_reverse] at hb
        exact h4 b hb)
      rw [e1, List.reverse_append, e2, List.reverse_reverse]
  obtain ⟨pre, post, h1, h2, h3, h4, h5⟩ := h
  obtain ⟨pre', post', g1, g2, g3, g4, g5⟩ := h'
  rw [key t h1 h2 h3 h4 h5, ← key t g1 g2 g3 g4 g5]

/-- C96, partial: a text that is not empty, and that does not begin or end, after cutting and apart from white space,
with a byte above 127, is passed on.

Missing: the other texts, see `c96_empty_violated` and `c96_negative_violated`. -/
theorem c96_passed_on_partial {text m : Bytes} (hs : Stripped (text.take 1023) m) (hne : text ≠ [])
    (hh : ∀ b, m.head? = some b → Plain b) (hl : ∀ b, m.getLast? = some b → Plain b) :
    render text = .ok m := by
  obtain ⟨pre, post, h1, h2, h3, h4, h5⟩ := hs
  have hne' : (text.take 1023).length ≠ 0 := by
    cases text with
    | nil => exact absurd rfl hne
    | cons b l => simp
  rw [render, trim]
  by_cases hm : m = []
  · subst hm
    have : trimLeft (text.take 1023 ++ []) = .ok ((text.take 1023).length, []) := by
      refine trimLeft_total _ _ ?_ nofun
      intro b hb
      rw [h1] at hb
      rcases List.mem_append.mp hb with hb | hb
      · rcases List.mem_append.mp hb with hb | hb
        · exact h2 b hb
        · cases hb
      · exact h3 b hb
    rw [List.append_nil] at this
    rw [this]
    dsimp only
    rw [trimRight, if_neg (by simpa using hne')]
    rfl
  · have : trimLeft (pre ++ (m ++ post)) = .ok (pre.length, m ++ post) := by
      refine trimLeft_total _ _ h2 ?_
      intro b hb
      rw [head_append hm] at hb
      exact ⟨h4 b hb, hh b hb⟩
    rw [← List.append_assoc, ← h1] at this
    rw [this]
    dsimp only
    rw [trimRight, if_neg, List.reverse_append, trimBack_total]
    · dsimp only
      rw [List.reverse_reverse]
    · exact fun b hb => h3 b (List.mem_reverse.mp hb)
    · simpa using hm
    · intro b hb
      rw [List.head?_reverse] at hb
      exact ⟨h5 b hb, hl b hb⟩
    · rw [h1] at hne'
      simp only [List.length_append] at hne' ⊢
      omega

example : render [32, 10, 72, 32, 0xc3, 0xa4, 33, 10] = .ok [72, 32, 0xc3, 0xa4, 33] ∧ render [10, 32] = .ok [] := by
  decide +kernel

/-- C96, violated: for an empty text a pointer before the array is computed. -/
theorem c96_empty_violated : render [] = .ub "pointer before the array" := rfl

/-- C96, violated: for a text that begins with a byte between 128 and 254, as the names of errors do in many languages,
`isspace` is called with a negative number. -/
theorem c96_negative_violated {b : UInt8} (h : ¬ Plain b) (l : Bytes) :
    render (b :: l) = .ub "isspace of a negative char" := by
  rw [render, List.take_succ_cons, trim, trimLeft, (isspace_eq b).2 h]

example : ¬ Plain 0xc3 ∧ render [72, 0xc3, 0xa4] = .ub "isspace of a negative char" := by
  constructor
  · rw [Plain]; decide
  · rfl

end Verif.Log
