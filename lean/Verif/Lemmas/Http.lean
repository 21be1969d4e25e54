import Verif.Model.Http
import Verif.Props.Base64

namespace Verif.Http

theorem takeWhile_dropWhile (p : UInt8 → Bool) (l : Bytes) : l.takeWhile p ++ l.dropWhile p = l :=
  List.takeWhile_append_dropWhile

theorem mem_takeWhile {p : UInt8 → Bool} {l : Bytes} {c : UInt8} (h : c ∈ l.takeWhile p) : p c = true := by
  induction l with
  | nil => simp at h
  | cons a l ih =>
    rw [List.takeWhile_cons] at h
    split at h
    · rcases List.mem_cons.1 h with rfl | h
      · assumption
      · exact ih h
    · simp at h

/-- shape of a classified token -/
theorem classify_shape {st p t v n} (h : classify st p = some (t, v, n)) :
    ∃ a, a ≠ [] ∧ p = a ++ n ∧ (t = .key → ∃ b, (∀ c ∈ b, isBlank c = true) ∧ a = v ++ [58] ++ b) ∧
      (t = .value → a = v ++ [13, 10] ∧ (13 : UInt8) ∉ v) := by
  cases st with
  | request =>
    simp only [classify, classifyRequest] at h
    cases p with
    | nil => simp at h
    | cons c r =>
      simp only at h
      have dw : ∀ q : UInt8 → Bool, q c = true → (c :: r).takeWhile q ≠ [] := by
        intro q hq; rw [List.takeWhile_cons, if_pos hq]; simp
      split at h
      · rename_i hc
        simp only [Option.some.injEq, Prod.mk.injEq] at h
        obtain ⟨rfl, rfl, rfl⟩ := h
        exact ⟨_, dw (· == 47) (by simp [hc]), (takeWhile_dropWhile _ _).symm, by simp, by simp⟩
      split at h
      · simp only [Option.some.injEq, Prod.mk.injEq] at h
        obtain ⟨rfl, rfl, rfl⟩ := h
        exact ⟨[c], by simp, by simp, by simp, by simp⟩
      split at h
      · simp only [Option.some.injEq, Prod.mk.injEq] at h
        obtain ⟨rfl, rfl, rfl⟩ := h
        exact ⟨[c], by simp, by simp, by simp, by simp⟩
      split at h
      · simp only [Option.some.injEq, Prod.mk.injEq] at h
        obtain ⟨rfl, rfl, rfl⟩ := h
        exact ⟨[c], by simp, by simp, by simp, by simp⟩
      split at h
      · simp only [Option.some.injEq, Prod.mk.injEq] at h
        obtain ⟨rfl, rfl, rfl⟩ := h
        exact ⟨[c], by simp, by simp, by simp, by simp⟩
      split at h
      · simp only [Option.some.injEq, Prod.mk.injEq] at h
        obtain ⟨rfl, rfl, rfl⟩ := h
        exact ⟨[c], by simp, by simp, by simp, by simp⟩
      split at h
      · rename_i hc
        simp only [Option.some.injEq, Prod.mk.injEq] at h
        obtain ⟨rfl, rfl, rfl⟩ := h
        exact ⟨_, dw isBlank (by rcases hc with h | h <;> subst h <;> rfl), (takeWhile_dropWhile _ _).symm, by simp, by simp⟩
      split at h
      · rename_i hc
        simp only [Option.some.injEq, Prod.mk.injEq] at h
        obtain ⟨rfl, rfl, rfl⟩ := h
        exact ⟨_, dw isLiteral hc, (takeWhile_dropWhile _ _).symm, by simp, by simp⟩
      · simp at h
  | key =>
    simp only [classify, classifyKey] at h
    cases p with
    | nil => simp at h
    | cons c r =>
      simp only at h
      split at h
      · simp only [Option.some.injEq, Prod.mk.injEq] at h
        obtain ⟨rfl, rfl, rfl⟩ := h
        exact ⟨[c], by simp, by simp, by simp, by simp⟩
      split at h
      · simp only [Option.some.injEq, Prod.mk.injEq] at h
        obtain ⟨rfl, rfl, rfl⟩ := h
        exact ⟨[c], by simp, by simp, by simp, by simp⟩
      split at h
      · simp at h
      · split at h
        · rename_i rest heq
          simp only [Option.some.injEq, Prod.mk.injEq] at h
          obtain ⟨rfl, rfl, rfl⟩ := h
          refine ⟨(c :: r).takeWhile isKeyChar ++ [58] ++ rest.takeWhile isBlank, by simp, ?_, ?_, by simp⟩
          · rw [List.append_assoc, List.append_assoc, takeWhile_dropWhile, List.singleton_append, ← heq, takeWhile_dropWhile]
          · intro _
            exact ⟨_, fun c hc => mem_takeWhile hc, rfl⟩
        · simp at h
  | value =>
    simp only [classify, classifyValue] at h
    split at h
    · rename_i rest heq
      simp only [Option.some.injEq, Prod.mk.injEq] at h
      obtain ⟨rfl, rfl, rfl⟩ := h
      refine ⟨p.takeWhile (· ≠ 13) ++ [13, 10], by simp, ?_, by simp, fun _ => ⟨rfl, ?_⟩⟩
      · rw [List.append_assoc]
        show p = _ ++ (13 :: 10 :: rest)
        rw [← heq, takeWhile_dropWhile]
      · intro hm
        have := mem_takeWhile hm
        simp at this
    · simp at h

/-- what is left to lex -/
def rest (l : Lex) : Bytes := l.next.getD l.pos
def pend (l : Lex) : Nat := if l.accepted = false ∧ l.tok = .key then 1 else 0
def colons (l : Lex) : Nat := (rest l).count 58 + pend l

def TokOk (input : Bytes) (l : Lex) : Prop :=
  rest l <:+ input ∧ (l.accepted = false → l.next.isSome = true ∧
    (l.tok = .key → ∃ b, (∀ c ∈ b, isBlank c = true) ∧ l.text ++ [58] ++ b ++ rest l <:+ input))

structure Adv (l l' : Lex) : Prop where
  suf : rest l' <:+ rest l
  col : colons l' ≤ colons l
  nxt : l.next.isSome = true → l'.next.isSome = true
  tok : ∀ input, TokOk input l → TokOk input l'

theorem Adv.refl (l : Lex) : Adv l l := ⟨List.suffix_refl _, Nat.le_refl _, id, fun _ h => h⟩
theorem Adv.trans {a b c : Lex} (h : Adv a b) (h' : Adv b c) : Adv a c :=
  ⟨h'.suf.trans h.suf, Nat.le_trans h'.col h.col, fun x => h'.nxt (h.nxt x), fun i x => h'.tok i (h.tok i x)⟩

theorem Adv.len {l l' : Lex} (h : Adv l l') : (rest l').length ≤ (rest l).length := h.suf.length_le

theorem adv_st (l : Lex) (st : LexState) : Adv l { l with st := st } :=
  ⟨List.suffix_refl _, Nat.le_refl _, id, fun _ h => h⟩

theorem adv_accept (l : Lex) : Adv l (accept l) :=
  ⟨List.suffix_refl _, by show _ ≤ _; simp only [colons, pend, accept, rest]; simp, id,
    fun _ h => ⟨h.1, by simp [accept]⟩⟩

theorem nextToken_adv (l : Lex) : Adv l (nextToken l).1 := by
  unfold nextToken
  split
  · exact .refl l
  · rename_i ha
    simp only [Bool.not_eq_true, Bool.not_eq_false] at ha
    dsimp only
    split
    · rename_i hc
      refine ⟨?_, ?_, id, ?_⟩
      · show l.next.getD (l.next.getD l.pos) <:+ l.next.getD l.pos
        cases l.next <;> simp
      · show colons { l with pos := l.next.getD l.pos } ≤ _
        simp only [colons, pend, rest]
        cases l.next <;> simp
      · intro input h
        refine ⟨?_, by simp [ha]⟩
        have := h.1
        simp only [rest] at this ⊢
        cases hn : l.next <;> simpa [hn] using this
    · rename_i t v n hc
      obtain ⟨a, h1, h2, h3, h4⟩ := classify_shape hc
      have hr : rest l = a ++ n := h2
      refine ⟨?_, ?_, by simp, ?_⟩
      · show n <:+ rest l
        rw [hr]; exact List.suffix_append a n
      · show n.count 58 + _ ≤ (rest l).count 58 + _
        rw [hr, List.count_append]
        simp only [pend, ha]
        by_cases hk : t = .key
        · obtain ⟨b, _, hb⟩ := h3 hk
          rw [hb]; simp [List.count_append, hk]; omega
        · simp [hk]
      · intro input h
        refine ⟨?_, fun _ => ⟨rfl, ?_⟩⟩
        · refine List.IsSuffix.trans ?_ h.1
          show n <:+ rest l
          rw [hr]; exact List.suffix_append a n
        · intro hk
          simp only at hk
          obtain ⟨b, hb, e⟩ := h3 hk
          refine ⟨b, hb, ?_⟩
          simp only [hk, or_true, true_or, if_true]
          show v ++ [58] ++ b ++ n <:+ input
          rw [← e, ← hr]; exact h.1

theorem nextToken_lt {l : Lex} (ha : l.accepted = true) (hok : (nextToken l).2 = true) :
    (rest (nextToken l).1).length < (rest l).length := by
  unfold nextToken at hok ⊢
  rw [if_neg (by simp [ha])] at hok ⊢
  dsimp only at hok ⊢
  split at hok
  · simp at hok
  · rename_i t v n hc
    obtain ⟨a, h1, h2, h3, h4⟩ := classify_shape hc
    have hr : rest l = a ++ n := h2
    show n.length < _
    rw [hr]
    have : 0 < a.length := List.length_pos_iff.2 h1
    simp; omega

theorem nextToken_next {l : Lex} (ha : l.accepted = true) (hok : (nextToken l).2 = true) :
    (nextToken l).1.next.isSome = true := by
  unfold nextToken at hok ⊢
  rw [if_neg (by simp [ha])] at hok ⊢
  dsimp only at hok ⊢
  split at hok <;> simp_all

theorem nextToken_acc {l : Lex} (hok : (nextToken l).2 = true) : (nextToken l).1.accepted = false := by
  unfold nextToken at hok ⊢
  split
  · rename_i h; simpa using h
  · rename_i h
    rw [if_neg h] at hok
    dsimp only at hok ⊢
    split at hok <;> simp_all

/-! ## Progress of the parser functions -/

theorem peek_adv (t : Tok) (l : Lex) : Adv l (peek t l).1 := nextToken_adv l

theorem expect_adv (t : Tok) (l : Lex) : Adv l (expect t l).1 := by
  unfold expect
  dsimp only
  split
  · exact (peek_adv t l).trans (adv_accept _)
  · exact peek_adv t l

theorem literal_adv (s : Bytes) (l : Lex) : Adv l (literal s l).1 := by
  unfold literal
  dsimp only
  split
  · exact (nextToken_adv l).trans (adv_accept _)
  · exact nextToken_adv l

theorem seq_adv {a b : Lex → Lex × Bool} (ha : ∀ l, Adv l (a l).1) (hb : ∀ l, Adv l (b l).1) (l : Lex) :
    Adv l (seq a b l).1 := by
  unfold seq
  dsimp only
  split
  · exact (ha l).trans (hb _)
  · exact ha l

theorem version_adv (l : Lex) : Adv l (version l).1 :=
  seq_adv (literal_adv _) (seq_adv (expect_adv _) (literal_adv _)) l

theorem expect_acc {t : Tok} {l : Lex} (h : (expect t l).2 = true) : (expect t l).1.accepted = true := by
  unfold expect at h ⊢
  dsimp only at h ⊢
  split at h
  · rename_i hp; rw [if_pos hp]; rfl
  · simp at h

theorem expect_peek {t : Tok} {l : Lex} (h : (expect t l).2 = true) : (peek t l).2 = true := by
  unfold expect at h
  dsimp only at h
  split at h
  · assumption
  · simp at h

theorem expect_lt {t : Tok} {l : Lex} (ha : l.accepted = true) (h : (expect t l).2 = true) :
    (rest (expect t l).1).length < (rest l).length := by
  have hp := expect_peek h
  unfold peek at hp
  simp only [Bool.and_eq_true] at hp
  have := nextToken_lt ha hp.1
  have e : rest (expect t l).1 = rest (nextToken l).1 := by
    unfold expect; dsimp only; rw [if_pos (expect_peek h)]; rfl
  rw [e]; exact this

theorem expect_next {t : Tok} {l : Lex} (ha : l.accepted = true) (h : (expect t l).2 = true) :
    (expect t l).1.next.isSome = true := by
  have hp := expect_peek h
  unfold peek at hp
  simp only [Bool.and_eq_true] at hp
  have := nextToken_next ha hp.1
  unfold expect; dsimp only; rw [if_pos (expect_peek h)]; exact this

theorem seq_ok {a b : Lex → Lex × Bool} {l : Lex} (h : (seq a b l).2 = true) :
    (a l).2 = true ∧ (b (a l).1).2 = true ∧ (seq a b l).1 = (b (a l).1).1 := by
  unfold seq at h ⊢
  dsimp only at h ⊢
  split at h
  · rename_i ha; rw [if_pos ha]; exact ⟨ha, h, rfl⟩
  · simp at h

theorem urlPath_total : ∀ (fuel : Nat) (l : Lex), (rest l).length < fuel →
    ∃ r, urlPath fuel l = some r ∧ Adv l r.1 := by
  intro fuel
  induction fuel with
  | zero => intro l h; omega
  | succ fuel ih =>
    intro l h
    unfold urlPath
    dsimp only
    have h1 := expect_adv .solidus l
    split
    · exact ⟨_, rfl, h1⟩
    · rename_i hs
      have ha := expect_acc (by simpa using hs)
      have h2 := nextToken_adv (expect .solidus l).1
      split
      · exact ⟨_, rfl, h1.trans h2⟩
      · rename_i ht
        have hlt := nextToken_lt ha (by simpa using ht)
        split
        · exact ⟨_, rfl, h1.trans h2⟩
        · have h3 := adv_accept (nextToken (expect .solidus l).1).1
          have h4 := peek_adv .solidus (accept (nextToken (expect .solidus l).1).1)
          split
          · have hl1 := h1.len
            have hl3 := h3.len
            have hl4 := h4.len
            obtain ⟨r, e, hr⟩ := ih _ (Nat.lt_of_le_of_lt hl4 (by omega))
            exact ⟨r, e, h1.trans (h2.trans (h3.trans (h4.trans hr)))⟩
          · exact ⟨_, rfl, h1.trans (h2.trans (h3.trans h4))⟩

theorem urlQuery_total : ∀ (fuel : Nat) (l : Lex), (rest l).length < fuel →
    ∃ r, urlQuery fuel l = some r ∧ Adv l r.1 := by
  intro fuel
  induction fuel with
  | zero => intro l h; omega
  | succ fuel ih =>
    intro l h
    unfold urlQuery
    dsimp only
    have hadv := seq_adv (expect_adv .literal) (seq_adv (expect_adv .eq) (seq_adv (expect_adv .literal) (expect_adv .ampersand))) l
    split
    · rename_i hok
      obtain ⟨k1, k2, k3⟩ := seq_ok hok
      obtain ⟨m1, m2, m3⟩ := seq_ok k2
      have hlt := expect_lt (expect_acc k1) m1
      have h1 := (expect_adv .literal l).len
      have h2 := (seq_adv (expect_adv .literal) (expect_adv .ampersand) (expect .eq (expect .literal l).1).1).len
      have e : rest (seq (expect .literal) (seq (expect .eq) (seq (expect .literal) (expect .ampersand))) l).1 =
        rest (seq (expect .literal) (expect .ampersand) (expect .eq (expect .literal l).1).1).1 := by rw [k3, m3]
      obtain ⟨r, er, hr⟩ := ih (seq (expect .literal) (seq (expect .eq) (seq (expect .literal) (expect .ampersand))) l).1
        (by rw [e]; omega)
      exact ⟨r, er, hadv.trans hr⟩
    · exact ⟨_, rfl, hadv⟩

theorem url_total (fuel : Nat) (l : Lex) (h : (rest l).length < fuel) :
    ∃ r, url fuel l = some r ∧ Adv l r.1 := by
  obtain ⟨⟨l1, ok1⟩, e1, h1⟩ := urlPath_total fuel l h
  unfold url
  rw [e1]
  simp only [Option.bind_eq_bind, Option.bind_some]
  simp only at h1
  cases ok1 with
  | false => exact ⟨_, rfl, h1⟩
  | true =>
    simp only [if_true]
    have h2 := expect_adv .query l1
    split
    · obtain ⟨r, e, hr⟩ := urlQuery_total fuel (expect .query l1).1 (by have := h1.len; have := h2.len; omega)
      exact ⟨r, e, h1.trans (h2.trans hr)⟩
    · exact ⟨_, rfl, h1.trans h2⟩

theorem request_total (fuel : Nat) (l : Lex) (h : (rest l).length < fuel) :
    ∃ r, request fuel l = some r ∧ Adv l r.1 ∧ (r.2 = true → r.1.accepted = true ∧ r.1.next.isSome = true) := by
  unfold request
  have h1 := seq_adv (literal_adv (lit "GET")) (expect_adv .ws) l
  generalize seq (literal (lit "GET")) (expect .ws) l = res at h1 ⊢
  obtain ⟨l1, ok1⟩ := res
  simp only at h1 ⊢
  cases ok1 with
  | false => exact ⟨_, rfl, h1, by simp⟩
  | true =>
    obtain ⟨⟨l2, ok2⟩, e2, h2⟩ := url_total fuel l1 (by have := h1.len; omega)
    rw [e2]
    simp only at h2
    cases ok2 with
    | false => exact ⟨_, rfl, h1.trans h2, by simp⟩
    | true =>
      have h3 := seq_adv (expect_adv .ws) (seq_adv version_adv (seq_adv (expect_adv .cr) (expect_adv .lf))) l2
      refine ⟨_, rfl, h1.trans (h2.trans h3), fun hok => ?_⟩
      obtain ⟨k1, k2, k3⟩ := seq_ok hok
      obtain ⟨m1, m2, m3⟩ := seq_ok k2
      obtain ⟨n1, n2, n3⟩ := seq_ok m2
      rw [k3, m3, n3]
      exact ⟨expect_acc n2, expect_next (expect_acc n1) n2⟩

theorem expectKey_adv (k : Bytes) (l : Lex) : Adv l (expectKey k l).1 := by
  unfold expectKey
  dsimp only
  split
  · exact (nextToken_adv l).trans (adv_accept _)
  · exact nextToken_adv l

theorem expectKey_acc {k : Bytes} {l : Lex} (h : (expectKey k l).2 = true) : (expectKey k l).1.accepted = true := by
  unfold expectKey at h ⊢
  dsimp only at h ⊢
  split at h
  · rename_i hp; rw [if_pos hp]; rfl
  · simp at h

theorem expectValue_adv (l : Lex) : Adv l (expectValue l).1 := by
  unfold expectValue
  dsimp only
  split
  · exact (adv_st l .value).trans ((nextToken_adv _).trans (adv_accept _))
  · exact (adv_st l .value).trans (nextToken_adv _)

/-- a value token: text up to the first CR, which is followed by LF -/
theorem expectValue_ok {l : Lex} (ha : l.accepted = true) (h : (expectValue l).2 = true) :
    (expectValue l).1.accepted = true ∧ (expectValue l).1.next.isSome = true ∧
    rest l = (expectValue l).1.text ++ [13, 10] ++ rest (expectValue l).1 ∧ (13 : UInt8) ∉ (expectValue l).1.text := by
  unfold expectValue at h ⊢
  dsimp only at h ⊢
  split at h
  · rename_i hp
    rw [if_pos hp]
    simp only [Bool.and_eq_true, beq_iff_eq] at hp
    unfold nextToken at hp ⊢
    rw [if_neg (by simp [ha])] at hp ⊢
    dsimp only at hp ⊢
    split at hp
    · simp at hp
    · rename_i t v n hc
      simp only [true_and] at hp
      obtain ⟨a, h1, h2, h3, h4⟩ := classify_shape hc
      refine ⟨rfl, rfl, ?_⟩
      simp only [accept, hp, or_true, true_or, if_true]
      rw [← (h4 hp).1]
      exact ⟨h2, (h4 hp).2⟩
  · simp at h

/-- What one header line does -/
structure KvOk (input : Bytes) (r : Req) (l : Lex) (r' : Req) (l' : Lex) (ok : Bool) : Prop where
  adv : Adv l l'
  col : r'.fields.length + colons l' ≤ r.fields.length + colons l
  okk : ok = true → l'.accepted = true ∧ l'.next.isSome = true ∧ (rest l').length < (rest l).length
  fld : r'.fields.length ≤ max r.fields.length fieldMax
  src : TokOk input l → ∀ f ∈ r'.fields, f ∈ r.fields ∨ ∃ b, (∀ c ∈ b, isBlank c = true) ∧ (13 : UInt8) ∉ f.2 ∧
    f.1 ++ [58] ++ b ++ f.2 ++ [13, 10] <:+: input

theorem kv_content (input : Bytes) (r : Req) (l : Lex) (k : Bytes) (g : Bytes → Req) (hg : ∀ x, (g x).fields = r.fields)
    (res : Req × Lex × Bool)
    (h : res = (let (l, ok) := expectKey k { l with st := .key }
      if ¬ ok then (r, l, false)
      else
        let (l, ok) := expectValue l
        if ok then (g l.text, l, true) else (r, l, false))) :
    KvOk input r l res.1 res.2.1 res.2.2 := by
  have h1 := (adv_st l .key).trans (expectKey_adv k { l with st := .key })
  dsimp only at h
  split at h
  · subst h
    exact ⟨h1, by have := h1.col; simp only; omega, by simp, Nat.le_max_left _ _, fun _ f hf => .inl hf⟩
  · rename_i hk
    have ha := expectKey_acc (by simpa using hk)
    have h2 := expectValue_adv (expectKey k { l with st := .key }).1
    split at h
    · rename_i hv
      have hok := expectValue_ok ha hv
      subst h
      refine ⟨h1.trans h2, ?_, fun _ => ⟨hok.1, hok.2.1, ?_⟩, ?_, ?_⟩
      · have := (h1.trans h2).col; simp only [hg]; omega
      · have := h1.len
        have hh := congrArg List.length hok.2.2.1
        simp only [List.length_append, List.length_cons] at hh
        simp only
        omega
      · simp only [hg]; exact Nat.le_max_left _ _
      · intro _ f hf; simp only [hg] at hf; exact .inl hf
    · subst h
      exact ⟨h1.trans h2, by have := (h1.trans h2).col; simp only; omega, by simp, Nat.le_max_left _ _, fun _ f hf => .inl hf⟩

theorem kv_field (input : Bytes) (r : Req) (l : Lex) :
    (∃ r' l' ok, fieldKv r l = .ok (r', l', ok) ∧ KvOk input r l r' l' ok) ∨
    (∃ w, fieldKv r l = .ub w ∧ fieldMax < r.fields.length + colons l) := by
  unfold fieldKv
  have h1 := (adv_st l .key).trans (nextToken_adv { l with st := .key })
  dsimp only
  split
  · exact .inl ⟨_, _, _, rfl, ⟨h1, by have := h1.col; omega, by simp, Nat.le_max_left _ _, fun _ f hf => .inl hf⟩⟩
  · rename_i hk
    simp only [Bool.and_eq_true, beq_iff_eq, Classical.not_not] at hk
    have hna := nextToken_acc hk.1
    have hp : pend (nextToken { l with st := .key }).1 = 1 := by simp [pend, hna, hk.2]
    have hc := h1.col
    have hcc : colons (nextToken { l with st := .key }).1 = (rest (nextToken { l with st := .key }).1).count 58 + 1 := by
      rw [colons, hp]
    split
    · rename_i hfull
      refine .inr ⟨_, rfl, ?_⟩
      omega
    · rename_i hroom
      generalize hl1 : (nextToken { l with st := .key }).1 = l1 at *
      have h2 := (adv_accept l1).trans (expectValue_adv (accept l1))
      have hacc : colons (accept l1) = (rest l1).count 58 := by simp [colons, pend, accept, rest]
      have hcv := (expectValue_adv (accept l1)).col
      split
      · rename_i hv
        have hok := expectValue_ok (l := accept l1) rfl hv
        refine .inl ⟨_, _, _, rfl, ⟨h1.trans h2, ?_, fun _ => ⟨hok.1, hok.2.1, ?_⟩, ?_, ?_⟩⟩
        · simp only [List.length_append, List.length_cons, List.length_nil]
          omega
        · have := (h1.trans (adv_accept l1)).len
          have hh := congrArg List.length hok.2.2.1
          simp only [List.length_append, List.length_cons] at hh
          omega
        · simp only [List.length_append, List.length_cons, List.length_nil]
          omega
        · intro htok f hf
          simp only [List.mem_append, List.mem_singleton] at hf
          rcases hf with hf | rfl
          · exact .inl hf
          · have ht := h1.tok input htok
            obtain ⟨b, hb, hs⟩ := (ht.2 hna).2 hk.2
            refine .inr ⟨b, hb, hok.2.2.2, ?_⟩
            have he : rest l1 = (expectValue (accept l1)).1.text ++ [13, 10] ++ rest (expectValue (accept l1)).1 := hok.2.2.1
            rw [he] at hs
            obtain ⟨pre, hpre⟩ := hs
            refine ⟨pre, rest (expectValue (accept l1)).1, ?_⟩
            rw [← hpre]; simp
      · refine .inl ⟨_, _, _, rfl, ⟨h1.trans h2, ?_, by simp, Nat.le_max_left _ _, fun _ f hf => .inl hf⟩⟩
        show r.fields.length + _ ≤ _
        omega

theorem KvOk.weaken {input r l1 r' l' ok l} (h : KvOk input r l1 r' l' ok) (h1 : Adv l l1) : KvOk input r l r' l' ok :=
  ⟨h1.trans h.adv, by have := h.col; have := h1.col; omega,
    fun e => ⟨(h.okk e).1, (h.okk e).2.1, by have := (h.okk e).2.2; have := h1.len; omega⟩, h.fld, fun ht => h.src (h1.tok input ht)⟩

theorem contentLength_eq_of_false {r l} (h : (contentLength r l).2.2 = false) : (contentLength r l).1 = r := by
  unfold contentLength at h ⊢
  dsimp only at h ⊢
  split
  · rfl
  · rename_i hk
    rw [if_neg hk] at h
    split
    · rename_i hv; rw [if_pos hv] at h; simp at h
    · rfl

theorem contentType_eq_of_false {r l} (h : (contentType r l).2.2 = false) : (contentType r l).1 = r := by
  unfold contentType at h ⊢
  dsimp only at h ⊢
  split
  · rfl
  · rename_i hk
    rw [if_neg hk] at h
    split
    · rename_i hv; rw [if_pos hv] at h; simp at h
    · rfl

theorem kv_header (input : Bytes) (r : Req) (l : Lex) :
    (∃ r' l' ok, headerKv r l = .ok (r', l', ok) ∧ KvOk input r l r' l' ok) ∨
    (∃ w, headerKv r l = .ub w ∧ fieldMax < r.fields.length + colons l) := by
  unfold headerKv
  have k1 := kv_content input r l (lit "Content-Length") (fun x => { r with contentLength := x }) (fun _ => rfl)
    (contentLength r l) rfl
  dsimp only
  cases h1 : (contentLength r l).2.2 with
  | true =>
    rw [if_pos rfl]
    exact .inl ⟨_, _, _, rfl, by rw [h1] at k1; exact k1⟩
  | false =>
    have e1 := contentLength_eq_of_false h1
    rw [e1] at k1 ⊢
    simp only [Bool.false_eq_true, if_false]
    generalize (contentLength r l).2.1 = l1 at *
    have k2 := kv_content input r l1 (lit "Content-Type") (fun x => { r with contentType := x }) (fun _ => rfl)
      (contentType r l1) rfl
    cases h2 : (contentType r l1).2.2 with
    | true =>
      rw [if_pos rfl]
      exact .inl ⟨_, _, _, rfl, by rw [h2] at k2; exact k2.weaken k1.adv⟩
    | false =>
      have e2 := contentType_eq_of_false h2
      rw [e2] at k2 ⊢
      simp only [Bool.false_eq_true, if_false]
      generalize (contentType r l1).2.1 = l2 at *
      rcases kv_field input r l2 with ⟨r', l', ok, e, k3⟩ | ⟨w, e, hw⟩
      · exact .inl ⟨_, _, _, e, k3.weaken (k1.adv.trans k2.adv)⟩
      · refine .inr ⟨w, e, ?_⟩
        have := (k1.adv.trans k2.adv).col
        omega

theorem headerLoop_total (input : Bytes) : ∀ (fuel : Nat) (r : Req) (l : Lex), (rest l).length < fuel →
    l.next.isSome = true → TokOk input l →
    (∃ r' l', headerLoop fuel r l = some (.ok (r', l')) ∧ Adv l l' ∧
      r'.fields.length ≤ max r.fields.length fieldMax ∧
      ∀ f ∈ r'.fields, f ∈ r.fields ∨ ∃ b, (∀ c ∈ b, isBlank c = true) ∧ (13 : UInt8) ∉ f.2 ∧
        f.1 ++ [58] ++ b ++ f.2 ++ [13, 10] <:+: input) ∨
    (∃ w, headerLoop fuel r l = some (.ub w) ∧ fieldMax < r.fields.length + colons l) := by
  intro fuel
  induction fuel with
  | zero => intro r l h; omega
  | succ fuel ih =>
    intro r l h hn ht
    unfold headerLoop
    rcases kv_header input r l with ⟨r', l', ok, e, k⟩ | ⟨w, e, hw⟩
    · rw [e]
      cases ok with
      | false => exact .inl ⟨_, _, rfl, k.adv, k.fld, k.src ht⟩
      | true =>
        obtain ⟨a, b, c⟩ := k.okk rfl
        dsimp only
        rcases ih r' l' (by omega) b (k.adv.tok input ht) with ⟨r2, l2, e2, k2, k3, k4⟩ | ⟨w, e2, hw⟩
        · refine .inl ⟨r2, l2, e2, k.adv.trans k2, by have := k.fld; omega, fun f hf => ?_⟩
          rcases k4 f hf with h | h
          · exact k.src ht f h
          · exact .inr h
        · exact .inr ⟨w, e2, by have := k.col; omega⟩
    · rw [e]
      exact .inr ⟨w, rfl, hw⟩

end Verif.Http
