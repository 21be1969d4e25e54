import Verif.Lemmas.Http
import Verif.Spec.Http

namespace Verif.Http

/-- the path in terms of the lexer -/
def PathLit (path : Bytes) : Prop := ∀ c ∈ path, isLiteral c = true

/-- a field in terms of the lexer -/
def FieldLex (f : Bytes × Bytes) : Prop :=
  f.1 ≠ [] ∧ (∀ c ∈ f.1, isKeyChar c = true) ∧ (13 : UInt8) ∉ f.2 ∧ ∀ c, f.2.head? = some c → isBlank c = false

theorem all_bytes {p : UInt8 → Prop} (h : ∀ n : Fin 256, p (UInt8.ofNat n)) (c : UInt8) : p c := by
  have := h ⟨c.toNat, c.toNat_lt⟩
  simpa using this

theorem pathChar_eq (c : UInt8) : pathChar c = isLiteral c :=
  all_bytes (p := fun c => pathChar c = isLiteral c) (by decide +kernel) c

theorem nameChar_eq (c : UInt8) : nameChar c = isKeyChar c :=
  all_bytes (p := fun c => nameChar c = isKeyChar c) (by decide +kernel) c

theorem blank_iff (c : UInt8) : Blank c ↔ isBlank c = true := by
  unfold Blank isBlank
  simp

theorem PathOk.lit {path : Bytes} (h : PathOk path) : PathLit path := fun c hc => by rw [← pathChar_eq]; exact h c hc

theorem FieldOk.lex {f : Bytes × Bytes} (h : FieldOk f) : FieldLex f :=
  ⟨h.1, fun c hc => by rw [← nameChar_eq]; exact h.2.1 c hc, h.2.2.1, fun c hc => by
    have := h.2.2.2 c hc
    rw [blank_iff] at this
    simpa using this⟩

theorem takeWhile_app {p : UInt8 → Bool} {a : Bytes} {c : UInt8} {r : Bytes} (ha : ∀ x ∈ a, p x = true) (hc : p c = false) :
    (a ++ c :: r).takeWhile p = a ∧ (a ++ c :: r).dropWhile p = c :: r := by
  induction a with
  | nil => simp [List.takeWhile_cons, List.dropWhile_cons, hc]
  | cons x a ih =>
    have hx := ha x (by simp)
    have := ih fun y hy => ha y (by simp [hy])
    simp [List.takeWhile_cons, List.dropWhile_cons, hx, this.1, this.2]

theorem nextToken_some {l : Lex} (ha : l.accepted = true) {t v n} (h : classify l.st (rest l) = some (t, v, n)) :
    nextToken l = (⟨l.st, t, if t = .literal ∨ t = .key ∨ t = .value then v else l.text, rest l, some n, false⟩, true) := by
  unfold nextToken
  rw [if_neg (by simp [ha])]
  dsimp only
  unfold rest at h ⊢
  rw [h]

theorem nextToken_pending {l : Lex} (ha : l.accepted = false) : nextToken l = (l, true) := by
  unfold nextToken; rw [if_pos (by simp [ha])]

/-- a lexer positioned before `R` -/
structure At (st : LexState) (R : Bytes) (l : Lex) : Prop where
  st : l.st = st
  acc : l.accepted = true
  rst : rest l = R

/-- a lexer with a pending token -/
structure Pend (st : LexState) (t : Tok) (v : Bytes) (R : Bytes) (l : Lex) : Prop where
  st : l.st = st
  acc : l.accepted = false
  tok : l.tok = t
  txt : t = .literal ∨ t = .key ∨ t = .value → l.text = v
  nxt : l.next = some R

theorem next_pend {st R l t v n} (h : At st R l) (hc : classify st R = some (t, v, n)) :
    (nextToken l).2 = true ∧ Pend st t v n (nextToken l).1 := by
  rw [nextToken_some h.acc (by rw [h.st, h.rst, hc])]
  exact ⟨rfl, h.st, rfl, rfl, fun ht => by simp [ht], rfl⟩

theorem Pend.accept {st t v R l} (h : Pend st t v R l) : At st R (accept l) :=
  ⟨h.st, rfl, by show l.next.getD l.pos = R; rw [h.nxt]; rfl⟩

theorem expect_pend {st t v R l} (h : Pend st t v R l) :
    (expect t l).2 = true ∧ At st R (expect t l).1 := by
  have e : expect t l = (Http.accept l, true) := by
    unfold expect peek; rw [nextToken_pending h.acc]; simp [h.tok]
  rw [e]; exact ⟨rfl, h.accept⟩

theorem expect_pend_ne {st t v R l} (h : Pend st t v R l) {t' : Tok} (hne : t ≠ t') : expect t' l = (l, false) := by
  unfold expect peek; rw [nextToken_pending h.acc]; simp [h.tok, hne]

theorem expect_at {st R l t v n} (h : At st R l) (hc : classify st R = some (t, v, n)) :
    (expect t l).2 = true ∧ At st n (expect t l).1 := by
  obtain ⟨h1, h2⟩ := next_pend h hc
  have e : expect t l = (Http.accept (nextToken l).1, true) := by
    unfold expect peek; simp [h1, h2.tok]
  rw [e]; exact ⟨rfl, h2.accept⟩

theorem literal_at {st R l v n s} (h : At st R l) (hc : classify st R = some (.literal, v, n)) (hs : caseEq s v = true) :
    (literal s l).2 = true ∧ At st n (literal s l).1 := by
  obtain ⟨h1, h2⟩ := next_pend h hc
  have e : literal s l = (Http.accept (nextToken l).1, true) := by
    unfold literal; simp [h1, h2.tok, h2.txt (.inl rfl), hs]
  rw [e]; exact ⟨rfl, h2.accept⟩

theorem seq_at {a b : Lex → Lex × Bool} {l : Lex} (ha : (a l).2 = true) : seq a b l = b (a l).1 := by
  unfold seq; simp [ha]

/-- the path part: both cases end before a pending blank -/
theorem url_render (fuel : Nat) (path R : Bytes) (hp : PathLit path) (c : UInt8) (hc : isBlank c = false) {l : Lex}
    (h : At .request (47 :: (path ++ 32 :: c :: R)) l) :
    ∃ l', url (fuel + 1) l = some (l', true) ∧ Pend .request .ws [] (c :: R) l' := by
  have c1 : classify .request (47 :: (path ++ 32 :: c :: R)) = some (.solidus, [], path ++ 32 :: c :: R) := by
    have : (path ++ 32 :: c :: R).dropWhile (· == 47) = path ++ 32 :: c :: R := by
      cases path with
      | nil => rfl
      | cons x xs =>
        have : x ≠ 47 := by rintro rfl; exact absurd (hp 47 (by simp)) (by decide)
        simp [List.dropWhile_cons, this]
    simp [classify, classifyRequest, List.dropWhile_cons, this]
  have cws : classify .request (32 :: c :: R) = some (.ws, [], c :: R) := by
    simp [classify, classifyRequest, List.dropWhile_cons, hc, show isBlank 32 = true from rfl]
  obtain ⟨e1, a1⟩ := expect_at h c1
  cases path with
  | nil =>
    obtain ⟨n1, p1⟩ := next_pend a1 cws
    refine ⟨_, ?_, p1⟩
    have hu : urlPath (fuel + 1) l = some ((nextToken (expect .solidus l).1).1, true) := by
      unfold urlPath
      simp only [e1, not_true_eq_false, if_false, n1, p1.tok]
      rfl
    unfold url
    rw [hu]
    simp only [Option.bind_eq_bind, Option.bind_some, if_true]
    rw [expect_pend_ne p1 (by decide)]
    rfl
  | cons x xs =>
    have cl : classify .request (x :: xs ++ 32 :: c :: R) = some (.literal, x :: xs, 32 :: c :: R) := by
      have hx := hp x (by simp)
      have hall : ∀ y ∈ x :: xs, isLiteral y = true := hp
      obtain ⟨t1, t2⟩ := takeWhile_app (p := isLiteral) (a := x :: xs) (c := 32) (r := c :: R) hall (by rfl)
      have hne : ∀ k : UInt8, isLiteral k = false → x ≠ k := by
        rintro k hk rfl; rw [hx] at hk; simp at hk
      simp only [classify, classifyRequest, List.cons_append]
      rw [if_neg (hne 47 rfl), if_neg (hne 13 rfl), if_neg (hne 10 rfl), if_neg (hne 63 rfl), if_neg (hne 38 rfl),
        if_neg (hne 61 rfl), if_neg (fun h => h.elim (hne 32 rfl) (hne 9 rfl)), if_pos hx]
      simp only [List.cons_append] at t1 t2
      rw [t1, t2]
    obtain ⟨n1, p1⟩ := next_pend a1 cl
    obtain ⟨n2, p2⟩ := next_pend p1.accept cws
    refine ⟨_, ?_, p2⟩
    have hu : urlPath (fuel + 1) l = some ((nextToken (accept (nextToken (expect .solidus l).1).1)).1, true) := by
      unfold urlPath
      simp only [e1, not_true_eq_false, if_false, n1, p1.tok, ne_eq, peek, n2, p2.tok]
      rfl
    unfold url
    rw [hu]
    simp only [Option.bind_eq_bind, Option.bind_some, if_true]
    rw [expect_pend_ne p2 (by decide)]
    rfl

theorem request_render (fuel : Nat) (path R : Bytes) (hp : PathLit path) {l : Lex}
    (h : At .request (lit "GET /" ++ path ++ lit " HTTP/1.1\r\n" ++ R) l) :
    ∃ l', request (fuel + 1) l = some (l', true) ∧ At .request R l' := by
  have hl : lit "GET /" ++ path ++ lit " HTTP/1.1\r\n" ++ R =
      71 :: 69 :: 84 :: 32 :: 47 :: (path ++ 32 :: 72 :: (84 :: 84 :: 80 :: 47 :: 49 :: 46 :: 49 :: 13 :: 10 :: R)) := by
    simp [lit]
  rw [hl] at h
  obtain ⟨e1, a1⟩ := literal_at (s := lit "GET") (v := [71, 69, 84])
    (n := 32 :: 47 :: (path ++ 32 :: 72 :: (84 :: 84 :: 80 :: 47 :: 49 :: 46 :: 49 :: 13 :: 10 :: R))) h
    (by rfl) (by decide)
  obtain ⟨e2, a2⟩ := expect_at (t := .ws) (v := [])
    (n := 47 :: (path ++ 32 :: 72 :: (84 :: 84 :: 80 :: 47 :: 49 :: 46 :: 49 :: 13 :: 10 :: R))) a1 (by rfl)
  obtain ⟨l3, e3, p3⟩ := url_render fuel path (84 :: 84 :: 80 :: 47 :: 49 :: 46 :: 49 :: 13 :: 10 :: R) hp 72 (by rfl) a2
  obtain ⟨e4, a4⟩ := expect_pend p3
  obtain ⟨e5, a5⟩ := literal_at (s := lit "HTTP") (v := [72, 84, 84, 80])
    (n := 47 :: 49 :: 46 :: 49 :: 13 :: 10 :: R) a4 (by rfl) (by decide)
  obtain ⟨e6, a6⟩ := expect_at (t := .solidus) (v := []) (n := 49 :: 46 :: 49 :: 13 :: 10 :: R) a5 (by rfl)
  obtain ⟨e7, a7⟩ := literal_at (s := lit "1.1") (v := [49, 46, 49]) (n := 13 :: 10 :: R) a6 (by rfl) (by decide)
  obtain ⟨e8, a8⟩ := expect_at (t := .cr) (v := []) (n := 10 :: R) a7 (by rfl)
  obtain ⟨e9, a9⟩ := expect_at (t := .lf) (v := []) (n := R) a8 (by rfl)
  refine ⟨_, ?_, a9⟩
  unfold request
  rw [seq_at e1]
  simp only [e2, not_true_eq_false, if_false, e3, Option.bind_eq_bind, Option.bind_some]
  rw [seq_at e4]
  have ev : version (expect .ws l3).1 = ((literal (lit "1.1") (expect .solidus (literal (lit "HTTP") (expect .ws l3).1).1).1).1, true) := by
    unfold version
    rw [seq_at e5, seq_at e6, ← e7]
  rw [seq_at (by rw [ev]), ev]
  simp only
  rw [seq_at e8, ← e9]

theorem st_at {st st' R l} (h : At st R l) : At st' R { l with st := st' } := ⟨rfl, h.acc, h.rst⟩
theorem st_pend {st st' t v R l} (h : Pend st t v R l) : Pend st' t v R { l with st := st' } :=
  ⟨rfl, h.acc, h.tok, h.txt, h.nxt⟩

theorem keyChar_ne {c k : UInt8} (hc : isKeyChar c = true) (hk : isKeyChar k = false) : c ≠ k := by
  rintro rfl; rw [hc] at hk; simp at hk

theorem classify_key (k v R : Bytes) (hf : FieldLex (k, v)) :
    classify .key (k ++ 58 :: 32 :: (v ++ 13 :: R)) = some (.key, k, v ++ 13 :: R) := by
  obtain ⟨h1, h2, h3, h4⟩ := hf
  simp only at h1 h2 h3 h4
  obtain ⟨t1, t2⟩ := takeWhile_app (p := isKeyChar) (a := k) (c := 58) (r := 32 :: (v ++ 13 :: R)) h2 (by rfl)
  cases k with
  | nil => simp at h1
  | cons x xs =>
    have hx := h2 x (by simp)
    simp only [classify, classifyKey, List.cons_append]
    rw [if_neg (keyChar_ne hx rfl), if_neg (keyChar_ne hx rfl), if_neg (by simp [hx])]
    simp only [List.cons_append] at t1 t2
    rw [t1, t2]
    simp only
    have : (32 :: (v ++ 13 :: R)).dropWhile isBlank = v ++ 13 :: R := by
      rw [List.dropWhile_cons, if_pos (by rfl)]
      cases v with
      | nil => rfl
      | cons y ys =>
        have := h4 y rfl
        simp [List.dropWhile_cons, this]
    rw [this]

theorem classify_value (v R : Bytes) (h : (13 : UInt8) ∉ v) :
    classify .value (v ++ 13 :: 10 :: R) = some (.value, v, R) := by
  obtain ⟨t1, t2⟩ := takeWhile_app (p := (· ≠ 13)) (a := v) (c := 13) (r := 10 :: R)
    (fun x hx => by simp; rintro rfl; exact h hx) (by simp)
  simp only [classify, classifyValue]
  rw [t1, t2]
  rfl

theorem expectValue_at {st v R l} (h : At st (v ++ 13 :: 10 :: R) l) (hv : (13 : UInt8) ∉ v) :
    (expectValue l).2 = true ∧ At .value R (expectValue l).1 ∧ (expectValue l).1.text = v ∧
      (expectValue l).1.next.isSome = true := by
  obtain ⟨n1, p1⟩ := next_pend (st_at (st' := .value) h) (classify_value v R hv)
  have e : expectValue l = (accept (nextToken { l with st := .value }).1, true) := by
    unfold expectValue; simp [n1, p1.tok]
  rw [e]
  exact ⟨rfl, p1.accept, p1.txt (.inr (.inr rfl)), by simp [accept, p1.nxt]⟩

theorem expectKey_pend {st v R l k} (h : Pend st .key v R l) :
    (caseEq v k = true → expectKey k l = (accept l, true)) ∧ (caseEq v k = false → expectKey k l = (l, false)) := by
  have ht := h.txt (.inr (.inl rfl))
  unfold expectKey
  rw [nextToken_pending h.acc]
  simp only [h.tok, ht, beq_self_eq_true, Bool.true_and]
  exact ⟨fun e => by rw [e]; rfl, fun e => by rw [e]; rfl⟩

/-- expecting a key on a fresh lexer is the same as on the lexer with the pending token -/
theorem expectKey_next {l : Lex} (k : Bytes) (h : (nextToken l).2 = true) :
    expectKey k l = expectKey k (nextToken l).1 := by
  have ha := nextToken_acc h
  unfold expectKey
  rw [nextToken_pending ha]
  dsimp only
  rw [h]

theorem headerKv_line (r : Req) (k v R : Bytes) (hf : FieldLex (k, v)) {st l} (h : At st (line (k, v) ++ R) l)
    (hr : isContent k = false → r.fields.length < fieldMax) :
    ∃ r' l', headerKv r l = .ok (r', l', true) ∧ At .value R l' ∧ l'.next.isSome = true ∧
      r'.fields = r.fields ++ (if isContent k then [] else [(k, v)]) := by
  have hl : line (k, v) ++ R = k ++ 58 :: 32 :: (v ++ 13 :: (10 :: R)) := by simp [line, lit]
  rw [hl] at h
  have hk := classify_key k v (10 :: R) hf
  obtain ⟨n1, p1⟩ := next_pend (st_at (st' := .key) h) hk
  have hcl : contentLength r l = (let (l, ok) := expectKey (lit "Content-Length") (nextToken { l with st := .key }).1
      if ¬ ok then (r, l, false)
      else
        let (l, ok) := expectValue l
        if ok then ({ r with contentLength := l.text }, l, true) else (r, l, false)) := by
    unfold contentLength; rw [expectKey_next _ n1]
  generalize (nextToken { l with st := .key }).1 = l1 at *
  have hv := hf.2.2.1
  simp only at hv
  cases hA : caseEq k (lit "Content-Length") with
  | true =>
    obtain ⟨e1, e2, e3, e4⟩ := expectValue_at p1.accept hv
    refine ⟨{ r with contentLength := v }, (expectValue (accept l1)).1, ?_, e2, e4, by simp [isContent, hA]⟩
    unfold headerKv
    rw [hcl, (expectKey_pend p1).1 hA]
    simp [e1, e3]
  | false =>
    have hcl' : contentLength r l = (r, l1, false) := by rw [hcl, (expectKey_pend p1).2 hA]; simp
    have p2 := st_pend (st' := .key) p1
    have hl1 : ({ l1 with st := .key } : Lex) = l1 := by rw [← p1.st]
    cases hB : caseEq k (lit "Content-Type") with
    | true =>
      obtain ⟨e1, e2, e3, e4⟩ := expectValue_at p1.accept hv
      refine ⟨{ r with contentType := v }, (expectValue (accept l1)).1, ?_, e2, e4, by simp [isContent, hB]⟩
      unfold headerKv
      rw [hcl']
      simp only [Bool.false_eq_true, if_false, contentType, hl1]
      rw [(expectKey_pend p1).1 hB]
      simp [e1, e3]
    | false =>
      have hct : contentType r l1 = (r, l1, false) := by
        unfold contentType; rw [hl1, (expectKey_pend p1).2 hB]; simp
      have hno : isContent k = false := by simp [isContent, hA, hB]
      obtain ⟨e1, e2, e3, e4⟩ := expectValue_at p1.accept hv
      refine ⟨{ r with fields := r.fields ++ [(k, v)], pending := none }, (expectValue (accept l1)).1, ?_, e2, e4, ?_⟩
      · unfold headerKv
        rw [hcl']
        simp only [Bool.false_eq_true, if_false, hct]
        unfold fieldKv
        rw [hl1, nextToken_pending p1.acc]
        simp only [p1.tok, beq_self_eq_true, Bool.and_self, not_true_eq_false, if_false]
        rw [if_neg (by have := hr hno; omega)]
        simp [e1, e3, p1.txt (.inr (.inl rfl))]
      · simp [hno]

theorem headerKv_end (r : Req) (R : Bytes) {st l} (h : At st (13 :: 10 :: R) l) :
    ∃ l', headerKv r l = .ok (r, l', false) ∧ Pend .key .cr [] (10 :: R) l' := by
  obtain ⟨n1, p1⟩ := next_pend (st_at (st' := .key) h)
    (show classify .key (13 :: 10 :: R) = some (.cr, [], 10 :: R) from rfl)
  have hst : ∀ x : Lex, x.st = .key → ({ x with st := .key } : Lex) = x := by
    intro x hx; rw [← hx]
  have hl1 := hst _ p1.st
  refine ⟨_, ?_, p1⟩
  have hcl : contentLength r l = (r, (nextToken { l with st := .key }).1, false) := by
    unfold contentLength expectKey; simp [p1.tok]
  generalize (nextToken { l with st := .key }).1 = l1 at *
  have hct : contentType r l1 = (r, l1, false) := by
    unfold contentType expectKey; rw [hl1, nextToken_pending p1.acc]; simp [p1.tok]
  unfold headerKv
  rw [hcl]
  simp only [Bool.false_eq_true, if_false, hct]
  unfold fieldKv
  rw [hl1, nextToken_pending p1.acc]
  simp [p1.tok]

/-- the fields the parser keeps -/
def kept (fields : List (Bytes × Bytes)) : List (Bytes × Bytes) := fields.filter fun f => !isContent f.1

theorem headerLoop_render (R : Bytes) : ∀ (fields : List (Bytes × Bytes)) (fuel : Nat) (r : Req) (st : LexState) (l : Lex),
    fields.length < fuel → (∀ f ∈ fields, FieldLex f) → r.fields.length + (kept fields).length ≤ fieldMax →
    At st ((fields.map line).flatten ++ 13 :: 10 :: R) l →
    ∃ r' l', headerLoop fuel r l = some (.ok (r', l')) ∧ r'.fields = r.fields ++ kept fields ∧
      Pend .key .cr [] (10 :: R) l' := by
  intro fields
  induction fields with
  | nil =>
    intro fuel r st l hfu _ _ hat
    obtain ⟨fuel, rfl⟩ : ∃ f, fuel = f + 1 := ⟨fuel - 1, by simp at hfu; omega⟩
    obtain ⟨l', e, p⟩ := headerKv_end r R hat
    exact ⟨r, l', by unfold headerLoop; rw [e], by simp [kept], p⟩
  | cons f fields ih =>
    intro fuel r st l hfu hok hcount hat
    obtain ⟨fuel, rfl⟩ : ∃ f, fuel = f + 1 := ⟨fuel - 1, by simp at hfu; omega⟩
    obtain ⟨k, v⟩ := f
    simp only [List.map_cons, List.flatten_cons, List.append_assoc] at hat
    have hkept : kept ((k, v) :: fields) = (if isContent k then [] else [(k, v)]) ++ kept fields := by
      simp only [kept, List.filter_cons]
      cases isContent k <;> simp
    rw [hkept] at hcount ⊢
    simp only [List.length_append] at hcount
    obtain ⟨r', l', e, a, _, hf⟩ := headerKv_line r k v _ (hok _ (by simp)) hat (fun hc => by
      rw [hc] at hcount; simp at hcount; omega)
    obtain ⟨r2, l2, e2, hf2, p2⟩ := ih fuel r' _ l' (by simp at hfu; omega) (fun f hf => hok f (by simp [hf]))
      (by rw [hf, List.length_append]; omega) a
    refine ⟨r2, l2, ?_, ?_, p2⟩
    · unfold headerLoop; rw [e]; exact e2
    · rw [hf2, hf, List.append_assoc]

end Verif.Http
