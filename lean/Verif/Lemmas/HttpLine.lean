import Verif.Lemmas.HttpRender

/-! # What a request line consists of, if the parser takes it -/

namespace Verif.Http

/-- the text of the tokens that the request line is made of -/
def Text (t : Tok) (v a : Bytes) : Prop :=
  match t with
  | .ws => a ≠ [] ∧ ∀ c ∈ a, Blank c
  | .solidus => a ≠ [] ∧ ∀ c ∈ a, c = 47
  | .literal => a = v
  | .cr => a = [13]
  | .lf => a = [10]
  | _ => True

theorem request_text {p t v n} (h : classify .request p = some (t, v, n)) : ∃ a, p = a ++ n ∧ Text t v a := by
  simp only [classify, classifyRequest] at h
  cases p with
  | nil => cases h
  | cons c r =>
    dsimp only at h
    have dw : ∀ q : UInt8 → Bool, q c = true → (c :: r).takeWhile q ≠ [] := by
      intro q hq; rw [List.takeWhile_cons, if_pos hq]; simp
    split at h
    · rename_i hc
      cases h
      exact ⟨_, (takeWhile_dropWhile _ _).symm, dw _ (by simp [hc]), fun c hc => by simpa using mem_takeWhile hc⟩
    split at h
    · rename_i hc; cases h; exact ⟨[c], rfl, by rw [hc]; rfl⟩
    split at h
    · rename_i hc; cases h; exact ⟨[c], rfl, by rw [hc]; rfl⟩
    split at h
    · cases h; exact ⟨[c], rfl, trivial⟩
    split at h
    · cases h; exact ⟨[c], rfl, trivial⟩
    split at h
    · cases h; exact ⟨[c], rfl, trivial⟩
    split at h
    · rename_i hc
      cases h
      exact ⟨_, (takeWhile_dropWhile _ _).symm, dw _ (by rcases hc with h | h <;> subst h <;> rfl),
        fun c hc => (blank_iff c).2 (mem_takeWhile hc)⟩
    split at h
    · cases h
      exact ⟨_, (takeWhile_dropWhile _ _).symm, rfl⟩
    · cases h

/-- `R` has been read up to here, but for the token that has not been accepted yet -/
structure Upto (R : Bytes) (l : Lex) : Prop where
  st : l.st = .request
  done : l.accepted = true → ∃ u, R = u ++ rest l
  open_ : l.accepted = false → ∃ u a, R = u ++ a ++ rest l ∧ Text l.tok l.text a

theorem Upto.any {R l} (h : Upto R l) : ∃ u, R = u ++ rest l := by
  cases ha : l.accepted
  · obtain ⟨u, a, h1, -⟩ := h.open_ ha
    exact ⟨_, h1⟩
  · exact h.done ha

theorem Upto.next {R l} (h : Upto R l) : Upto R (nextToken l).1 := by
  unfold nextToken
  split
  · exact h
  · rename_i ha
    replace ha : l.accepted = true := by simpa using ha
    obtain ⟨u, hu⟩ := h.done ha
    dsimp only
    split
    · refine ⟨h.st, fun _ => ⟨u, ?_⟩, fun hf => by rw [show l.accepted = false from hf] at ha; cases ha⟩
      rw [hu]
      simp only [rest]
      cases l.next <;> rfl
    · rename_i t v n hc
      rw [h.st] at hc
      obtain ⟨a, h1, h2⟩ := request_text hc
      refine ⟨h.st, (fun hf => by cases hf), fun _ => ⟨u, a, ?_, ?_⟩⟩
      · rw [hu]
        show u ++ l.next.getD l.pos = u ++ a ++ n
        rw [h1, List.append_assoc]
      · cases t <;> first | exact h2 | trivial

theorem Upto.accept {R l} (h : Upto R l) : Upto R (accept l) :=
  ⟨h.st, fun _ => h.any, fun hf => by cases hf⟩

theorem Upto.expect {R l} (t : Tok) (h : Upto R l) : Upto R (expect t l).1 := by
  unfold Http.expect peek
  dsimp only
  split
  · exact h.next.accept
  · exact h.next

/-- an expected token that is there -/
theorem Upto.took {R l t} (h : Upto R l) (hok : (Http.expect t l).2 = true) :
    ∃ u a, R = u ++ a ++ rest (Http.expect t l).1 ∧ Text t (nextToken l).1.text a ∧ (Http.expect t l).1.accepted = true ∧
      (Http.expect t l).1.st = .request := by
  have hn := h.next
  unfold Http.expect peek at hok ⊢
  dsimp only at hok ⊢
  split at hok
  · rename_i hp
    rw [if_pos hp]
    rw [Bool.and_eq_true, beq_iff_eq] at hp
    obtain ⟨u, a, h1, h2⟩ := hn.open_ (nextToken_acc hp.1)
    rw [hp.2] at h2
    exact ⟨u, a, h1, h2, rfl, hn.st⟩
  · cases hok

theorem Upto.start {l : Lex} (ha : l.accepted = true) (hs : l.st = .request) : Upto (rest l) l :=
  ⟨hs, fun _ => ⟨[], rfl⟩, fun hf => by rw [hf] at ha; cases ha⟩

/-- the next token, when all before it have been accepted: nothing is skipped -/
theorem next_text {l : Lex} (ha : l.accepted = true) (hs : l.st = .request) (hok : (nextToken l).2 = true) :
    ∃ a, rest l = a ++ rest (nextToken l).1 ∧ Text (nextToken l).1.tok (nextToken l).1.text a ∧
      (nextToken l).1.st = .request := by
  unfold nextToken at hok ⊢
  rw [if_neg (by simp [ha])] at hok ⊢
  dsimp only at hok ⊢
  split at hok
  · cases hok
  · rename_i t v n hc
    rw [hs] at hc
    obtain ⟨a, h1, h2⟩ := request_text hc
    exact ⟨a, h1, by cases t <;> first | exact h2 | trivial, hs⟩

theorem expect_text {l : Lex} {t : Tok} (ha : l.accepted = true) (hs : l.st = .request)
    (hok : (expect t l).2 = true) : ∃ v a, rest l = a ++ rest (expect t l).1 ∧ Text t v a ∧
      (expect t l).1.accepted = true ∧ (expect t l).1.st = .request := by
  unfold expect peek at hok ⊢
  dsimp only at hok ⊢
  split at hok
  · rename_i hp
    rw [if_pos hp]
    rw [Bool.and_eq_true, beq_iff_eq] at hp
    obtain ⟨a, h1, h2, h3⟩ := next_text ha hs hp.1
    rw [hp.2] at h2
    exact ⟨_, a, h1, h2, rfl, h3⟩
  · cases hok

theorem literal_text {l : Lex} {s : Bytes} (ha : l.accepted = true) (hs : l.st = .request)
    (hok : (literal s l).2 = true) : ∃ a, rest l = a ++ rest (literal s l).1 ∧ caseEq s a = true ∧
      (literal s l).1.accepted = true ∧ (literal s l).1.st = .request := by
  unfold literal at hok ⊢
  dsimp only at hok ⊢
  split at hok
  · rename_i hp
    rw [if_pos hp]
    rw [Bool.and_eq_true, Bool.and_eq_true, beq_iff_eq] at hp
    obtain ⟨a, h1, h2, h3⟩ := next_text ha hs hp.1.1
    rw [hp.1.2] at h2
    exact ⟨a, h1, by rw [show a = _ from h2]; exact hp.2, rfl, h3⟩
  · cases hok

theorem upto_urlPath {R : Bytes} : ∀ (fuel : Nat) {l : Lex} {res}, Upto R l → urlPath fuel l = some res → Upto R res.1
  | 0, _, _, _, e => by cases e
  | fuel + 1, l, res, h, e => by
    unfold urlPath at e
    dsimp only at e
    have h1 := h.expect .solidus
    generalize expect .solidus l = x at e h1
    obtain ⟨l1, ok1⟩ := x
    dsimp only at e h1
    split at e
    · cases e; exact h1
    have h2 := h1.next
    generalize nextToken l1 = x at e h2
    obtain ⟨l2, ok2⟩ := x
    dsimp only at e h2
    split at e
    · cases e; exact h2
    split at e
    · cases e; exact h2
    have h3 : Upto R (peek .solidus (accept l2)).1 := h2.accept.next
    generalize peek .solidus (accept l2) = x at e h3
    obtain ⟨l3, ok3⟩ := x
    dsimp only at e h3
    split at e
    · exact upto_urlPath fuel h3 e
    · cases e; exact h3

theorem upto_seq {R : Bytes} {a b : Lex → Lex × Bool} (ha : ∀ {l}, Upto R l → Upto R (a l).1)
    (hb : ∀ {l}, Upto R l → Upto R (b l).1) {l : Lex} (h : Upto R l) : Upto R (seq a b l).1 := by
  unfold seq
  dsimp only
  split
  · exact hb (ha h)
  · exact ha h

theorem upto_urlQuery {R : Bytes} : ∀ (fuel : Nat) {l : Lex} {res}, Upto R l → urlQuery fuel l = some res → Upto R res.1
  | 0, _, _, _, e => by cases e
  | fuel + 1, l, res, h, e => by
    unfold urlQuery at e
    dsimp only at e
    have h1 : Upto R (seq (expect .literal) (seq (expect .eq) (seq (expect .literal) (expect .ampersand))) l).1 :=
      upto_seq (fun h => h.expect _) (fun h => upto_seq (fun h => h.expect _)
        (fun h => upto_seq (fun h => h.expect _) (fun h => h.expect _) h) h) h
    generalize seq (expect .literal) (seq (expect .eq) (seq (expect .literal) (expect .ampersand))) l = x at e h1
    obtain ⟨l1, ok1⟩ := x
    dsimp only at e h1
    split at e
    · exact upto_urlQuery fuel h1 e
    · cases e; exact h1

theorem upto_url {R : Bytes} {fuel : Nat} {l : Lex} {res} (h : Upto R l) (e : url fuel l = some res) : Upto R res.1 := by
  unfold url at e
  obtain ⟨⟨l1, ok1⟩, e1, e⟩ := Option.bind_eq_some_iff.1 e
  have h1 := upto_urlPath fuel h e1
  dsimp only at e h1
  have h2 : Upto R (if ok1 = true then expect .query l1 else (l1, false)).1 := by
    split
    · exact h1.expect _
    · exact h1
  generalize (if ok1 = true then expect .query l1 else (l1, false)) = x at e h2
  obtain ⟨l2, ok2⟩ := x
  dsimp only at e h2
  split at e
  · exact upto_urlQuery fuel h2 e
  · cases e; exact h2

/-- a request line that the parser takes -/
theorem request_line {fuel : Nat} {l l' : Lex} (ha : l.accepted = true) (hs : l.st = .request)
    (e : request fuel l = some (l', true)) :
    ∃ m b u b' p s v, rest l = m ++ b ++ u ++ b' ++ p ++ s ++ v ++ [13, 10] ++ rest l' ∧ caseEq (lit "GET") m = true ∧
      (b ≠ [] ∧ ∀ c ∈ b, Blank c) ∧ (b' ≠ [] ∧ ∀ c ∈ b', Blank c) ∧ caseEq (lit "HTTP") p = true ∧
      (s ≠ [] ∧ ∀ c ∈ s, c = 47) ∧ caseEq (lit "1.1") v = true := by
  unfold request at e
  dsimp only at e
  split at e
  · cases e
  rename_i h0
  simp only [Decidable.not_not] at h0
  obtain ⟨g1, g2, -⟩ := seq_ok h0
  obtain ⟨m, m1, m2, m3, m4⟩ := literal_text ha hs g1
  rw [seq_at g1] at e
  obtain ⟨_, b, b1, b2, b3, b4⟩ := expect_text m3 m4 g2
  obtain ⟨⟨l3, ok3⟩, e3, e⟩ := Option.bind_eq_some_iff.1 e
  have h3 := upto_url (Upto.start b3 b4) e3
  dsimp only at e h3
  split at e
  · cases e
  injection e with e
  have hok : (seq (expect .ws) (seq version (seq (expect .cr) (expect .lf))) l3).2 = true := by rw [e]
  obtain ⟨k1, k2, -⟩ := seq_ok hok
  rw [seq_at k1] at e
  obtain ⟨u, b', c1, c2, c3, c4⟩ := h3.took k1
  obtain ⟨k3, k4, -⟩ := seq_ok k2
  rw [seq_at k3] at e
  unfold version at k3 e k4
  obtain ⟨v1, v2, -⟩ := seq_ok k3
  rw [seq_at v1] at e k4
  obtain ⟨p, p1, p2, p3, p4⟩ := literal_text c3 c4 v1
  obtain ⟨v3, v4, -⟩ := seq_ok v2
  rw [seq_at v3] at e k4
  obtain ⟨_, s, s1, s2, s3, s4⟩ := expect_text p3 p4 v3
  obtain ⟨v, w1, w2, w3, w4⟩ := literal_text s3 s4 v4
  obtain ⟨r1, r2, -⟩ := seq_ok k4
  rw [seq_at r1] at e
  obtain ⟨_, cr, x1, x2, x3, x4⟩ := expect_text w3 w4 r1
  obtain ⟨_, lf, y1, y2, -, -⟩ := expect_text x3 x4 r2
  rw [e] at y1
  refine ⟨m, b, u, b', p, s, v, ?_, m2, b2, c2, p2, s2, w2⟩
  rw [m1, b1, c1, p1, s1, w1, x1, y1, show cr = [13] from x2, show lf = [10] from y2]
  simp only [List.append_assoc, List.cons_append, List.nil_append]

end Verif.Http
