import Verif.Lemmas.HttpLine

/-! # Properties of the upgrade request parser (C32), the handshake (C33) and its reply (C61) -/

namespace Verif.Http

/-- everything about the parser at once -/
theorem parse_cases (input : Bytes) :
    (∃ w, parse input = some (.ub w) ∧ fieldMax < input.count 58) ∨ parse input = some (.ok none) ∨
    ∃ r n, parse input = some (.ok (some (r, n))) ∧ n ≤ input.length ∧ r.fields.length ≤ fieldMax ∧
      ∀ f ∈ r.fields, ∃ b, (∀ c ∈ b, isBlank c = true) ∧ (13 : UInt8) ∉ f.2 ∧
        f.1 ++ [58] ++ b ++ f.2 ++ [13, 10] <:+: input := by
  have htok : TokOk input { pos := input } := ⟨List.suffix_refl _, by simp⟩
  obtain ⟨⟨l, ok⟩, e1, h1, hok⟩ := request_total (input.length + 1) { pos := input } (by simp [rest])
  unfold parse parseFuel
  rw [e1]
  simp only [Option.bind_eq_bind, Option.bind_some]
  cases ok with
  | false => exact .inr (.inl rfl)
  | true =>
    simp only [not_true_eq_false, if_false]
    obtain ⟨ha, hn⟩ := hok rfl
    simp only at ha hn h1
    have hlen : (rest l).length ≤ input.length := h1.len
    have hcol : colons l ≤ input.count 58 := by
      have := h1.col; simp only [colons, pend, rest] at this ⊢; simpa using this
    rcases headerLoop_total input (input.length + 1) {} l (by omega) hn (h1.tok input htok) with
      ⟨r, l2, e2, h2, hf, hs⟩ | ⟨w, e2, hw⟩
    · rw [e2]
      simp only [Option.bind_some]
      have h3 := expect_adv .cr { l2 with st := .key }
      have hn2 : ({ l2 with st := .key } : Lex).next.isSome = true := h2.nxt hn
      generalize expect .cr { l2 with st := .key } = res at h3 ⊢
      obtain ⟨l3, ok3⟩ := res
      simp only at h3 ⊢
      have hn3 := h3.nxt hn2
      have key : ∀ l4 : Lex, l4.next.isSome = true →
          ∃ r' n, (match l4.next with
            | some n => some (Outcome.ok (some (r, input.length - n.length)))
            | none => some (.ub "next_pos is NULL")) = some (.ok (some (r', n))) ∧ n ≤ input.length ∧
            r'.fields.length ≤ fieldMax ∧
            ∀ f ∈ r'.fields, ∃ b, (∀ c ∈ b, isBlank c = true) ∧ (13 : UInt8) ∉ f.2 ∧
        f.1 ++ [58] ++ b ++ f.2 ++ [13, 10] <:+: input := by
        intro l4 h4
        obtain ⟨n, hn⟩ := Option.isSome_iff_exists.1 h4
        rw [hn]
        refine ⟨r, _, rfl, Nat.sub_le _ _, by simpa using hf, fun f hf => ?_⟩
        rcases hs f hf with h | h
        · simp at h
        · exact h
      cases ok3 with
      | false =>
        simp only [Bool.false_eq_true, if_false, if_true]
        exact .inr (.inr (key l3 hn3))
      | true =>
        simp only [if_true]
        have h5 := expect_adv .lf l3
        cases h6 : (expect .lf l3).2 with
        | false => exact .inr (.inl (by simp))
        | true =>
          simp only [if_true]
          exact .inr (.inr (key _ (h5.nxt hn3)))
    · rw [e2]
      refine .inl ⟨w, rfl, ?_⟩
      simp at hw; omega

/-- C32.  Names are compared as ASCII text without regard to case. -/
theorem c32_names_case_insensitive (a b : Bytes) :
    caseEq a b = true ↔ a.map (fun c => (Char.ofNat c.toNat).toLower) = b.map (fun c => (Char.ofNat c.toNat).toLower) := by
  have key : ∀ x y : UInt8, toLower x = toLower y ↔ (Char.ofNat x.toNat).toLower = (Char.ofNat y.toNat).toLower := by
    have h : ∀ n : Fin 256, (Char.ofNat (UInt8.ofNat n).toNat).toLower = Char.ofNat (toLower (UInt8.ofNat n)).toNat := by
      decide +kernel
    have h' : ∀ x : UInt8, (Char.ofNat x.toNat).toLower = Char.ofNat (toLower x).toNat := fun x => by
      simpa using h ⟨x.toNat, x.toNat_lt⟩
    have inj : ∀ n : Fin 256, (Char.ofNat n).toNat = n := by decide +kernel
    intro x y
    rw [h' x, h' y]
    refine ⟨fun e => by rw [e], fun e => ?_⟩
    have := congrArg Char.toNat e
    rw [inj ⟨(toLower x).toNat, (toLower x).toNat_lt⟩, inj ⟨(toLower y).toNat, (toLower y).toNat_lt⟩] at this
    exact UInt8.toNat_inj.1 this
  unfold caseEq
  rw [beq_iff_eq]
  induction a generalizing b with
  | nil => cases b <;> simp
  | cons x xs ih =>
    cases b with
    | nil => simp
    | cons y ys => simp only [List.map_cons, List.cons.injEq, key x y, ih ys]

/-- C32.  The parser terminates on every input. -/
theorem c32_terminates (input : Bytes) : ∃ o, parse input = some o := by
  rcases parse_cases input with ⟨w, h, _⟩ | h | ⟨r, n, h, _⟩
  · exact ⟨_, h⟩
  · exact ⟨_, h⟩
  · exact ⟨_, h⟩

/-- C32, partly.  No undefined behaviour as long as the request contains at most 32 colons.
Missing: longer requests, for which the claim is false. -/
theorem c32_safe_partial (input : Bytes) (h : input.count 58 ≤ fieldMax) :
    ∃ o, parse input = some (.ok o) := by
  rcases parse_cases input with ⟨w, _, h'⟩ | h | ⟨r, n, h, _⟩
  · omega
  · exact ⟨_, h⟩
  · exact ⟨_, h⟩

/-- C32.  Whatever the parser returns comes from the input: at most 32 fields, each of which occurs
there as a header line (values contain no CR), and a header length within the input. -/
theorem c32_sound (input : Bytes) (r : Req) (n : Nat) (h : parse input = some (.ok (some (r, n)))) :
    n ≤ input.length ∧ r.fields.length ≤ fieldMax ∧
    ∀ f ∈ r.fields, ∃ b, (∀ c ∈ b, isBlank c = true) ∧ (13 : UInt8) ∉ f.2 ∧
        f.1 ++ lit ":" ++ b ++ f.2 ++ lit "\r\n" <:+: input := by
  rcases parse_cases input with ⟨w, h', _⟩ | h' | ⟨r', n', h', h2⟩
  · rw [h] at h'; simp at h'
  · rw [h] at h'; simp at h'
  · rw [h] at h'
    simp only [Option.some.injEq, Outcome.ok.injEq, Prod.mk.injEq] at h'
    obtain ⟨rfl, rfl⟩ := h'
    exact h2

/-- C32.  The parser takes no requests but for GET in version 1.1 of HTTP: what it takes begins with the method, white
space, the target, white space, and the version, then comes the end of the line.  The names are compared without regard
to case, and the version may have more than one slash. -/
theorem c32_request_line (input : Bytes) (r : Req) (n : Nat) (h : parse input = some (.ok (some (r, n)))) :
    ∃ m b u b' p s v tail, input = m ++ b ++ u ++ b' ++ p ++ s ++ v ++ lit "\r\n" ++ tail ∧
      Same m (lit "GET") ∧ b ≠ [] ∧ (∀ c ∈ b, Blank c) ∧ b' ≠ [] ∧ (∀ c ∈ b', Blank c) ∧ Same p (lit "HTTP") ∧
      s ≠ [] ∧ (∀ c ∈ s, c = 47) ∧ Same v (lit "1.1") := by
  unfold parse parseFuel at h
  obtain ⟨⟨l, ok⟩, e, h⟩ := Option.bind_eq_some_iff.1 h
  cases ok
  · simp at h
  obtain ⟨m, b, u, b', p, s, v, h1, h2, h3, h4, h5, h6, h7⟩ := request_line rfl rfl e
  exact ⟨m, b, u, b', p, s, v, rest l, h1, ((c32_names_case_insensitive _ _).1 h2).symm, h3.1, h3.2, h4.1, h4.2,
    ((c32_names_case_insensitive _ _).1 h5).symm, h6.1, h6.2, ((c32_names_case_insensitive _ _).1 h7).symm⟩

/-- a request that is taken though its names are in lower case, and two that are not -/
example : (∃ r n, parse (lit "get  /a http//1.1\r\n\r\n") = some (.ok (some (r, n)))) ∧
    parse (lit "POST /a HTTP/1.1\r\n\r\n") = some (.ok none) ∧
    parse (lit "GET /a HTTP/1.0\r\n\r\n") = some (.ok none) :=
  ⟨⟨{}, 21, by decide +kernel⟩, by decide +kernel, by decide +kernel⟩

/-- C32.  A well-formed request with at most 32 fields besides content length and type is parsed to
exactly its fields in order, and the header length is that of the request, whatever follows. -/
theorem c32_round_trip (path : Bytes) (fields : List (Bytes × Bytes)) (tail : Bytes) (hp : PathOk path)
    (hf : ∀ f ∈ fields, FieldOk f) (hn : (fields.filter fun f => !isContent f.1).length ≤ 32) :
    ∃ r, parse (render path fields ++ tail) = some (.ok (some (r, (render path fields).length))) ∧
      r.fields = fields.filter fun f => !isContent f.1 := by
  have hshape : render path fields ++ tail = lit "GET /" ++ path ++ lit " HTTP/1.1\r\n" ++
      ((fields.map line).flatten ++ 13 :: 10 :: tail) := by
    simp [render, lit]
  have hlen : (render path fields ++ tail).length = (render path fields).length + tail.length := by simp
  have hflen : ∀ fs : List (Bytes × Bytes), fs.length ≤ (fs.map line).flatten.length := by
    intro fs
    induction fs with
    | nil => simp
    | cons f fs ih => 
      simp only [List.map_cons, List.flatten_cons, List.length_append, List.length_cons]
      have : 0 < (line f).length := by simp only [line, List.length_append]; simp [lit]
      omega
  have hfl : fields.length < (render path fields ++ tail).length + 1 := by
    have := hflen fields
    rw [hshape]
    simp only [List.length_append]
    omega
  obtain ⟨l, e1, a1⟩ := request_render (render path fields ++ tail).length path
    ((fields.map line).flatten ++ 13 :: 10 :: tail) hp.lit (l := { pos := render path fields ++ tail }) ⟨rfl, rfl, by
      show render path fields ++ tail = _; exact hshape⟩
  obtain ⟨r, l2, e2, hr, p2⟩ := headerLoop_render tail fields ((render path fields ++ tail).length + 1) {} _ l hfl
    (fun f h => (hf f h).lex)
    (by simpa [fieldMax, kept] using hn) a1
  refine ⟨r, ?_, by simpa [kept] using hr⟩
  obtain ⟨e3, a3⟩ := expect_pend (st_pend (st' := .key) p2)
  obtain ⟨e4, a4⟩ := expect_at (t := .lf) (v := []) (n := tail) a3 (by rfl)
  have hnext := expect_next a3.acc e4
  obtain ⟨n, hn⟩ := Option.isSome_iff_exists.1 hnext
  have hnt : n = tail := by have := a4.rst; rw [rest, hn] at this; exact this
  unfold parse parseFuel
  rw [e1]
  simp only [Option.bind_eq_bind, Option.bind_some, not_true_eq_false, if_false, e2, e3, if_true, e4, hn, hnt]
  rw [hlen]; simp

example : PathOk (lit "ws") ∧ ∀ f ∈ [(lit "Host", lit "a:5900"), (lit "Sec-WebSocket-Key", lit "dGhl")], FieldOk f := by
  refine ⟨fun c hc => ?_, ?_⟩
  · simp [lit] at hc; rcases hc with rfl | rfl <;> rfl
  intro f hf
  simp only [List.mem_cons, List.not_mem_nil, or_false] at hf
  rcases hf with rfl | rfl <;> refine ⟨by decide, by decide, by decide, ?_⟩ <;> intro c hc <;>
    simp [lit] at hc <;> subst hc <;> decide

/-- C32 is violated: 33 header fields make the parser write beyond its array of 32. -/
theorem c32_overflow_violated :
    ∃ fields : List (Bytes × Bytes), fields.length = 33 ∧ (∀ f ∈ fields, FieldOk f) ∧
      ∃ w, parse (render [] fields) = some (.ub w) := by
  refine ⟨List.replicate 33 (lit "a", []), by simp, ?_, "field[] overflow", by decide +kernel⟩
  intro f hf
  rw [List.eq_of_mem_replicate hf]
  exact ⟨by decide, by decide, by decide, by simp⟩

/-- C32 is violated: a request cut off in the middle of its header lines is accepted as complete
(with a header length that stops there). -/
theorem c32_incomplete_violated :
    ∃ path fields cut, 0 < cut ∧ PathOk path ∧ (∀ f ∈ fields, FieldOk f) ∧
      ∃ r n, parse ((render path fields).take cut) = some (.ok (some (r, n))) ∧
        cut < (render path fields).length ∧ n ≤ cut ∧ r.fields ≠ fields := by
  refine ⟨[], [(lit "Sec-WebSocket-Key", lit "abc"), (lit "Sec-WebSocket-Version", lit "13")], 50, by decide, by simp [PathOk], ?_,
    { fields := [(lit "Sec-WebSocket-Key", lit "abc")] }, 40, by decide +kernel, by decide +kernel, by decide, by decide⟩
  intro f hf
  simp only [List.mem_cons, List.not_mem_nil, or_false] at hf
  rcases hf with rfl | rfl <;> refine ⟨by decide, by decide, by decide, ?_⟩ <;> intro c hc <;>
    simp [lit] at hc <;> subst hc <;> decide

/-! ## Handshake -/

theorem tolower_none {s : Bytes} (h : ∃ c ∈ s, isSpace c = true) (fuel : Nat) : tolowerRemoveWs fuel s = none := by
  induction fuel generalizing s with
  | zero =>
    cases s with
    | nil => simp at h
    | cons c cs => rfl
  | succ fuel ih =>
    cases s with
    | nil => simp at h
    | cons c cs =>
      unfold tolowerRemoveWs
      split
      · exact ih h
      · rename_i hc
        have : ∃ c ∈ cs, isSpace c = true := by
          obtain ⟨x, hx, hs⟩ := h
          rcases List.mem_cons.1 hx with rfl | hx
          · exact absurd hs hc
          · exact ⟨x, hx, hs⟩
        rw [ih this]; rfl

theorem tolower_some {s : Bytes} (h : ∀ c ∈ s, isSpace c = false) {fuel : Nat} (hf : s.length ≤ fuel) :
    tolowerRemoveWs fuel s = some (s.map toLower) := by
  induction s generalizing fuel with
  | nil => cases fuel <;> rfl
  | cons c cs ih =>
    obtain ⟨fuel, rfl⟩ : ∃ f, fuel = f + 1 := ⟨fuel - 1, by simp at hf; omega⟩
    unfold tolowerRemoveWs
    rw [if_neg (by simp [h c (by simp)]), ih (fun x hx => h x (by simp [hx])) (by simp at hf; omega)]
    rfl

/-- C33.  Exactly the strings without white space are normalised in finite time. -/
theorem c33_loop_terminates_iff (s : Bytes) :
    (∃ fuel out, tolowerRemoveWs fuel s = some out) ↔ ∀ c ∈ s, isSpace c = false := by
  constructor
  · rintro ⟨fuel, out, e⟩ c hc
    cases hs : isSpace c with
    | false => rfl
    | true => rw [tolower_none ⟨c, hc, hs⟩] at e; simp at e
  · exact fun h => ⟨s.length, _, tolower_some h (Nat.le_refl _)⟩

/-- C33 is violated: the handshake never returns for a client that offers two subprotocols in the
usual notation. -/
theorem c33_diverges_violated (sha1 : Bytes → Bytes) :
    ∃ input : Bytes, input = render [] [(lit "Sec-WebSocket-Key", lit "abc"), (lit "Sec-WebSocket-Protocol", lit "binary, chat")] ∧
      ∀ fuel, handshake sha1 fuel input = none := by
  refine ⟨_, rfl, fun fuel => ?_⟩
  have hp : ∃ r n, parse (render [] [(lit "Sec-WebSocket-Key", lit "abc"), (lit "Sec-WebSocket-Protocol", lit "binary, chat")]) =
      some (.ok (some (r, n))) ∧
      r.fields = [(lit "Sec-WebSocket-Key", lit "abc"), (lit "Sec-WebSocket-Protocol", lit "binary, chat")] :=
    ⟨{ fields := [(lit "Sec-WebSocket-Key", lit "abc"), (lit "Sec-WebSocket-Protocol", lit "binary, chat")] }, 80,
      by decide +kernel, rfl⟩
  obtain ⟨r, n, e, hr⟩ := hp
  unfold handshake
  rw [e]
  simp only [Option.bind_eq_bind, Option.bind_some, hr]
  have : scanFields fuel [(lit "Sec-WebSocket-Key", lit "abc"), (lit "Sec-WebSocket-Protocol", lit "binary, chat")] (none, [44], [44]) = none := by
    simp only [scanFields]
    have h1 : extend fuel (lit "Sec-WebSocket-Protocol") (lit "Sec-WebSocket-Key") [44] (lit "abc") = some [44] :=
      if_neg (by decide +kernel)
    have h2 : extend fuel (lit "Sec-WebSocket-Version") (lit "Sec-WebSocket-Key") [44] (lit "abc") = some [44] :=
      if_neg (by decide +kernel)
    have h3 : extend fuel (lit "Sec-WebSocket-Protocol") (lit "Sec-WebSocket-Protocol") [44] (lit "binary, chat") =
      addToList fuel [44] (lit "binary, chat") := if_pos (by decide +kernel)
    rw [h1, Option.bind_some, h2, Option.bind_some, h3]
    have : addToList fuel [44] (lit "binary, chat") = none := tolower_none ⟨32, by decide +kernel, rfl⟩ fuel
    rw [this]; rfl
  rw [this]; rfl

/-- a field whose value goes through the normaliser -/
def isListField (k : Bytes) : Bool := caseEq k (lit "Sec-WebSocket-Protocol") || caseEq k (lit "Sec-WebSocket-Version")

theorem toLower_space (c : UInt8) : isSpace c = false → isSpace (toLower c) = false := by
  have : ∀ n : Fin 256, isSpace (UInt8.ofNat n) = false → isSpace (toLower (UInt8.ofNat n)) = false := by decide +kernel
  simpa using this ⟨c.toNat, c.toNat_lt⟩

theorem addToList_ok {list value : Bytes} {fuel : Nat} (hf : 255 ≤ fuel) (hl : ∀ c ∈ list, isSpace c = false)
    (hv : ∀ c ∈ value, isSpace c = false) :
    ∃ out, addToList fuel list value = some out ∧ (∀ c ∈ out, isSpace c = false) ∧ out.length ≤ 255 := by
  have hs : ∀ c ∈ (list ++ value ++ [44]).take 255, isSpace c = false := by
    intro c hc
    have := List.mem_of_mem_take hc
    simp only [List.mem_append, List.mem_singleton] at this
    rcases this with (h | h) | h
    · exact hl c h
    · exact hv c h
    · subst h; rfl
  refine ⟨_, tolower_some hs (by simp; omega), ?_, by simp; omega⟩
  intro c hc
  obtain ⟨d, hd, rfl⟩ := List.mem_map.1 hc
  exact toLower_space d (hs d hd)

theorem scanFields_ok {fuel : Nat} (hf : 255 ≤ fuel) : ∀ (fs : List (Bytes × Bytes)) (c : Option Bytes) (p v : Bytes),
    (∀ f ∈ fs, isListField f.1 = true → ∀ x ∈ f.2, isSpace x = false) →
    (∀ x ∈ p, isSpace x = false) → (∀ x ∈ v, isSpace x = false) →
    ∃ out, scanFields fuel fs (c, p, v) = some out := by
  intro fs
  induction fs with
  | nil => intro c p v _ _ _; exact ⟨_, rfl⟩
  | cons f fs ih =>
    intro c p v hfs hp hv
    obtain ⟨k, val⟩ := f
    have hval := hfs (k, val) (by simp)
    simp only [isListField, Bool.or_eq_true] at hval
    have hfs' : ∀ f ∈ fs, isListField f.1 = true → ∀ x ∈ f.2, isSpace x = false := fun f hf => hfs f (by simp [hf])
    obtain ⟨p', ep, hp'⟩ : ∃ p', extend fuel (lit "Sec-WebSocket-Protocol") k p val = some p' ∧
        ∀ x ∈ p', isSpace x = false := by
      unfold extend; split
      · rename_i h
        obtain ⟨o, a, b, _⟩ := addToList_ok hf hp (hval (.inl h))
        exact ⟨o, a, b⟩
      · exact ⟨p, rfl, hp⟩
    obtain ⟨v', ev, hv'⟩ : ∃ v', extend fuel (lit "Sec-WebSocket-Version") k v val = some v' ∧
        ∀ x ∈ v', isSpace x = false := by
      unfold extend; split
      · rename_i h
        obtain ⟨o, a, b, _⟩ := addToList_ok hf hv (hval (.inr h))
        exact ⟨o, a, b⟩
      · exact ⟨v, rfl, hv⟩
    obtain ⟨out, e⟩ := ih (if caseEq k (lit "Sec-WebSocket-Key") then some val else c) p' v' hfs' hp' hv'
    refine ⟨out, ?_⟩
    simp only [scanFields, ep, ev, Option.bind_some, e]

/-- C33, partly.  The handshake terminates on every request whose protocol and version fields contain
no white space (255 iterations are enough for each).
Missing: requests with white space there, for which the claim is false. -/
theorem c33_terminates_partial (sha1 : Bytes → Bytes) (input : Bytes)
    (h : ∀ r n, parse input = some (.ok (some (r, n))) →
      ∀ f ∈ r.fields, isListField f.1 = true → ∀ x ∈ f.2, isSpace x = false) :
    ∀ fuel, 255 ≤ fuel → ∃ o, handshake sha1 fuel input = some o := by
  intro fuel hf
  unfold handshake
  rcases parse_cases input with ⟨w, e, _⟩ | e | ⟨r, n, e, _⟩
  · rw [e]; exact ⟨_, rfl⟩
  · rw [e]; exact ⟨_, rfl⟩
  · rw [e]
    simp only [Option.bind_eq_bind, Option.bind_some]
    obtain ⟨⟨c, p, v⟩, es⟩ := scanFields_ok hf r.fields none [44] [44] (h r n e) (by decide) (by decide)
    rw [es]
    simp only [Option.bind_some]
    cases c with
    | none => exact ⟨_, rfl⟩
    | some ch =>
      simp only
      split
      · exact ⟨_, rfl⟩
      split
      · exact ⟨_, rfl⟩
      · split
        · exact ⟨_, rfl⟩
        · split <;> exact ⟨_, rfl⟩

/-- the value of the last field with the given name -/
def lastValue (name : Bytes) (fields : List (Bytes × Bytes)) : Option Bytes :=
  ((fields.filter fun f => caseEq f.1 name).map Prod.snd).getLast?

theorem scanFields_challenge {fuel : Nat} : ∀ (fs : List (Bytes × Bytes)) (c : Option Bytes) (p v : Bytes)
    (out : Option Bytes × Bytes × Bytes), scanFields fuel fs (c, p, v) = some out →
    out.1 = (lastValue (lit "Sec-WebSocket-Key") fs).or c := by
  intro fs
  induction fs with
  | nil =>
    intro c p v out h
    simp only [scanFields, Option.some.injEq] at h
    subst h; rfl
  | cons f fs ih =>
    intro c p v out h
    obtain ⟨k, val⟩ := f
    simp only [scanFields] at h
    rw [Option.bind_eq_some_iff] at h
    obtain ⟨p', _, h⟩ := h
    rw [Option.bind_eq_some_iff] at h
    obtain ⟨v', _, h⟩ := h
    rw [ih _ _ _ _ h]
    simp only [lastValue, List.filter_cons]
    cases hk : caseEq k (lit "Sec-WebSocket-Key") with
    | false => simp
    | true =>
      simp only [if_true, List.map_cons, List.getLast?_cons]
      cases ((fs.filter fun f => caseEq f.1 (lit "Sec-WebSocket-Key")).map Prod.snd).getLast? <;> simp

theorem acceptKey_spec (sha1 : Bytes → Bytes) (ch : Bytes) :
    ∃ a, acceptKey sha1 ch = some a ∧ Base64.IsBase64 (sha1 (ch ++ magicUuid)) a ∧
      a.length + 1 = Base64.encodedSize (sha1 (ch ++ magicUuid)).length := by
  obtain ⟨out, h1, h2, h3, h4⟩ := Base64.c37_encode_correct (sha1 (ch ++ magicUuid))
  refine ⟨out, ?_, h4, by simpa using h3⟩
  unfold acceptKey
  rw [h1]
  simp only [Option.map_some, Option.some.injEq]
  unfold Base64.cstr
  exact (takeWhile_app (fun x hx => by simp; rintro rfl; exact h2 hx) (by simp)).1

/-- C61.  Whenever the handshake answers, the answer is a 101 response whose accept key is the
base64 text of SHA-1 of the client's last key followed by the RFC 6455 GUID. -/
theorem c61_accept_key (sha1 : Bytes → Bytes) (fuel : Nat) (input : Bytes) (n : Nat) (reply : Bytes)
    (h : handshake sha1 fuel input = some (.ok (some (n, reply)))) :
    n ≤ input.length ∧ reply.length < 512 ∧
    ∃ r ch acc rest, parse input = some (.ok (some (r, n))) ∧ lastValue (lit "Sec-WebSocket-Key") r.fields = some ch ∧
      Base64.IsBase64 (sha1 (ch ++ lit "258EAFA5-E914-47DA-95CA-C5AB0DC85B11")) acc ∧
      reply = lit "HTTP/1.1 101 Switching Protocols\r\nUpgrade: websocket\r\nConnection: Upgrade\r\nSec-WebSocket-Accept: " ++
        acc ++ lit "\r\n" ++ rest ++ lit "\r\n" ∧
      rest ∈ [[], lit "Sec-WebSocket-Protocol: char\r\n", lit "Sec-WebSocket-Version: 13\r\n",
        lit "Sec-WebSocket-Protocol: char\r\nSec-WebSocket-Version: 13\r\n"] := by
  unfold handshake at h
  rcases parse_cases input with ⟨w, e, _⟩ | e | ⟨r, n', e, hn, _, _⟩
  · rw [e] at h; simp at h
  · rw [e] at h; simp at h
  · rw [e] at h
    simp only [Option.bind_eq_bind, Option.bind_some] at h
    rw [Option.bind_eq_some_iff] at h
    obtain ⟨⟨c, p, v⟩, es, h⟩ := h
    have hc := scanFields_challenge _ _ _ _ _ es
    simp only [Option.or_none] at hc
    cases c with
    | none => simp at h
    | some ch =>
      simp only at h
      obtain ⟨a, ha, hb, hal⟩ := acceptKey_spec sha1 ch
      split at h
      · simp at h
      split at h
      · simp at h
      · rw [ha] at h
        simp only at h
        split at h
        · rename_i hl
          simp only [Option.some.injEq, Outcome.ok.injEq, Prod.mk.injEq] at h
          obtain ⟨rfl, rfl⟩ := h
          refine ⟨hn, hl, r, ch, a, (if decide (p.length ≠ 1) then lit "Sec-WebSocket-Protocol: char\r\n" else []) ++
            (if decide (v.length ≠ 1) then lit "Sec-WebSocket-Version: 13\r\n" else []), e, hc.symm, hb, ?_, ?_⟩
          · have hstr : lit "HTTP/1.1 101 Switching Protocols\r\nUpgrade: websocket\r\nConnection: Upgrade\r\nSec-WebSocket-Accept: " =
              lit "HTTP/1.1 101 Switching Protocols\r\n" ++ lit "Upgrade: websocket\r\n" ++ lit "Connection: Upgrade\r\n" ++
              lit "Sec-WebSocket-Accept: " := by decide +kernel
            rw [hstr]
            simp only [replyText, List.append_assoc]
          · have hstr : lit "Sec-WebSocket-Protocol: char\r\nSec-WebSocket-Version: 13\r\n" =
              lit "Sec-WebSocket-Protocol: char\r\n" ++ lit "Sec-WebSocket-Version: 13\r\n" := by decide +kernel
            rw [hstr]
            cases decide (p.length ≠ 1) <;> cases decide (v.length ≠ 1) <;> simp
        · simp at h

/-- C61.  Every well-formed request with a key and no protocol or version fields is answered. -/
theorem c61_answers (sha1 : Bytes → Bytes) (hsha : ∀ x, (sha1 x).length = 20) (path : Bytes) (fields : List (Bytes × Bytes))
    (tail : Bytes) (hp : PathOk path) (hf : ∀ f ∈ fields, FieldOk f ∧ isListField f.1 = false ∧ isContent f.1 = false)
    (hn : fields.length ≤ 32) (ch : Bytes) (hk : lastValue (lit "Sec-WebSocket-Key") fields = some ch) (fuel : Nat) :
    ∃ acc, Base64.IsBase64 (sha1 (ch ++ lit "258EAFA5-E914-47DA-95CA-C5AB0DC85B11")) acc ∧
      handshake sha1 fuel (render path fields ++ tail) = some (.ok (some ((render path fields).length,
        lit "HTTP/1.1 101 Switching Protocols\r\nUpgrade: websocket\r\nConnection: Upgrade\r\nSec-WebSocket-Accept: " ++
        acc ++ lit "\r\n\r\n"))) := by
  have hfil : (fields.filter fun f => !isContent f.1) = fields := by
    rw [List.filter_eq_self]; intro f h; simp [(hf f h).2.2]
  obtain ⟨r, e, hr⟩ := c32_round_trip path fields tail hp (fun f h => (hf f h).1) (by rw [hfil]; exact hn)
  rw [hfil] at hr
  obtain ⟨a, ha, hb, hal⟩ := acceptKey_spec sha1 ch
  refine ⟨a, hb, ?_⟩
  have hscan : ∀ (fs : List (Bytes × Bytes)) (c : Option Bytes), (∀ f ∈ fs, isListField f.1 = false) →
      ∃ c', scanFields fuel fs (c, [44], [44]) = some (c', [44], [44]) := by
    intro fs
    induction fs with
    | nil => intro c _; exact ⟨c, rfl⟩
    | cons f fs ih =>
      intro c h
      obtain ⟨k, val⟩ := f
      have hk := h (k, val) (by simp)
      simp only [isListField, Bool.or_eq_false_iff] at hk
      obtain ⟨c', e⟩ := ih (if caseEq k (lit "Sec-WebSocket-Key") then some val else c) (fun f hf => h f (by simp [hf]))
      refine ⟨c', ?_⟩
      simp only [scanFields, extend, hk.1, hk.2, Bool.false_eq_true, if_false, Option.bind_some, e]
  obtain ⟨c', es⟩ := hscan fields none (fun f h => (hf f h).2.1)
  have hc := scanFields_challenge _ _ _ _ _ es
  rw [hk] at hc
  simp only [Option.or_none] at hc
  subst hc
  have hstr : lit "HTTP/1.1 101 Switching Protocols\r\nUpgrade: websocket\r\nConnection: Upgrade\r\nSec-WebSocket-Accept: " ++ a ++ lit "\r\n\r\n"
      = replyText a false false := by
    have h1 : lit "HTTP/1.1 101 Switching Protocols\r\nUpgrade: websocket\r\nConnection: Upgrade\r\nSec-WebSocket-Accept: " =
      lit "HTTP/1.1 101 Switching Protocols\r\n" ++ lit "Upgrade: websocket\r\n" ++ lit "Connection: Upgrade\r\n" ++
      lit "Sec-WebSocket-Accept: " := by decide +kernel
    have h2 : lit "\r\n\r\n" = lit "\r\n" ++ lit "\r\n" := by decide +kernel
    rw [h1, h2]
    simp only [replyText, Bool.false_eq_true, if_false, List.append_assoc, List.nil_append]
  rw [hstr]
  have hlen : (replyText a false false).length < 512 := by
    rw [← hstr]
    have ha28 : a.length = 28 := by rw [hsha] at hal; simpa [Base64.encodedSize] using hal
    have h1 : (lit "HTTP/1.1 101 Switching Protocols\r\nUpgrade: websocket\r\nConnection: Upgrade\r\nSec-WebSocket-Accept: ").length ≤ 100 := by
      decide +kernel
    have h2 : (lit "\r\n\r\n").length = 4 := by decide +kernel
    simp only [List.length_append]
    omega
  unfold handshake
  rw [e]
  simp only [Option.bind_eq_bind, Option.bind_some, hr, es]
  rw [if_neg (by simp), if_neg (by simp), ha]
  simp only [List.length_cons, List.length_nil, ne_eq, Nat.zero_add, not_true_eq_false, decide_false]
  rw [if_pos hlen]

example : lastValue (lit "Sec-WebSocket-Key") [(lit "Host", lit "x"), (lit "sec-websocket-key", lit "abc")] = some (lit "abc") := by
  decide +kernel

theorem addToList_13 {fuel : Nat} (hf : 255 ≤ fuel) : addToList fuel [44] (lit "13") = some (lit ",13,") := by
  unfold addToList
  rw [tolower_some (by decide +kernel) (by have : ((([44] ++ lit "13" ++ [44]) : Bytes).take 255).length = 4 := by decide +kernel
                                           omega)]
  decide +kernel

/-- C61.  Every well-formed request as browsers send it, with a key, no protocol field and at most one version field,
which says 13, is answered. -/
theorem c61_browsers (sha1 : Bytes → Bytes) (hsha : ∀ x, (sha1 x).length = 20) (path : Bytes) (fields : List (Bytes × Bytes))
    (tail : Bytes) (hp : PathOk path)
    (hf : ∀ f ∈ fields, FieldOk f ∧ isContent f.1 = false ∧ caseEq f.1 (lit "Sec-WebSocket-Protocol") = false ∧
      (caseEq f.1 (lit "Sec-WebSocket-Version") = true → f.2 = lit "13"))
    (hv : (fields.filter fun f => caseEq f.1 (lit "Sec-WebSocket-Version")).length ≤ 1)
    (hn : fields.length ≤ 32) (ch : Bytes) (hk : lastValue (lit "Sec-WebSocket-Key") fields = some ch) (fuel : Nat) (hfuel : 255 ≤ fuel) :
    ∃ acc, Base64.IsBase64 (sha1 (ch ++ lit "258EAFA5-E914-47DA-95CA-C5AB0DC85B11")) acc ∧
      handshake sha1 fuel (render path fields ++ tail) = some (.ok (some ((render path fields).length,
        lit "HTTP/1.1 101 Switching Protocols\r\nUpgrade: websocket\r\nConnection: Upgrade\r\nSec-WebSocket-Accept: " ++
        acc ++ lit "\r\n" ++ (if fields.any fun f => caseEq f.1 (lit "Sec-WebSocket-Version") then lit "Sec-WebSocket-Version: 13\r\n" else []) ++
        lit "\r\n"))) := by
  have hfil : (fields.filter fun f => !isContent f.1) = fields := by
    rw [List.filter_eq_self]; intro f h; simp [(hf f h).2.1]
  obtain ⟨r, e, hr⟩ := c32_round_trip path fields tail hp (fun f h => (hf f h).1) (by rw [hfil]; exact hn)
  rw [hfil] at hr
  obtain ⟨a, ha, hb, hal⟩ := acceptKey_spec sha1 ch
  refine ⟨a, hb, ?_⟩
  have hplain : ∀ (fs : List (Bytes × Bytes)) (c : Option Bytes) (v : Bytes), (∀ f ∈ fs, caseEq f.1 (lit "Sec-WebSocket-Protocol") = false) →
      (∀ f ∈ fs, caseEq f.1 (lit "Sec-WebSocket-Version") = false) →
      ∃ c', scanFields fuel fs (c, [44], v) = some (c', [44], v) := by
    intro fs
    induction fs with
    | nil => intro c v _ _; exact ⟨c, rfl⟩
    | cons f fs ih =>
      intro c v h1 h2
      obtain ⟨k, val⟩ := f
      have k1 := h1 (k, val) (by simp)
      have k2 := h2 (k, val) (by simp)
      obtain ⟨c', e⟩ := ih (if caseEq k (lit "Sec-WebSocket-Key") then some val else c) v (fun f hf => h1 f (by simp [hf]))
        (fun f hf => h2 f (by simp [hf]))
      refine ⟨c', ?_⟩
      simp only at k1 k2
      simp only [scanFields, extend, k1, k2, Bool.false_eq_true, if_false, Option.bind_some, e]
  have hscan : ∀ (fs : List (Bytes × Bytes)) (c : Option Bytes), (∀ f ∈ fs, caseEq f.1 (lit "Sec-WebSocket-Protocol") = false ∧
        (caseEq f.1 (lit "Sec-WebSocket-Version") = true → f.2 = lit "13")) →
      (fs.filter fun f => caseEq f.1 (lit "Sec-WebSocket-Version")).length ≤ 1 →
      ∃ c', scanFields fuel fs (c, [44], [44]) =
        some (c', [44], if fs.any fun f => caseEq f.1 (lit "Sec-WebSocket-Version") then lit ",13," else [44]) := by
    intro fs
    induction fs with
    | nil => intro c _ _; exact ⟨c, rfl⟩
    | cons f fs ih =>
      intro c h hl
      obtain ⟨k, val⟩ := f
      obtain ⟨k1, k2⟩ := h (k, val) (by simp)
      simp only at k1 k2
      cases kv : caseEq k (lit "Sec-WebSocket-Version") with
      | false =>
        rw [List.filter_cons_of_neg (by simp [kv])] at hl
        obtain ⟨c', e⟩ := ih (if caseEq k (lit "Sec-WebSocket-Key") then some val else c) (fun f hf => h f (by simp [hf])) hl
        refine ⟨c', ?_⟩
        simp only [scanFields, extend, k1, kv, Bool.false_eq_true, if_false, Option.bind_some, e, List.any_cons, Bool.false_or]
      | true =>
        rw [List.filter_cons_of_pos (by simp [kv])] at hl
        have hnone : ∀ f ∈ fs, caseEq f.1 (lit "Sec-WebSocket-Version") = false := by
          have : (fs.filter fun f => caseEq f.1 (lit "Sec-WebSocket-Version")) = [] :=
            List.length_eq_zero_iff.1 (by simp only [List.length_cons] at hl; omega)
          intro f hf
          simpa using List.filter_eq_nil_iff.1 this f hf
        obtain ⟨c', e⟩ := hplain fs (if caseEq k (lit "Sec-WebSocket-Key") then some val else c) (lit ",13,")
          (fun f hf => (h f (by simp [hf])).1) hnone
        refine ⟨c', ?_⟩
        simp only [scanFields, extend, k1, kv, Bool.false_eq_true, if_false, if_true, Option.bind_some, k2 kv, addToList_13 hfuel,
          List.any_cons, Bool.true_or]
        rw [k2 kv] at e
        exact e
  obtain ⟨c', es⟩ := hscan fields none (fun f h => ⟨(hf f h).2.2.1, (hf f h).2.2.2⟩) hv
  have hc := scanFields_challenge _ _ _ _ _ es
  rw [hk] at hc
  simp only [Option.or_none] at hc
  subst hc
  generalize hany : (fields.any fun f => caseEq f.1 (lit "Sec-WebSocket-Version")) = b at es ⊢
  have hstr : lit "HTTP/1.1 101 Switching Protocols\r\nUpgrade: websocket\r\nConnection: Upgrade\r\nSec-WebSocket-Accept: " ++ a ++ lit "\r\n" ++
      (if b then lit "Sec-WebSocket-Version: 13\r\n" else []) ++ lit "\r\n" = replyText a false b := by
    have h1 : lit "HTTP/1.1 101 Switching Protocols\r\nUpgrade: websocket\r\nConnection: Upgrade\r\nSec-WebSocket-Accept: " =
      lit "HTTP/1.1 101 Switching Protocols\r\n" ++ lit "Upgrade: websocket\r\n" ++ lit "Connection: Upgrade\r\n" ++
      lit "Sec-WebSocket-Accept: " := by decide +kernel
    rw [h1]
    simp only [replyText, Bool.false_eq_true, if_false, List.append_assoc, List.nil_append]
  rw [hstr]
  have hlen : (replyText a false b).length < 512 := by
    rw [← hstr]
    have ha28 : a.length = 28 := by rw [hsha] at hal; simpa [Base64.encodedSize] using hal
    have h1 : (lit "HTTP/1.1 101 Switching Protocols\r\nUpgrade: websocket\r\nConnection: Upgrade\r\nSec-WebSocket-Accept: ").length ≤ 100 := by
      decide +kernel
    have h2 : (lit "\r\n").length = 2 := by decide +kernel
    have h3 : (if b then lit "Sec-WebSocket-Version: 13\r\n" else []).length ≤ 30 := by cases b <;> decide +kernel
    simp only [List.length_append]
    omega
  unfold handshake
  rw [e]
  simp only [Option.bind_eq_bind, Option.bind_some, hr, es]
  cases b with
  | false =>
    rw [if_neg (by simp), if_neg (by simp), ha]
    simp only [List.length_cons, List.length_nil, ne_eq, Nat.zero_add, not_true_eq_false, decide_false, Bool.false_eq_true, if_false]
    rw [if_pos hlen]
  | true =>
    rw [if_neg (by simp), if_neg (by simp only [if_true]; decide +kernel), ha]
    have h4 : (lit ",13,").length ≠ 1 := by decide +kernel
    simp only [if_true, h4, List.length_cons, List.length_nil, ne_eq, Nat.zero_add, not_true_eq_false, decide_false, not_false_eq_true, decide_true]
    rw [if_pos hlen]

/-- C61 is violated for subprotocols: a client offering `chat` is told that `char` was chosen. -/
theorem c61_protocol_violated :
    ∃ reply, handshake (fun _ => List.replicate 20 0) 255
        (render [] [(lit "Sec-WebSocket-Key", lit "abc"), (lit "Sec-WebSocket-Protocol", lit "chat")]) =
        some (.ok (some (72, reply))) ∧
      contains (lit "Sec-WebSocket-Protocol: char\r\n") reply = true ∧
      contains (lit "Sec-WebSocket-Protocol: chat\r\n") reply = false := by
  refine ⟨replyText (lit "AAAAAAAAAAAAAAAAAAAAAAAAAAA=") true false, by decide +kernel, by decide +kernel, by decide +kernel⟩

end Verif.Http
