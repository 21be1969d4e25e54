import Verif.Spec.Vec

/-!
# Byte vectors (C38)
-/

namespace Verif.Vec

/-- the vector's memory is what it says, and its bytes are inside -/
structure Ok (v : Vec) : Prop where
  mem : v.data.length = v.cap
  len : v.len ≤ v.cap

theorem reserve_ok {m size} {v v' : Vec} {r} (h : Ok v) (e : reserve m size v = (v', r)) :
    Ok v' ∧ v'.len = v.len ∧ v'.bytes = v.bytes ∧ v.cap ≤ v'.cap ∧ (r = true → size ≤ v'.cap) ∧
      (r = false → m size = none) := by
  unfold reserve at e
  split at e
  · rename_i hs
    cases e
    exact ⟨h, rfl, rfl, Nat.le_refl _, fun _ => hs, by simp⟩
  · rename_i hs
    split at e
    · rename_i hm; cases e
      exact ⟨h, rfl, rfl, Nat.le_refl _, by simp, fun _ => hm⟩
    · cases e
      have := h.mem; have := h.len
      refine ⟨⟨?_, ?_⟩, rfl, ?_, ?_, fun _ => Nat.le_refl _, by simp⟩
      · simp; omega
      · show v.len ≤ size; omega
      · show List.take v.len (v.data ++ _) = List.take v.len v.data
        rw [List.take_append_of_le_length (by omega)]
      · show v.cap ≤ size; omega

theorem grow_ok {m size} {v v' : Vec} {r} (h : Ok v) (hs : v.len + size < sizeT / 2)
    (e : grow m size v = (v', r)) :
    Ok v' ∧ v'.len = v.len ∧ v'.bytes = v.bytes ∧ (r = true → v.len + size ≤ v'.cap) ∧
      (r = false → ∃ n, m n = none) := by
  unfold grow at e
  have h1 : (v.len + size) % sizeT = v.len + size := Nat.mod_eq_of_lt (by unfold sizeT at *; omega)
  have h2 : (2 * (v.len + size)) % sizeT = 2 * (v.len + size) :=
    Nat.mod_eq_of_lt (by unfold sizeT at *; omega)
  rw [h1, h2] at e
  split at e
  · rename_i hc; cases e
    exact ⟨h, rfl, rfl, fun _ => by omega, by simp⟩
  · obtain ⟨a, b, c, -, d, f⟩ := reserve_ok h e
    exact ⟨a, b, c, fun hr => by have := d hr; omega, fun hr => ⟨_, f hr⟩⟩

theorem write_end {v : Vec} (h : Ok v) {b : Bytes} (hb : v.len + b.length ≤ v.cap) :
    ∃ d, writeAt v.data v.len b = .ok d ∧ d.length = v.cap ∧ d.take (v.len + b.length) = v.bytes ++ b := by
  have := h.mem
  refine ⟨_, writeAt_ok (by omega), ?_, ?_⟩
  · simp; omega
  · have h1 : (v.data.take v.len ++ b).length = v.len + b.length := by simp; omega
    rw [← h1, List.take_left']
    · rfl
    · rfl

theorem bytes_length {v : Vec} (h : Ok v) : v.bytes.length = v.len := by
  have := h.mem; have := h.len
  unfold Vec.bytes; rw [List.length_take]; omega

/-- one call: nothing is written outside the memory -/
theorem step_ok {o : Op} {v : Vec} (h : Ok v) (hs : v.len + o.size < sizeT / 2) :
    (∃ why, o.fast = true ∧ step o v = .abort why) ∨
    ∃ v' r, step o v = .ok (v', r) ∧ Ok v' ∧ v'.bytes = specStep o r v.bytes ∧
      v'.len ≤ v.len + o.size ∧ (o.roomy → r = true) := by
  have hl := bytes_length h
  cases o with
  | reserve m n =>
    generalize e : reserve m n v = q
    obtain ⟨v', r⟩ := q
    obtain ⟨a, b, c, -, -, f⟩ := reserve_ok h e
    refine .inr ⟨v', r, by rw [← e]; rfl, a, c, by omega, fun hr => ?_⟩
    cases r with
    | true => rfl
    | false => have := hr n; rw [f rfl] at this; cases this
  | assign m b =>
    right
    have h' : Ok { v with len := 0 } := ⟨h.mem, by simp⟩
    generalize e : reserve m b.length { v with len := 0 } = q
    obtain ⟨v', r⟩ := q
    obtain ⟨a, b1, c, -, d, f⟩ := reserve_ok h' e
    have b1 : v'.len = 0 := b1
    cases r with
    | false =>
      refine ⟨v', false, by simp only [step, e], a, ?_, by omega, fun hr => ?_⟩
      · show List.take v'.len _ = []
        rw [b1]; rfl
      · have := hr b.length; rw [f rfl] at this; cases this
    | true =>
      obtain ⟨dt, w1, w2, w3⟩ := write_end a (b := b) (by have := d rfl; omega)
      rw [b1] at w1 w3
      refine ⟨{ v' with data := dt, len := b.length }, true, ?_, ⟨w2, d rfl⟩, ?_, ?_, fun _ => rfl⟩
      · simp only [step, e, w1]; rfl
      · show dt.take b.length = b
        rw [Nat.zero_add] at w3
        rw [w3]; simp [Vec.bytes, b1]
      · show b.length ≤ v.len + b.length; omega
  | append m b =>
    right
    generalize e : grow m b.length v = q
    obtain ⟨v', r⟩ := q
    obtain ⟨a, b1, c, d, f⟩ := grow_ok h hs e
    cases r with
    | false =>
      refine ⟨v', false, by simp only [step, e], a, c, by omega, fun hr => ?_⟩
      obtain ⟨n, hn⟩ := f rfl
      have := hr n; rw [hn] at this; cases this
    | true =>
      have hc : v.len + b.length ≤ v'.cap := d rfl
      obtain ⟨dt, w1, w2, w3⟩ := write_end a (b := b) (by omega)
      have hm : (v'.len + b.length) % sizeT = v'.len + b.length := Nat.mod_eq_of_lt (by
        have : Op.size (.append m b) = b.length := rfl
        unfold sizeT at *; omega)
      refine ⟨{ v' with data := dt, len := v'.len + b.length }, true, ?_, ⟨w2, by rw [b1]; exact hc⟩, ?_, ?_,
        fun _ => rfl⟩
      · simp only [step, e, w1, Outcome.bind_ok, hm]
      · show dt.take (v'.len + b.length) = v.bytes ++ b
        rw [w3, c]
      · show v'.len + b.length ≤ v.len + b.length; omega
  | appendZero m n =>
    right
    generalize e : grow m n v = q
    obtain ⟨v', r⟩ := q
    obtain ⟨a, b1, c, d, f⟩ := grow_ok h hs e
    cases r with
    | false =>
      refine ⟨v', false, by simp only [step, e], a, c, by omega, fun hr => ?_⟩
      obtain ⟨n, hn⟩ := f rfl
      have := hr n; rw [hn] at this; cases this
    | true =>
      have hc : v.len + n ≤ v'.cap := d rfl
      obtain ⟨dt, w1, w2, w3⟩ := write_end a (b := List.replicate n 0) (by simp; omega)
      rw [List.length_replicate] at w3
      have hm : (v'.len + n) % sizeT = v'.len + n := Nat.mod_eq_of_lt (by
        have : Op.size (.appendZero m n) = n := rfl
        unfold sizeT at *; omega)
      refine ⟨{ v' with data := dt, len := v'.len + n }, true, ?_, ⟨w2, by rw [b1]; exact hc⟩, ?_, ?_,
        fun _ => rfl⟩
      · simp only [step, e, w1, Outcome.bind_ok, hm]
      · show dt.take (v'.len + n) = v.bytes ++ _
        rw [w3, c]
      · show v'.len + n ≤ v.len + n; omega
  | clear => exact .inr ⟨{ v with len := 0 }, true, rfl, ⟨h.mem, by simp⟩, rfl, by simp, fun _ => rfl⟩
  | bzero =>
    right
    obtain ⟨dt, w1, w2, w3⟩ := write_end (v := { v with len := 0 }) ⟨h.mem, by simp⟩
      (b := List.replicate v.cap 0) (by simp)
    have w1 : writeAt v.data 0 (List.replicate v.cap 0) = .ok dt := w1
    refine ⟨{ v with data := dt }, true, by simp only [step, w1]; rfl, ⟨w2, h.len⟩, ?_, Nat.le_refl _,
      fun _ => rfl⟩
    show dt.take v.len = List.replicate v.bytes.length 0
    have w2 : dt.length = v.cap := w2
    have w3 : dt = List.replicate v.cap 0 := by
      rw [List.length_replicate] at w3
      simpa [Vec.bytes, ← w2] using w3
    have := h.len
    rw [hl, w3, List.take_replicate]
    congr 1; omega
  | fast8 x =>
    by_cases hc : v.len < v.cap
    · right
      obtain ⟨dt, w1, w2, w3⟩ := write_end h (b := [x]) (by simp; omega)
      refine ⟨{ v with data := dt, len := v.len + 1 }, true, ?_, ⟨w2, by exact hc⟩, w3, Nat.le_refl _, fun _ => rfl⟩
      simp only [step, if_pos hc, w1]; rfl
    · exact .inl ⟨_, rfl, by simp only [step, if_neg hc]; rfl⟩
  | fast32 a b c d =>
    by_cases hc : v.len + 4 ≤ v.cap
    · by_cases ha : v.len % 4 = 0
      · right
        obtain ⟨dt, w1, w2, w3⟩ := write_end h (b := [a, b, c, d]) (by simpa using hc)
        refine ⟨{ v with data := dt, len := v.len + 4 }, true, ?_, ⟨w2, by exact hc⟩, w3, Nat.le_refl _, fun _ => rfl⟩
        simp only [step, hc, ha, w1, not_true, if_false, ne_eq]; rfl
      · exact .inl ⟨"vec_fast_append_32: alignment", rfl, by simp [step, hc, ha]⟩
    · exact .inl ⟨_, rfl, by simp only [step, hc, not_false_iff, if_true]; rfl⟩

/-- C38: whatever is done with a vector, and whether memory is found for it or not, its bytes are
those of a list on which the same is done, nothing is written outside its memory, and it only fails
an assertion in the two operations that ask for room made before. -/
theorem c38_vec {os : List Op} {m : Heap} {cap : Nat} (hs : total os < 9223372036854775808) :
    (∃ why, (∃ o ∈ os, o.fast = true) ∧ run os (init m cap).1 = .abort why) ∨
    ∃ v rs, run os (init m cap).1 = .ok (v, rs) ∧ v.data.length = v.cap ∧ v.len ≤ v.cap ∧
      v.bytes = specRun os rs [] ∧ rs.length = os.length ∧
      ((∀ o ∈ os, o.roomy) → ∀ r ∈ rs, r = true) := by
  have h0 : Ok (init m cap).1 ∧ (init m cap).1.len = 0 := by
    obtain ⟨a, b, -⟩ := reserve_ok (v := { data := [], len := 0, cap := 0 }) ⟨rfl, by simp⟩
      (v' := (init m cap).1) (r := (init m cap).2) (m := m) (size := cap) rfl
    exact ⟨a, b⟩
  have hb : (init m cap).1.bytes = [] := by
    unfold Vec.bytes; rw [h0.2]; rfl
  have key : ∀ (os : List Op) (v : Vec), Ok v → v.len + total os < sizeT / 2 →
      (∃ why, (∃ o ∈ os, o.fast = true) ∧ run os v = .abort why) ∨
      ∃ v' rs, run os v = .ok (v', rs) ∧ Ok v' ∧ v'.bytes = specRun os rs v.bytes ∧
        rs.length = os.length ∧ ((∀ o ∈ os, o.roomy) → ∀ r ∈ rs, r = true) := by
    intro os
    induction os with
    | nil => intro v h _; exact .inr ⟨v, [], rfl, h, rfl, rfl, by simp⟩
    | cons o os ih =>
      intro v h hs
      have hs : v.len + (o.size + total os) < sizeT / 2 := hs
      rcases step_ok (o := o) h (by omega) with ⟨why, h1, h2⟩ | ⟨v1, r, e, h1, h2, h3, h4⟩
      · exact .inl ⟨why, ⟨o, by simp, h1⟩, by simp only [run, h2]; rfl⟩
      · rcases ih v1 h1 (by omega) with ⟨why, ⟨p, h5, h6⟩, h7⟩ | ⟨v2, rs, e2, h5, h6, h7, h8⟩
        · exact .inl ⟨why, ⟨p, by simp [h5], h6⟩, by simp only [run, e, h7, Outcome.bind_ok, Outcome.bind_abort]⟩
        · refine .inr ⟨v2, r :: rs, by simp only [run, e, e2, Outcome.bind_ok], h5, by rw [h6, h2]; rfl, by simp [h7], ?_⟩
          intro hr r' hr'
          rcases List.mem_cons.1 hr' with rfl | hr'
          · exact h4 (hr o (by simp))
          · exact h8 (fun p hp => hr p (by simp [hp])) r' hr'
  rcases key os _ h0.1 (by rw [h0.2]; unfold sizeT; omega) with h | ⟨v, rs, h1, h2, h3, h4, h5⟩
  · exact .inl h
  · exact .inr ⟨v, rs, h1, h2.mem, h2.len, by rw [h3, hb], h4, h5⟩

/-- memory for everything -/
def plenty : Heap := fun _ => some fun _ => 170

/-- growing, failing to grow, and filling what was reserved -/
example :
    (match run [.append plenty [1, 2], .fast8 3, .append (fun _ => none) [4, 5], .reserve plenty 12,
        .fast8 6, .fast32 7 8 9 10, .appendZero plenty 2] (init plenty 0).1 with
      | .ok (v, rs) => some (v.bytes, rs, v.cap)
      | _ => none) =
    some ([1, 2, 3, 6, 7, 8, 9, 10, 0, 0], [true, true, false, true, true, true, true], 12) := by
  decide +kernel

/-- appending without room made before fails the assertion -/
example : run [.append plenty [1, 2], .fast8 3, .fast8 4, .fast8 5] (init plenty 0).1 =
    .abort "vec_fast_append_8: len < cap" := by
  decide +kernel

end Verif.Vec
