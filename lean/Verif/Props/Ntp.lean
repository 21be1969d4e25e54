import Verif.Model.Ntp
import Verif.Model.Server

/-! # C113: comparing clocks -/

namespace Verif.Ntp

/-- what a client sends: `junk` stands for the fields that the server fills in -/
def request (pad : Bytes) (t0 : Nat) (junk : Bytes) : Bytes := [160] ++ pad ++ be32 t0 ++ junk ++ be32 0

/-- what a client makes of the answer, for the server's statistics -/
def report (answer : Bytes) (t3 : Nat) : Bytes := answer.take 16 ++ be32 t3

theorem time_be32 (l : Bytes) (n : Nat) (r : Bytes) (off : Nat) (h : l.length = off) :
    time (l ++ be32 n ++ r) off = n % 4294967296 := by
  unfold time
  rw [List.append_assoc, ← h, List.drop_left]
  show rd32 _ _ _ _ = _
  unfold rd32
  simp only [toNat_ofNat8]
  omega

/-- a message of four times -/
def four (head : Bytes) (t0 t1 t2 t3 : Nat) : Bytes := head ++ be32 t0 ++ be32 t1 ++ be32 t2 ++ be32 t3

theorem four_times {head : Bytes} (hh : head.length = 4) (t0 t1 t2 t3 : Nat) :
    time (four head t0 t1 t2 t3) 4 = t0 % 4294967296 ∧ time (four head t0 t1 t2 t3) 8 = t1 % 4294967296 ∧
      time (four head t0 t1 t2 t3) 12 = t2 % 4294967296 ∧ time (four head t0 t1 t2 t3) 16 = t3 % 4294967296 := by
  unfold four
  refine ⟨?_, ?_, ?_, ?_⟩
  · rw [List.append_assoc, List.append_assoc]
    exact time_be32 head t0 _ 4 hh
  · rw [List.append_assoc]
    exact time_be32 (head ++ be32 t0) t1 _ 8 (by simp [hh])
  · exact time_be32 (head ++ be32 t0 ++ be32 t1) t2 _ 12 (by simp [hh])
  · have := time_be32 (head ++ be32 t0 ++ be32 t1 ++ be32 t2) t3 [] 16 (by simp [hh])
    rwa [List.append_nil] at this

theorem stamped (pad junk : Bytes) (t0 now later : Nat) (hp : pad.length = 3) (hj : junk.length = 8) :
    sent (taken (request pad t0 junk) now) later = four (160 :: pad) t0 now later 0 := by
  have e1 : (request pad t0 junk).take 8 = 160 :: pad ++ be32 t0 := by
    unfold request
    rw [List.append_assoc, List.take_append_of_le_length (by simp [hp]), List.take_of_length_le (by simp [hp])]
    rfl
  have e2 : (request pad t0 junk).drop 12 = junk.drop 4 ++ be32 0 := by
    unfold request
    rw [List.append_assoc, List.drop_append, List.drop_of_length_le (by simp [hp])]
    simp only [List.length_append, List.length_cons, List.length_nil, hp, be32_length, List.nil_append]
    rw [List.drop_append_of_le_length (by omega)]
  have e3 : (160 :: pad ++ be32 t0 ++ be32 now ++ (junk.drop 4 ++ be32 0)).take 12 = 160 :: pad ++ be32 t0 ++ be32 now := by
    rw [List.take_append_of_le_length (by simp [hp]), List.take_of_length_le (by simp [hp])]
  have e4 : (160 :: pad ++ be32 t0 ++ be32 now ++ (junk.drop 4 ++ be32 0)).drop 16 = be32 0 := by
    rw [← List.append_assoc, List.drop_append, List.drop_of_length_le (by simp [hp, hj])]
    simp only [List.length_append, List.length_cons, hp, hj, be32_length, List.length_drop, List.nil_append]
    rfl
  unfold sent taken
  rw [e1, e2, e3, e4]
  rfl

/-- The answer to a request is the request with the time at which it was taken up and the time at which it goes
out, both of the server's clock modulo 2^32; what follows the request is left alone. -/
theorem c113_answer (pad junk rest : Bytes) (t0 now later : Nat) (hp : pad.length = 3) (hj : junk.length = 8) :
    ∃ f, handle now (request pad t0 junk ++ rest) = .ok (.reply f) ∧
      f later = four (160 :: pad) t0 now later 0 := by
  have hl : (request pad t0 junk).length = 20 := by simp [request, hp, hj]
  have ht : (request pad t0 junk ++ rest).take 20 = request pad t0 junk := by
    rw [List.take_append_of_le_length (Nat.le_of_eq hl.symm), List.take_of_length_le (Nat.le_of_eq hl)]
  have hl' : ¬ (request pad t0 junk ++ rest).length < 20 := by
    rw [List.length_append, hl]
    omega
  unfold handle
  rw [if_neg hl', ht]
  have h0 : time (request pad t0 junk) 16 = 0 := by
    have := time_be32 ([160] ++ pad ++ be32 t0 ++ junk) 0 [] 16 (by simp [hp, hj])
    rw [List.append_nil] at this
    exact this
  rw [if_neg (by rw [h0]; simp)]
  refine ⟨_, rfl, ?_⟩
  exact stamped pad junk t0 now later hp hj

example : ∃ f, handle 5000000000 (request [0, 0, 0] 7 [1, 2, 3, 4, 5, 6, 7, 8] ++ [9]) = .ok (.reply f) ∧
    f 5000000001 = four [160, 0, 0, 0] 7 5000000000 5000000001 0 :=
  c113_answer [0, 0, 0] [1, 2, 3, 4, 5, 6, 7, 8] [9] 7 5000000000 5000000001 rfl rfl

example : four [160, 0, 0, 0] 7 5000000000 5000000001 0 =
    [160, 0, 0, 0, 0, 0, 0, 7, 42, 5, 242, 0, 42, 5, 242, 1, 0, 0, 0, 0] := by decide +kernel

/-- the readings of two clocks, of which the server's is ahead by `theta`, at the four times of an exchange -/
structure Exchange (T0 T1 T2 T3 : Nat) (theta : Int) (t0 t3 : Nat) : Prop where
  order : T0 ≤ T1 ∧ T1 ≤ T2 ∧ T2 ≤ T3
  client0 : ((t0 : Int) + theta - T0) % 4294967296 = 0
  client3 : ((t3 : Int) + theta - T3) % 4294967296 = 0
  /-- a reading is never 0 at the end of an exchange -/
  sane : t3 % 4294967296 ≠ 0

theorem diff_eq {a b : Nat} {x : Int} (h : ((a : Int) - b - x) % 4294967296 = 0) (h1 : -2147483648 ≤ x)
    (h2 : x < 2147483648) : diff (a % 4294967296) (b % 4294967296) = x := by
  unfold diff
  omega

/-- the four differences of an exchange -/
theorem exchange_diffs {T0 T1 T2 T3 theta t0 t3} (h : Exchange T0 T1 T2 T3 theta t0 t3)
    (hr : ((T3 : Int) - T0) < 1073741824) (ht : -2147483648 ≤ theta - (T3 - T0) ∧ theta + (T3 - T0) < 2147483648) :
    diff (t3 % 4294967296) (t0 % 4294967296) = T3 - T0 ∧ diff (T2 % 4294967296) (T1 % 4294967296) = T2 - T1 ∧
      diff (T1 % 4294967296) (t0 % 4294967296) = theta + (T1 - T0) ∧
      diff (T2 % 4294967296) (t3 % 4294967296) = theta - (T3 - T2) := by
  obtain ⟨⟨o1, o2, o3⟩, c0, c3, -⟩ := h
  refine ⟨diff_eq ?_ ?_ ?_, diff_eq ?_ ?_ ?_, diff_eq ?_ ?_ ?_, diff_eq ?_ ?_ ?_⟩ <;> omega

theorem tdiv_two (x : Int) : x - 1 ≤ 2 * x.tdiv 2 ∧ 2 * x.tdiv 2 ≤ x + 1 := by
  rcases Int.le_total 0 x with h | h
  · rw [Int.tdiv_eq_ediv_of_nonneg h]
    omega
  · have e : x.tdiv 2 = -((-x) / 2) := by
      rw [← Int.tdiv_eq_ediv_of_nonneg (by omega), Int.neg_tdiv, Int.neg_neg]
    rw [e]
    omega

/-- what is logged for a report -/
theorem handle_report {head : Bytes} (hh : head.length = 4) (now t0 t1 t2 t3 : Nat) (h3 : t3 % 4294967296 ≠ 0) :
    handle now (four head t0 t1 t2 t3) = (
      int32 (diff (t3 % 4294967296) (t0 % 4294967296) - diff (t2 % 4294967296) (t1 % 4294967296))) >>= fun delta =>
      (int32 (diff (t1 % 4294967296) (t0 % 4294967296) + diff (t2 % 4294967296) (t3 % 4294967296))) >>= fun sum =>
      Outcome.ok (Result.stats delta (sum.tdiv 2)) := by
  obtain ⟨e0, e1, e2, e3⟩ := four_times hh t0 t1 t2 t3
  have hl : (four head t0 t1 t2 t3).length = 20 := by simp [four, hh]
  generalize four head t0 t1 t2 t3 = m at e0 e1 e2 e3 hl ⊢
  rw [← e3] at h3
  rw [← e0, ← e1, ← e2, ← e3]
  clear e0 e1 e2 e3
  unfold handle
  rw [if_neg (by omega), List.take_of_length_le (Nat.le_of_eq hl), if_pos h3]
  delta stats
  generalize int32 (diff (time m 16) (time m 4) - diff (time m 12) (time m 8)) = a
  generalize int32 (diff (time m 8) (time m 4) + diff (time m 12) (time m 16)) = b
  clear h3 hl
  cases a with
  | ok a => cases b <;> rfl
  | ub => rfl
  | abort => rfl

/-- An exchange of messages ends with the right numbers: the time that the messages were under way, exactly,
and how far the server's clock is ahead of the client's, as exactly as can be known from the messages (half of
that time) but for half a microsecond of rounding. For clocks that are within 2^30 µs (18 minutes) of each
other, modulo 2^32, less half of the time of the exchange. -/
theorem c113_statistics_partial {T0 T1 T2 T3 theta t0 t3} (pad junk : Bytes) (hp : pad.length = 3) (hj : junk.length = 8)
    (h : Exchange T0 T1 T2 T3 theta t0 t3) (hr : ((T3 : Int) - T0) < 1073741824)
    (ht : -2147483648 ≤ 2 * theta - (T3 - T0) ∧ 2 * theta + (T3 - T0) < 2147483648) :
    ∃ f, handle T1 (request pad t0 junk) = .ok (.reply f) ∧
      ∃ delta est : Int, handle T3 (report (f T2) t3) = .ok (.stats delta est) ∧
        delta = (T1 - T0) + (T3 - T2) ∧ 0 ≤ delta ∧
        -(delta + 1) ≤ 2 * (est - theta) ∧ 2 * (est - theta) ≤ delta + 1 := by
  obtain ⟨f, hf, hb⟩ := c113_answer pad junk [] t0 T1 T2 hp hj
  rw [List.append_nil] at hf
  refine ⟨f, hf, ?_⟩
  have hrep : report (f T2) t3 = four (160 :: pad) t0 T1 T2 t3 := by
    rw [hb]
    unfold report four
    rw [List.take_append_of_le_length (by simp [hp]), List.take_of_length_le (by simp [hp])]
  have ho := h.order
  obtain ⟨d0, d1, d2, d3⟩ := exchange_diffs h hr (by omega)
  rw [hrep, handle_report (by simp [hp]) T3 t0 T1 T2 t3 h.sane, d0, d1, d2, d3]
  unfold int32
  rw [if_pos (by omega), if_pos (by omega)]
  have ht2 := tdiv_two (theta + ((T1 : Int) - T0) + (theta - ((T3 : Int) - T2)))
  refine ⟨_, _, rfl, ?_, ?_, ?_, ?_⟩ <;> omega

example : Exchange 1000 1400 1500 1700 (-600) 1600 2300 ∧
    stats (four [160, 0, 0, 0] 1600 1400 1500 2300) = .ok (600, -500) :=
  ⟨⟨by omega, by omega, by omega, by omega⟩, by decide +kernel⟩

/-- The clocks of two machines count from when these were started. When they differ by more, the statistics are
a signed overflow, though the client does nothing wrong: whenever the difference modulo 2^32 is between 2^30 and
2^31 µs, ahead or behind, and the exchange is short. -/
theorem c113_statistics_violated {T0 T1 T2 T3 theta t0 t3} (pad : Bytes) (hp : pad.length = 3)
    (h : Exchange T0 T1 T2 T3 theta t0 t3)
    (ht : (1073741824 + ((T3 : Int) - T0) ≤ theta ∧ theta + ((T3 : Int) - T0) < 2147483648) ∨
      (theta ≤ -1073741824 - ((T3 : Int) - T0) - 1 ∧ -2147483648 ≤ theta - ((T3 : Int) - T0))) :
    handle T3 (four (160 :: pad) t0 T1 T2 t3) = .ub "signed overflow" := by
  have ho := h.order
  obtain ⟨d0, d1, d2, d3⟩ := exchange_diffs h (by omega) (by omega)
  rw [handle_report (by simp [hp]) T3 t0 T1 T2 t3 h.sane, d0, d1, d2, d3]
  unfold int32
  rw [if_pos (by omega), if_neg (by omega)]
  rfl

/-- a client that was started half an hour after the server, with an exchange of 30 ms -/
example : Exchange 3600000000 3600010000 3600020000 3600030000 1800000000 1800000000 1800030000 ∧
    stats (four [160, 0, 0, 0] 1800000000 3600010000 3600020000 1800030000) = .ub "signed overflow" :=
  ⟨⟨by omega, by omega, by omega, by omega⟩, by decide +kernel⟩

/-- A client whose clock reads 0 modulo 2^32 when the answer arrives gets another answer, and there are no
statistics. -/
theorem c113_zero_violated (now : Nat) (t0 t1 t2 t3 : Nat) (h : t3 % 4294967296 = 0) :
    ∃ f, handle now (four [160, 0, 0, 0] t0 t1 t2 t3) = .ok (.reply f) := by
  obtain ⟨-, -, -, e3⟩ := four_times (head := [160, 0, 0, 0]) rfl t0 t1 t2 t3
  unfold handle
  have hl : (four [160, 0, 0, 0] t0 t1 t2 t3).length = 20 := by simp [four]
  rw [if_neg (by omega), List.take_of_length_le (Nat.le_of_eq hl), if_neg (by rw [e3, h]; simp)]
  exact ⟨_, rfl⟩

example : ∃ f, handle 12 (four [160, 0, 0, 0] 4294967290 5 6 4294967296) = .ok (.reply f) :=
  c113_zero_violated 12 4294967290 5 6 4294967296 rfl

/-- What the model of the whole server sends is this answer, if it goes out at once. -/
theorem c113_server (env : Server.Env) (s : Server.St) (a : Bytes) (f : Nat → Bytes)
    (h : handle env.now a = .ok (.reply f)) :
    Server.onNtp env s a = .ok (Server.send .ntp (f env.now) s, 20) := by
  unfold handle at h
  split at h
  · cases h
  · rename_i hl
    split at h
    · exfalso
      cases hs : stats (a.take 20) with
      | ok r => rw [hs] at h; cases h
      | ub => rw [hs] at h; cases h
      | abort => rw [hs] at h; cases h
    · rename_i hz
      cases h
      unfold Server.onNtp
      have hsl : slice a 0 20 = some (a.take 20) := by
        unfold slice
        rw [if_pos (by omega)]
        rfl
      rw [hsl]
      dsimp only
      generalize hm : a.take 20 = m at hz ⊢
      have hml : m.length = 20 := by rw [← hm, List.length_take]; omega
      match m, hml with
      | [a0, a1, a2, a3, a4, a5, a6, a7, a8, a9, a10, a11, a12, a13, a14, a15, a16, a17, a18, a19], _ =>
        have hz' : rd32 a16 a17 a18 a19 = 0 := by simpa [time] using hz
        unfold rd32 at hz'
        have z : ∀ x : UInt8, x.toNat = 0 → x = 0 := fun x hx => UInt8.toNat_inj.mp hx
        have z1 := z a16 (by omega)
        have z2 := z a17 (by omega)
        have z3 := z a18 (by omega)
        have z4 := z a19 (by omega)
        subst z1 z2 z3 z4
        rfl

example (env : Server.Env) (s : Server.St) (rest : Bytes) :
    Server.onNtp env s (request [1, 2, 3] 70000 [0, 0, 0, 0, 0, 0, 0, 0] ++ rest) =
      .ok (Server.send .ntp (four [160, 1, 2, 3] 70000 env.now env.now 0) s, 20) := by
  obtain ⟨f, h, e⟩ := c113_answer [1, 2, 3] [0, 0, 0, 0, 0, 0, 0, 0] rest 70000 env.now env.now rfl rfl
  rw [c113_server env s _ f h, e]

end Verif.Ntp
