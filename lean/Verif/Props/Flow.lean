import Verif.Spec.Flow
import Verif.Lemmas.ServerMicro

/-!
# C53, C59, C67: flow control
-/

namespace Verif.Flow

theorem int32_ok {n m : Int} (h : int32 n = .ok m) : m = n := by
  unfold int32 at h
  rcases Server.ite_cases h with ⟨-, h⟩ | ⟨-, h⟩
  · cases h; rfl
  · cases h

theorem int32_eq {n : Int} (h : -2147483648 ≤ n ∧ n < 2147483648) : int32 n = .ok n := if_pos h

/-! ## The ring -/

/-- the samples of a history are where the estimator looks for them -/
structure Ring (b : Bwe) (l : List Sample) : Prop where
  len : b.samples.length = 16
  n : b.n = min l.length 16
  index : b.index = l.length % 16
  at_ : ∀ j s, l.length ≤ j + 16 → l[j]? = some s → b.samples[j % 16]? = some s

theorem ring_create : Ring create [] := ⟨rfl, rfl, rfl, fun j s _ h => by simp at h⟩

/-- the estimator before the estimate is made -/
def stored (s : Sample) (b : Bwe) : Bwe :=
  { b with samples := b.samples.set b.index s, index := (b.index + 1) % 16, n := if b.n < 16 then b.n + 1 else b.n }

theorem ring_stored {b : Bwe} {l : List Sample} (h : Ring b l) (s : Sample) : Ring (stored s b) (l ++ [s]) := by
  obtain ⟨h1, h2, h3, h4⟩ := h
  unfold stored
  refine ⟨by simp only [List.length_set]; exact h1, ?_, ?_, fun j s' hj hs => ?_⟩
  · simp only [List.length_append, List.length_cons, List.length_nil]
    split <;> omega
  · simp only [List.length_append, List.length_cons, List.length_nil]
    omega
  · simp only [List.length_append, List.length_cons, List.length_nil] at hj ⊢
    by_cases he : j = l.length
    · subst he
      rw [List.getElem?_append_right (by omega)] at hs
      simp only [Nat.sub_self, List.getElem?_cons_zero] at hs
      rw [h3, List.getElem?_set_self (by omega)]
      exact hs
    · have hlt : j < l.length := by
        have := (List.getElem?_eq_some_iff.mp hs).1
        simp only [List.length_append, List.length_cons, List.length_nil] at this
        omega
      rw [List.getElem?_append_left hlt] at hs
      rw [List.getElem?_set_ne (by omega)]
      exact h4 j s' (by omega) hs

theorem last16_length {α} (l : List α) : (last16 l).length = min l.length 16 := by
  unfold last16
  rw [List.length_drop]
  omega

theorem getSample_eq {b : Bwe} {l : List Sample} (h : Ring b l) {i : Nat} {s : Sample} (hs : (last16 l)[i]? = some s) :
    getSample b i = .ok s := by
  obtain ⟨h1, h2, h3, h4⟩ := h
  have hi := (List.getElem?_eq_some_iff.mp hs).1
  rw [last16_length] at hi
  unfold last16 at hs
  rw [List.getElem?_drop] at hs
  have hk := h4 _ s (by omega) hs
  have he : ((b.index : Int) + i - b.n + 16).tmod 16 = (((l.length - 16 + i) % 16 : Nat) : Int) := by
    rw [Int.tmod_eq_emod_of_nonneg (by omega)]
    omega
  unfold getSample
  simp only [he, Int.toNat_natCast, hk]
  rw [if_neg (by omega)]

/-! ## The sums -/

theorem sumDelays_sound {b : Bwe} : ∀ (l : List Sample) (i : Nat) (x y B D : Int),
    (∀ j s, l[j]? = some s → getSample b (i + j) = .ok s) → sumDelays b l.length i x y = .ok (B, D) →
    B = x + (l.map Sample.bytes).sum ∧ D = y + (l.map fun s => s.arrival - s.departure - b.rttMin).sum
  | [], i, x, y, B, D, _, h => by cases h; simp
  | s :: l, i, x, y, B, D, hg, h => by
    rw [List.length_cons, sumDelays, show getSample b i = .ok s from hg 0 s rfl, Outcome.bind_ok] at h
    obtain ⟨a1, e1, h⟩ := Outcome.bind_eq_ok.mp h
    obtain ⟨a2, e2, h⟩ := Outcome.bind_eq_ok.mp h
    obtain ⟨a3, e3, h⟩ := Outcome.bind_eq_ok.mp h
    obtain ⟨a4, e4, h⟩ := Outcome.bind_eq_ok.mp h
    obtain ⟨k1, k2⟩ := sumDelays_sound l (i + 1) a3 a4 B D (fun j s' hs => by
      have := hg (j + 1) s' (by rw [List.getElem?_cons_succ]; exact hs)
      rw [show i + 1 + j = i + (j + 1) by omega]
      exact this) h
    rw [int32_ok e1] at e2
    rw [int32_ok e2] at e4
    rw [int32_ok e3] at k1
    rw [int32_ok e4] at k2
    simp only [List.map_cons, List.sum_cons]
    omega

theorem sumBytes_sound {b : Bwe} : ∀ (l : List Sample) (i : Nat) (x B : Int),
    (∀ j s, l[j]? = some s → getSample b (i + j) = .ok s) → sumBytes b l.length i x = .ok B →
    B = x + (l.map Sample.bytes).sum
  | [], i, x, B, _, h => by cases h; simp
  | s :: l, i, x, B, hg, h => by
    rw [List.length_cons, sumBytes, show getSample b i = .ok s from hg 0 s rfl, Outcome.bind_ok] at h
    obtain ⟨a3, e3, h⟩ := Outcome.bind_eq_ok.mp h
    have k1 := sumBytes_sound l (i + 1) a3 B (fun j s' hs => by
      have := hg (j + 1) s' (by rw [List.getElem?_cons_succ]; exact hs)
      rw [show i + 1 + j = i + (j + 1) by omega]
      exact this) h
    rw [int32_ok e3] at k1
    simp only [List.map_cons, List.sum_cons]
    omega

theorem sumDelays_ok {b : Bwe} : ∀ (l : List Sample) (i : Nat) (x y : Int),
    (∀ j s, l[j]? = some s → getSample b (i + j) = .ok s) → (∀ s ∈ l, Tame b.rttMin s) → 0 ≤ x → 0 ≤ y →
    x + l.length * 134217727 < 2147483648 → y + l.length * 134217727 < 2147483648 →
    ∃ r, sumDelays b l.length i x y = .ok r ∧ 0 ≤ r.1 ∧ 0 ≤ r.2
  | [], i, x, y, _, _, hx, hy, _, _ => ⟨_, rfl, hx, hy⟩
  | s :: l, i, x, y, hg, ht, hx, hy, hx', hy' => by
    obtain ⟨t1, t2, t3, t4, t5, t6, t7⟩ := ht s (List.mem_cons_self ..)
    simp only [List.length_cons] at hx' hy'
    rw [List.length_cons, sumDelays, show getSample b i = .ok s from hg 0 s rfl, Outcome.bind_ok, int32_eq (by omega),
      Outcome.bind_ok, int32_eq (by omega), Outcome.bind_ok, int32_eq (by omega), Outcome.bind_ok, int32_eq (by omega),
      Outcome.bind_ok]
    exact sumDelays_ok l (i + 1) _ _ (fun j s' hs => by
      have := hg (j + 1) s' (by rw [List.getElem?_cons_succ]; exact hs)
      rw [show i + 1 + j = i + (j + 1) by omega]
      exact this) (fun s h => ht s (List.mem_cons_of_mem _ h)) (by omega) (by omega) (by omega) (by omega)

theorem sumBytes_ok {b : Bwe} : ∀ (l : List Sample) (i : Nat) (x : Int),
    (∀ j s, l[j]? = some s → getSample b (i + j) = .ok s) → (∀ s ∈ l, Tame b.rttMin s) → 0 ≤ x →
    x + l.length * 134217727 < 2147483648 → ∃ r, sumBytes b l.length i x = .ok r ∧ 0 ≤ r
  | [], i, x, _, _, hx, _ => ⟨_, rfl, hx⟩
  | s :: l, i, x, hg, ht, hx, hx' => by
    obtain ⟨t1, t2, t3, t4, t5, t6, t7⟩ := ht s (List.mem_cons_self ..)
    simp only [List.length_cons] at hx'
    rw [List.length_cons, sumBytes, show getSample b i = .ok s from hg 0 s rfl, Outcome.bind_ok, int32_eq (by omega),
      Outcome.bind_ok]
    exact sumBytes_ok l (i + 1) _ (fun j s' hs => by
      have := hg (j + 1) s' (by rw [List.getElem?_cons_succ]; exact hs)
      rw [show i + 1 + j = i + (j + 1) by omega]
      exact this) (fun s h => ht s (List.mem_cons_of_mem _ h)) (by omega) (by omega)

/-- the first and the last sample -/
theorem ends {b : Bwe} {l : List Sample} (h : Ring b l) (hl : l ≠ []) : ∃ s0 s1, (last16 l).head? = some s0 ∧
    (last16 l).getLast? = some s1 ∧ getSample b 0 = .ok s0 ∧ getSample b (b.n - 1) = .ok s1 ∧ b.n ≠ 0 := by
  have hpos : 0 < (last16 l).length := by
    rw [last16_length]
    have := List.length_pos_iff.mpr hl
    omega
  have hn : b.n = (last16 l).length := by rw [h.n, last16_length]
  refine ⟨(last16 l)[0], (last16 l)[(last16 l).length - 1], ?_, ?_, getSample_eq h (List.getElem?_eq_getElem hpos), ?_, by omega⟩
  · rw [List.head?_eq_getElem?, List.getElem?_eq_getElem hpos]
  · rw [List.getLast?_eq_getElem?, List.getElem?_eq_getElem (by omega)]
  · rw [hn]
    exact getSample_eq h (List.getElem?_eq_getElem (by omega))

theorem update_sound {b b' : Bwe} {l : List Sample} (h : Ring b l) (hl : l ≠ []) (e : updateEstimate b = .ok b') :
    b' = { b with est := estimate b.rttMin (last16 l) } := by
  unfold updateEstimate nonCongested congested at e
  obtain ⟨s0, s1, i0, i1, g0, g1, hn⟩ := ends h hl
  have hlen : b.n = (last16 l).length := by rw [h.n, last16_length]
  obtain ⟨x, ex, e⟩ := Outcome.bind_eq_ok.mp e
  obtain ⟨⟨B, D⟩, e1, ex⟩ := Outcome.bind_eq_ok.mp ex
  obtain ⟨y, ey, e⟩ := Outcome.bind_eq_ok.mp e
  rw [if_neg hn, g0, g1, Outcome.bind_ok, Outcome.bind_ok] at ey
  obtain ⟨B', e2, ey⟩ := Outcome.bind_eq_ok.mp ey
  obtain ⟨r, e3, ey⟩ := Outcome.bind_eq_ok.mp ey
  obtain ⟨d, e4, ey⟩ := Outcome.bind_eq_ok.mp ey
  rw [hlen] at e1 e2
  have hg : ∀ j s, (last16 l)[j]? = some s → getSample b (0 + j) = .ok s := fun j s hs => by
    rw [Nat.zero_add]
    exact getSample_eq h hs
  obtain ⟨k1, k2⟩ := sumDelays_sound _ 0 0 0 B D hg e1
  have k3 := sumBytes_sound _ 0 0 B' hg e2
  rw [int32_ok e3] at e4
  rw [Int.zero_add] at k1 k2 k3
  cases ex
  cases ey
  cases e
  unfold estimate
  rw [i0, i1]
  simp only
  rw [k1, k2, k3, int32_ok e4]

theorem feed_eq {s : Sample} {b : Bwe} {l : List Sample} (h : Ring b l) : feed s b = updateEstimate (stored s b) := by
  unfold feed stored
  rw [if_neg]
  have := h.len
  have := h.index
  omega

theorem feed_sound {s : Sample} {b b' : Bwe} {l : List Sample} (h : Ring b l) (e : feed s b = .ok b') :
    Ring b' (l ++ [s]) ∧ b'.rttMin = b.rttMin ∧ b'.est = estimate b.rttMin (last16 (l ++ [s])) := by
  rw [feed_eq h] at e
  have hr := ring_stored h s
  have := update_sound hr (by simp) e
  subst this
  exact ⟨⟨hr.len, hr.n, hr.index, hr.at_⟩, rfl, rfl⟩

/-- arrivals in order -/
def Ordered (l : List Sample) : Prop := l.Pairwise fun s t => s.arrival ≤ t.arrival

theorem quot_nonneg {b d : Int} (hb : 0 ≤ b) (hd : 0 ≤ d) : quot b d = .nan ∨ quot b d = .pinf ∨
    ∃ n k, quot b d = .val n k ∧ 0 ≤ n ∧ 0 < k := by
  unfold quot
  split
  · split
    · exact .inl rfl
    · rw [if_pos (by omega)]
      exact .inr (.inl rfl)
  · rw [if_pos (by omega)]
    exact .inr (.inr ⟨_, _, rfl, by omega, by omega⟩)

theorem max_nonneg {x y : Fl} (hx : x = .nan ∨ x = .pinf ∨ ∃ n k, x = .val n k ∧ 0 ≤ n ∧ 0 < k)
    (hy : y = .nan ∨ y = .pinf ∨ ∃ n k, y = .val n k ∧ 0 ≤ n ∧ 0 < k) :
    x.max y = .nan ∨ x.max y = .pinf ∨ ∃ n k, x.max y = .val n k ∧ 0 ≤ n ∧ 0 < k := by
  have : x.max y = x ∨ x.max y = y := by
    unfold Fl.max
    split
    · exact .inr rfl
    · exact .inl rfl
    · split
      · exact .inr rfl
      · exact .inl rfl
  rcases this with h | h <;> rw [h] <;> assumption

theorem feed_ok {s : Sample} {b : Bwe} {l : List Sample} (h : Ring b l) (hr : 0 ≤ b.rttMin)
    (ht : ∀ t ∈ last16 (l ++ [s]), Tame b.rttMin t) (ho : Ordered (last16 (l ++ [s]))) :
    ∃ b', feed s b = .ok b' ∧
      (b'.est = .nan ∨ b'.est = .pinf ∨ ∃ n k, b'.est = .val n k ∧ 0 ≤ n ∧ 0 < k) := by
  rw [feed_eq h]
  have hrg := ring_stored h s
  have hq : ∀ t ∈ last16 (l ++ [s]), Tame (stored s b).rttMin t := ht
  have hrm : (stored s b).rttMin = b.rttMin := rfl
  generalize stored s b = c at hrg hq hrm ⊢
  obtain ⟨s0, s1, i0, i1, g0, g1, hn⟩ := ends hrg (by simp)
  have hlen : c.n = (last16 (l ++ [s])).length := by rw [hrg.n, last16_length]
  have hle : (last16 (l ++ [s])).length ≤ 16 := by rw [last16_length]; omega
  have hg : ∀ j t, (last16 (l ++ [s]))[j]? = some t → getSample c (0 + j) = .ok t := fun j t hs => by
    rw [Nat.zero_add]
    exact getSample_eq hrg hs
  obtain ⟨r1, e1, p1, p2⟩ := sumDelays_ok _ 0 0 0 hg hq (by omega) (by omega) (by omega) (by omega)
  obtain ⟨r2, e2, p3⟩ := sumBytes_ok _ 0 0 hg hq (by omega) (by omega)
  have m0 : s0 ∈ last16 (l ++ [s]) := List.mem_of_mem_head? i0
  have m1 : s1 ∈ last16 (l ++ [s]) := List.mem_of_mem_getLast? i1
  obtain ⟨t1, t2, t3, t4, t5, t6, t7⟩ := hq s0 m0
  obtain ⟨u1, u2, u3, u4, u5, u6, u7⟩ := hq s1 m1
  have hord : s0.arrival ≤ s1.arrival := by
    unfold Ordered at ho
    generalize last16 (l ++ [s]) = w at i0 ho m1
    cases w with
    | nil => cases i0
    | cons a w =>
      cases i0
      rcases List.mem_cons.mp m1 with rfl | hm
      · exact Int.le_refl _
      · exact (List.pairwise_cons.mp ho).1 _ hm
  unfold updateEstimate nonCongested congested
  rw [hlen, e1, if_neg (by omega), g0, ← hlen, g1, hlen, e2]
  simp only [Outcome.bind_ok]
  rw [int32_eq (by omega), Outcome.bind_ok, int32_eq (by omega), Outcome.bind_ok]
  exact ⟨_, rfl, max_nonneg (quot_nonneg p1 p2) (quot_nonneg p3 (by omega))⟩

/-! ## C53 -/

/-- the minimum round-trip time that was set last -/
def lastRtt : Int → List Op → Int
  | r, [] => r
  | r, .feed _ :: os => lastRtt r os
  | _, .rtt r :: os => lastRtt r os

theorem life_ring : ∀ (os : List Op) {b b' : Bwe} {l : List Sample}, Ring b l → life b os = .ok b' →
    Ring b' (l ++ samplesOf os) ∧ b'.rttMin = lastRtt b.rttMin os
  | [], b, b', l, h, e => by
    cases e
    unfold samplesOf
    rw [List.append_nil]
    exact ⟨h, rfl⟩
  | .feed s :: os, b, b', l, h, e => by
    rw [life] at e
    obtain ⟨c, e1, e⟩ := Outcome.bind_eq_ok.mp e
    obtain ⟨k1, k2, -⟩ := feed_sound h e1
    obtain ⟨l1, l2⟩ := life_ring os k1 e
    rw [List.append_assoc] at l1
    exact ⟨l1, by rw [l2, k2]; rfl⟩
  | .rtt r :: os, b, b', l, h, e => life_ring os (b := updateRtt r b) ⟨h.len, h.n, h.index, h.at_⟩ e

theorem life_append : ∀ (os os' : List Op) (b : Bwe), life b (os ++ os') = (life b os >>= fun b => life b os')
  | [], _, _ => rfl
  | .feed s :: os, os', b => by
    rw [List.cons_append, life, life]
    cases feed s b with
    | ok c => exact life_append os os' c
    | ub w => rfl
    | abort w => rfl
  | .rtt r :: os, os', b => life_append os os' _

theorem samplesOf_append : ∀ os os' : List Op, samplesOf (os ++ os') = samplesOf os ++ samplesOf os'
  | [], _ => rfl
  | .feed s :: os, os' => by rw [List.cons_append, samplesOf, samplesOf, samplesOf_append os os']; rfl
  | .rtt r :: os, os' => samplesOf_append os os'

/-- **C53**: after any number of samples the estimate is that of the last sixteen and of the minimum round-trip
time at that moment. -/
theorem c53_window {os : List Op} {s : Sample} {b : Bwe} (e : life create (os ++ [.feed s]) = .ok b) :
    b.est = estimate (lastRtt 0 os) (last16 (samplesOf os ++ [s])) := by
  rw [life_append] at e
  obtain ⟨b1, e1, e⟩ := Outcome.bind_eq_ok.mp e
  obtain ⟨k1, k2⟩ := life_ring os ring_create e1
  rw [life] at e
  obtain ⟨b2, e2, e⟩ := Outcome.bind_eq_ok.mp e
  cases e
  obtain ⟨-, -, l3⟩ := feed_sound k1 e2
  rw [l3, k2]
  rfl

/-- **C53** (part): nothing overflows when the last sixteen samples are tame and arrived in order.

What is missing: sizes and times of samples are what the client sends, see `c53_overflow_violated`. -/
theorem c53_defined_partial {os : List Op} {s : Sample} {b : Bwe} (e : life create os = .ok b) (hr : 0 ≤ lastRtt 0 os)
    (ht : ∀ t ∈ last16 (samplesOf os ++ [s]), Tame (lastRtt 0 os) t) (ho : Ordered (last16 (samplesOf os ++ [s]))) :
    ∃ b', life create (os ++ [.feed s]) = .ok b' := by
  obtain ⟨k1, k2⟩ := life_ring os ring_create e
  rw [List.nil_append] at k1
  have k2' : b.rttMin = lastRtt 0 os := k2
  rw [← k2'] at hr ht
  obtain ⟨b', e', -⟩ := feed_ok k1 hr ht ho
  refine ⟨b', ?_⟩
  rw [life_append, e, Outcome.bind_ok, life, e']
  rfl

/-- twenty samples of 1000 bytes and more -/
def twenty : List Op := (List.range 20).map fun i : Nat => .feed ⟨1000 + (i : Nat), 50000 * (i : Nat), 50000 * (i : Nat) + 20000⟩

def estOf (o : Outcome Bwe) : Option Fl := match o with | .ok b => some b.est | _ => none

example : estOf (life create (.rtt 15000 :: twenty ++ [.feed ⟨5000, 1000000, 1030000⟩])) =
    some (estimate 15000 (last16 (samplesOf twenty ++ [⟨5000, 1000000, 1030000⟩]))) := by decide +kernel

example : estimate 15000 [⟨1000, 0, 20000⟩, ⟨3000, 10000, 30000⟩] = .val 4000000000 10000 := by decide

/-- two samples with sizes that a client made up: C53 is violated, the sum overflows -/
theorem c53_overflow_violated :
    life create [.feed ⟨2147480000, 0, 20000⟩, .feed ⟨2147480000, 0, 20000⟩] = .ub "signed overflow" := by decide +kernel

/-! ## C59 -/

theorem handshake_sound {u : Int} {c c' : Client} (e : handshakeAt u c = .ok c') :
    c'.lastPing = u ∧ c'.minRtt = min c.minRtt (u - c.lastPing) ∧ c'.inflight = c.inflight ∧
    ∃ r, c'.bwe = updateRtt r c.bwe ∧ ((c.minRtt ≤ u - c.lastPing ∧ r = c.bwe.rttMin) ∨
      (u - c.lastPing < c.minRtt ∧ r = u - c.lastPing)) := by
  unfold handshakeAt at e
  obtain ⟨d, e1, e⟩ := Outcome.bind_eq_ok.mp e
  have hd := int32_ok e1
  clear e1
  subst hd
  rcases Server.ite_cases e with ⟨h, e⟩ | ⟨h, e⟩
  · cases e
    exact ⟨rfl, (Int.min_eq_right (Int.le_of_lt h)).symm, rfl, _, rfl, .inr ⟨h, rfl⟩⟩
  · cases e
    exact ⟨rfl, (Int.min_eq_left (Int.not_lt.mp h)).symm, rfl, c.bwe.rttMin, rfl, .inl ⟨Int.not_lt.mp h, rfl⟩⟩

theorem lower_eq (r : Int) (c : Client) : (lower r c).lastPing = c.lastPing ∧ (lower r c).minRtt = min c.minRtt r ∧
    ∃ r', (lower r c).bwe = updateRtt r' c.bwe ∧ ((c.minRtt ≤ r ∧ r' = c.bwe.rttMin) ∨ (r < c.minRtt ∧ r' = r)) := by
  unfold lower
  split
  · rename_i h
    exact ⟨rfl, (Int.min_eq_right (Int.le_of_lt h)).symm, _, rfl, .inr ⟨h, rfl⟩⟩
  · rename_i h
    exact ⟨rfl, (Int.min_eq_left (Int.not_lt.mp h)).symm, c.bwe.rttMin, rfl, .inl ⟨Int.not_lt.mp h, rfl⟩⟩

theorem responseAt_sound {u v b : Int} {size : Nat} {c c' : Client} (e : responseAt u v b size c = .ok c') :
    u < v ∧ c' = c ∨ v ≤ u ∧ c'.lastPing = c.lastPing ∧ c'.minRtt = min c.minRtt (u - v) ∧
      c'.inflight = cut32 (c.inflight - size) ∧
      ∃ r, ((c.minRtt ≤ u - v ∧ r = c.bwe.rttMin) ∨ (u - v < c.minRtt ∧ r = u - v)) ∧
        feed ⟨b, v, u⟩ (updateRtt r c.bwe) = .ok c'.bwe := by
  unfold responseAt at e
  obtain ⟨d, e1, e⟩ := Outcome.bind_eq_ok.mp e
  have hd := int32_ok e1
  clear e1
  subst hd
  rcases Server.ite_cases e with ⟨h, e⟩ | ⟨h, e⟩
  · cases e
    exact .inl ⟨by omega, rfl⟩
  · obtain ⟨w, e2, e⟩ := Outcome.bind_eq_ok.mp e
    obtain ⟨h1, h2, r, h3, h4⟩ := lower_eq (u - v) c
    rw [h3] at e2
    cases e
    exact .inr ⟨by omega, h1, h2, rfl, r, h4, e2⟩

theorem response_sound {t dep size len : Nat} {c c' : Client} (e : response t dep size len c = .ok c') :
    ((size = 0 ∨ cut32 t < cut32 dep) ∧ c' = c ∨
      (size ≠ 0 ∧ cut32 dep ≤ cut32 t) ∧ c'.lastPing = c.lastPing ∧ c'.minRtt = min c.minRtt (cut32 t - cut32 dep) ∧
        c'.inflight = cut32 (c.inflight - size) ∧
        ∃ r, ((c.minRtt ≤ cut32 t - cut32 dep ∧ r = c.bwe.rttMin) ∨
          (cut32 t - cut32 dep < c.minRtt ∧ r = cut32 t - cut32 dep)) ∧
        feed ⟨cut32 (size + 9 + len), cut32 dep, cut32 t⟩ (updateRtt r c.bwe) = .ok c'.bwe) := by
  unfold response at e
  rcases Server.ite_cases e with ⟨hz, e⟩ | ⟨hz, e⟩
  · cases e
    exact .inl ⟨.inl hz, rfl⟩
  · rcases responseAt_sound e with ⟨h, rfl⟩ | ⟨h, h'⟩
    · exact .inl ⟨.inr h, rfl⟩
    · exact .inr ⟨⟨hz, h⟩, h'⟩

theorem feed_rtt {s : Sample} {b b' : Bwe} (e : feed s b = .ok b') : b'.rttMin = b.rttMin := by
  unfold feed at e
  rcases Server.ite_cases e with ⟨-, e⟩ | ⟨-, e⟩
  · cases e
  · unfold updateEstimate at e
    obtain ⟨x, -, e⟩ := Outcome.bind_eq_ok.mp e
    obtain ⟨y, -, e⟩ := Outcome.bind_eq_ok.mp e
    cases e
    rfl

/-- the estimator knows the minimum, if there is one -/
def Agree (c : Client) : Prop := c.minRtt < 2147483647 → c.bwe.rttMin = c.minRtt

theorem min_mem {a b : Int} {l : List Int} : min a b = a ∨ min a b ∈ b :: l := by
  rcases Int.le_total a b with h | h
  · exact .inl (Int.min_eq_left h)
  · rw [Int.min_eq_right h]
    exact .inr (List.mem_cons_self ..)

/-- one more measurement -/
theorem min_step {a b x y : Int} {l : List Int} (h1 : y ≤ x) (h2 : ∀ m ∈ l, y ≤ m) (h3 : y = x ∨ y ∈ l) (hx : x = min a b) :
    y ≤ a ∧ (∀ m ∈ b :: l, y ≤ m) ∧ (y = a ∨ y ∈ b :: l) := by
  refine ⟨by omega, fun m hm => ?_, ?_⟩
  · rcases List.mem_cons.mp hm with rfl | hm
    · omega
    · exact h2 m hm
  · rcases h3 with h3 | h3
    · rw [h3, hx]
      exact min_mem
    · exact .inr (List.mem_cons_of_mem _ h3)

/-- and the estimator -/
theorem agree_step {c d : Client} {b r : Int} (hm : d.minRtt = min c.minRtt b) (hr : d.bwe.rttMin = r)
    (h : (c.minRtt ≤ b ∧ r = c.bwe.rttMin) ∨ (b < c.minRtt ∧ r = b)) (hc : Agree c) : Agree d := by
  unfold Agree at hc ⊢
  omega

theorem measured_handshake (l : Int) (t : Nat) (es : List Ev) :
    measured l (.handshake t :: es) = (cut32 t - l) :: measured (cut32 t) es := rfl

theorem measured_response (l : Int) (t dep size len : Nat) (es : List Ev) :
    measured l (.response t dep size len :: es) = if size ≠ 0 ∧ cut32 dep ≤ cut32 t then
      (cut32 t - cut32 dep) :: measured l es else measured l es := rfl

theorem run_min : ∀ (es : List Ev) {c c' : Client}, run c es = .ok c' →
    (c'.minRtt ≤ c.minRtt ∧ (∀ m ∈ measured c.lastPing es, c'.minRtt ≤ m) ∧
    (c'.minRtt = c.minRtt ∨ c'.minRtt ∈ measured c.lastPing es)) ∧ (Agree c → Agree c')
  | [], c, c', e => by
    cases e
    exact ⟨⟨Int.le_refl _, nofun, .inl rfl⟩, id⟩
  | .handshake t :: es, c, c', e => by
    rw [run] at e
    obtain ⟨d, e1, e⟩ := Outcome.bind_eq_ok.mp e
    obtain ⟨⟨h1, h2, h3⟩, h4⟩ := run_min es e
    unfold step handshake at e1
    rw [measured_handshake]
    obtain ⟨k1, k2, -, r, k3, k4⟩ := handshake_sound e1
    rw [k1] at h2 h3
    exact ⟨min_step h1 h2 h3 k2, fun hc => h4 (agree_step k2 (by rw [k3]; rfl) k4 hc)⟩
  | .ping n :: es, c, c', e => by
    rw [run] at e
    obtain ⟨d, e1, e⟩ := Outcome.bind_eq_ok.mp e
    cases e1
    exact run_min es (c := ping n c) e
  | .response t dep size len :: es, c, c', e => by
    rw [run] at e
    obtain ⟨d, e1, e⟩ := Outcome.bind_eq_ok.mp e
    obtain ⟨⟨h1, h2, h3⟩, h4⟩ := run_min es e
    have hs := response_sound (c := c) (c' := d) (t := t) (dep := dep) (size := size) (len := len) (by rw [← e1]; rfl)
    rw [measured_response]
    generalize cut32 (size + 9 + len) = w at hs
    generalize cut32 t = u at hs ⊢
    generalize cut32 dep = v at hs ⊢
    rcases hs with ⟨kz, rfl⟩ | ⟨kz, k0, k2, -, r, k4, k3⟩
    · rw [if_neg (by omega)]
      exact ⟨⟨h1, h2, h3⟩, h4⟩
    · rw [k0] at h2 h3
      rw [if_pos kz]
      exact ⟨min_step h1 h2 h3 k2, fun hc => h4 (agree_step k2 (by rw [feed_rtt k3]; rfl) k4 hc)⟩

/-- **C59**: the minimum round-trip time of a client, and of its estimator, is the least of those measured;
before there are any it is INT32_MAX. -/
theorem c59_min {t : Nat} {es : List Ev} {c : Client} (e : run (connect t) es = .ok c) :
    (∀ m ∈ measured (cut32 t) es, c.minRtt ≤ m) ∧ (c.minRtt = 2147483647 ∨ c.minRtt ∈ measured (cut32 t) es) ∧
    (c.minRtt < 2147483647 → c.bwe.rttMin = c.minRtt) := by
  obtain ⟨⟨h1, h2, h3⟩, h4⟩ := run_min es e
  exact ⟨h2, h3, h4 fun h => absurd h (Int.lt_irrefl 2147483647)⟩

/-- times that go on and fit, and answers within two minutes of what was sent, with sizes that are not excessive -/
def Honest (last : Nat) : List Ev → Prop
  | [] => True
  | .handshake t :: es => last ≤ t ∧ t < 2147483648 ∧ Honest t es
  | .ping _ :: es => Honest last es
  | .response t dep size len :: es => last ≤ t ∧ t < 2147483648 ∧ dep ≤ t ∧ t - dep < 134217728 ∧
      size + 9 + len < 134217728 ∧ Honest t es

theorem cut32_small {n : Nat} (h : n < 2147483648) : cut32 n = n := by
  unfold cut32
  split <;> omega

theorem cut32_eq (n : Int) : -2147483648 ≤ cut32 n ∧ cut32 n < 2147483648 ∧ ∃ k, cut32 n = n + 4294967296 * k := by
  unfold cut32
  split
  · exact ⟨by omega, by omega, -(n / 4294967296), by omega⟩
  · rename_i h
    exact ⟨by omega, by omega, -(n / 4294967296) - 1, by omega⟩

/-- what holds of honest clients -/
structure Good (last : Nat) (c : Client) : Prop where
  time : last < 2147483648
  ping : ∃ p : Nat, c.lastPing = p ∧ p ≤ last
  min : 0 ≤ c.minRtt
  rtt : c.minRtt < 2147483647 → c.bwe.rttMin = c.minRtt
  ring : ∃ l, Ring c.bwe l ∧ (∀ s ∈ l, 0 ≤ s.bytes ∧ s.bytes < 134217728 ∧ 0 ≤ s.departure ∧ s.departure ≤ s.arrival ∧
    s.arrival ≤ last ∧ s.arrival - s.departure < 134217728 ∧ c.minRtt ≤ s.arrival - s.departure) ∧ Ordered l
  est : c.bwe.est = .nan ∨ c.bwe.est = .pinf ∨ ∃ n k, c.bwe.est = .val n k ∧ 0 ≤ n ∧ 0 < k

theorem mem_last16 {α} {a : α} {l : List α} (h : a ∈ last16 l) : a ∈ l := List.mem_of_mem_drop h

theorem honest_run : ∀ (es : List Ev) {last : Nat} {c : Client}, Good last c → Honest last es →
    ∃ c' last', run c es = .ok c' ∧ Good last' c'
  | [], last, c, hg, _ => ⟨c, last, rfl, hg⟩
  | .ping n :: es, last, c, hg, h =>
    honest_run es (c := Flow.ping n c) ⟨hg.time, hg.ping, hg.min, hg.rtt, hg.ring, hg.est⟩ h
  | .handshake t :: es, last, c, hg, h => by
    obtain ⟨h1, h2, h3⟩ := h
    obtain ⟨p, hp, hp'⟩ := hg.ping
    have ht := cut32_small h2
    have hm := hg.min
    have e : handshake t c = .ok (if (t : Int) - p < c.minRtt then
        { c with lastPing := t, minRtt := (t : Int) - p, bwe := updateRtt ((t : Int) - p) c.bwe } else { c with lastPing := t }) := by
      unfold handshake handshakeAt
      rw [ht, hp, int32_eq (by omega), Outcome.bind_ok]
      split <;> rfl
    obtain ⟨l, r1, r2, r3⟩ := hg.ring
    have hgood : Good t (if (t : Int) - p < c.minRtt then
        { c with lastPing := t, minRtt := (t : Int) - p, bwe := updateRtt ((t : Int) - p) c.bwe } else { c with lastPing := t }) := by
      split
      · refine ⟨h2, ⟨t, rfl, Nat.le_refl _⟩, by simp only; omega, fun _ => rfl, ⟨l, ⟨r1.len, r1.n, r1.index, r1.at_⟩, fun s hs => ?_, r3⟩, hg.est⟩
        have := r2 s hs
        simp only
        omega
      · refine ⟨h2, ⟨t, rfl, Nat.le_refl _⟩, hg.min, hg.rtt, ⟨l, r1, fun s hs => ?_, r3⟩, hg.est⟩
        have := r2 s hs
        simp only
        omega
    obtain ⟨c', last', e', g'⟩ := honest_run es hgood h3
    exact ⟨c', last', by rw [run, step, e, Outcome.bind_ok, e'], g'⟩
  | .response t dep size len :: es, last, c, hg, h => by
    obtain ⟨h1, h2, h3, h4, h5, h6⟩ := h
    have ht := cut32_small h2
    have hd := cut32_small (show dep < 2147483648 by omega)
    obtain ⟨p, hp, hp'⟩ := hg.ping
    have hm := hg.min
    obtain ⟨l, r1, r2, r3⟩ := hg.ring
    by_cases hz : size = 0
    · have e : response t dep size len c = .ok c := if_pos hz
      obtain ⟨c', last', e', g'⟩ := honest_run es (last := t) (c := c)
        ⟨h2, ⟨p, hp, by omega⟩, hm, hg.rtt, ⟨l, r1, fun s hs => by have := r2 s hs; omega, r3⟩, hg.est⟩ h6
      exact ⟨c', last', by rw [run, step, e, Outcome.bind_ok, e'], g'⟩
    · have hb : cut32 ((size : Int) + 9 + len) = size + 9 + len := by
        have := cut32_small (show size + 9 + len < 2147483648 by omega)
        rwa [Int.natCast_add, Int.natCast_add] at this
      generalize hc : lower ((t : Int) - dep) c = c1
      have f1 : c1.minRtt = min c.minRtt (t - dep) ∧ c1.bwe.rttMin = c1.minRtt ∧ Ring c1.bwe l ∧ c1.lastPing = c.lastPing := by
        rw [← hc]
        obtain ⟨w1, w2, r, w3, w4⟩ := lower_eq ((t : Int) - dep) c
        refine ⟨w2, ?_, by rw [w3]; exact ⟨r1.len, r1.n, r1.index, r1.at_⟩, w1⟩
        rw [w2, w3]
        show r = _
        have := hg.rtt
        omega
      obtain ⟨q1, q2, q3, q4⟩ := f1
      have hnew : ∀ s ∈ l ++ [⟨(size : Int) + 9 + len, (dep : Int), (t : Int)⟩], 0 ≤ s.bytes ∧ s.bytes < 134217728 ∧
          0 ≤ s.departure ∧ s.departure ≤ s.arrival ∧ s.arrival ≤ (t : Int) ∧ s.arrival - s.departure < 134217728 ∧
          c1.minRtt ≤ s.arrival - s.departure := by
        intro s hs
        rcases List.mem_append.mp hs with hs | hs
        · have := r2 s hs
          omega
        · rw [List.mem_singleton] at hs
          subst hs
          simp only
          omega
      have hord : Ordered (l ++ [⟨(size : Int) + 9 + len, (dep : Int), (t : Int)⟩]) := by
        refine List.pairwise_append.mpr ⟨r3, List.pairwise_singleton _ _, fun a ha b hb => ?_⟩
        rw [List.mem_singleton] at hb
        subst hb
        have := r2 a ha
        simp only
        omega
      obtain ⟨b', e1, e2⟩ := feed_ok (s := ⟨(size : Int) + 9 + len, (dep : Int), (t : Int)⟩) q3 (by omega)
        (fun s hs => by
          have := hnew s (mem_last16 hs)
          unfold Tame
          omega) (hord.drop)
      obtain ⟨k1, k2, -⟩ := feed_sound q3 e1
      have e : response t dep size len c = .ok { c1 with bwe := b', inflight := cut32 (c.inflight - size) } := by
        unfold response responseAt
        rw [if_neg hz, ht, hd, hb, int32_eq (by omega), Outcome.bind_ok, if_neg (by omega), hc, e1, Outcome.bind_ok]
      obtain ⟨c', last', e', g'⟩ := honest_run es (last := t) (c := { c1 with bwe := b', inflight := cut32 (c.inflight - size) })
        ⟨h2, ⟨p, by simp only; rw [q4, hp], by omega⟩, by simp only; omega, fun _ => by simp only; rw [k2, q2],
          ⟨_, k1, hnew, hord⟩, e2⟩ h6
      exact ⟨c', last', by rw [run, step, e, Outcome.bind_ok, e'], g'⟩

theorem good_connect {t : Nat} (h : t < 2147483648) : Good t (connect t) :=
  ⟨h, ⟨t, cut32_small h, Nat.le_refl _⟩, by unfold connect; simp only; omega,
    fun h => by unfold connect at h; simp only at h; omega, ⟨[], ring_create, nofun, List.Pairwise.nil⟩, .inr (.inr ⟨0, 1, rfl, by decide, by decide⟩)⟩

/-- **C59** (part): the measurements of honest clients are all made, as long as the clock has not counted 2^31
microseconds.

What is missing: the rest, see `c59_wrap_violated` and `c59_forged_violated`. -/
theorem c59_defined_partial {t : Nat} (h : t < 2147483648) {es : List Ev} (hh : Honest t es) :
    ∃ c, run (connect t) es = .ok c := by
  obtain ⟨c, _, e, -⟩ := honest_run es (good_connect h) hh
  exact ⟨c, e⟩

/-- a session -/
def demoEvents : List Ev :=
  [.handshake 21000, .handshake 41500, .handshake 63000, .ping 5000, .response 90000 63500 5000 8, .ping 700, .ping 300,
    .response 120000 100000 700 8, .response 130000 101000 300 8]

example : Honest 1000 demoEvents := by
  unfold demoEvents
  simp [Honest]

def minOf (o : Outcome Client) : Option (Int × Int × Int) :=
  match o with | .ok c => some (c.minRtt, c.bwe.rttMin, c.inflight) | _ => none

example : minOf (run (connect 1000) demoEvents) = some (20000, 20000, 0) := by decide +kernel
example : measured 1000 demoEvents = [20000, 20500, 21500, 26500, 20000, 29000] := by decide +kernel

/-- C59 is violated when the clock has counted 2^31 microseconds, a bit more than half an hour -/
theorem c59_wrap_violated : run (connect 2147483600) [.handshake 2147483700] = .ub "signed overflow" := by decide +kernel

/-- C59 is violated by an answer with a time that was never sent -/
theorem c59_forged_violated : run (connect 1000) [.handshake 2000, .response 3000 2147483648 1 8] = .ub "signed overflow" := by
  decide +kernel

/-! ## C67 -/

theorem roundDiv_nonneg {n : Int} {d : Nat} (h : 0 ≤ n) : 0 ≤ roundDiv n d := by
  unfold roundDiv
  rw [if_pos h]
  exact Int.ediv_nonneg (by omega) (by omega)

theorem run_inflight : ∀ (es : List Ev) {last : Nat} {c c' : Client}, Honest last es → run c es = .ok c' →
    (∃ k : Int, c'.inflight = c.inflight + sent es - confirmed es + 4294967296 * k) ∧
      (-2147483648 ≤ c.inflight ∧ c.inflight < 2147483648 → -2147483648 ≤ c'.inflight ∧ c'.inflight < 2147483648)
  | [], last, c, c', _, e => by
    cases e
    exact ⟨⟨0, by unfold sent confirmed; omega⟩, id⟩
  | .handshake t :: es, last, c, c', hh, e => by
    rw [run] at e
    obtain ⟨d, e1, e⟩ := Outcome.bind_eq_ok.mp e
    obtain ⟨-, -, k, -⟩ := handshake_sound e1
    have := run_inflight es hh.2.2 e
    rw [k] at this
    exact this
  | .ping n :: es, last, c, c', hh, e => by
    rw [run] at e
    obtain ⟨d, e1, e⟩ := Outcome.bind_eq_ok.mp e
    cases e1
    obtain ⟨⟨k, hk⟩, h2⟩ := run_inflight es (last := last) hh e
    unfold ping at hk h2
    simp only at hk h2
    obtain ⟨c1, c2, k', c3⟩ := cut32_eq (c.inflight + n)
    have hs : sent (.ping n :: es) = n + sent es := rfl
    have hc : confirmed (.ping n :: es) = confirmed es := rfl
    rw [hs, hc]
    refine ⟨?_, fun _ => h2 ⟨c1, c2⟩⟩
    exact ⟨k + k', by omega⟩
  | .response t dep size len :: es, last, c, c', hh, e => by
    rw [run] at e
    obtain ⟨d, e1, e⟩ := Outcome.bind_eq_ok.mp e
    obtain ⟨-, h2, h3, h4, h5, h6⟩ := hh
    have ht := cut32_small h2
    have hd := cut32_small (show dep < 2147483648 by omega)
    obtain ⟨⟨k, hk⟩, h2⟩ := run_inflight es h6 e
    have hs : sent (.response t dep size len :: es) = sent es := rfl
    have hc : confirmed (.response t dep size len :: es) = (if cut32 dep ≤ cut32 t then size else 0) + confirmed es := rfl
    rw [hs, hc, if_pos (by omega)]
    rcases response_sound e1 with ⟨hz, rfl⟩ | ⟨-, -, -, h, -⟩
    · exact ⟨⟨k, by omega⟩, h2⟩
    · rw [h] at hk h2
      obtain ⟨c1, c2, k', c3⟩ := cut32_eq (c.inflight - size)
      exact ⟨⟨k + k', by omega⟩, fun _ => h2 ⟨c1, c2⟩⟩

/-- **C67** (part): after any honest session the data in flight is what was sent and not confirmed, modulo 2^32;
and when all was confirmed a frame is not held back, provided that the estimate and the limit are `int`s.

What is missing: that they are, see `c67_stall_violated` and `c67_fast_violated`. -/
theorem c67_flow_partial {t : Nat} (h : t < 2147483648) {es : List Ev} (hh : Honest t es) :
    ∃ c, run (connect t) es = .ok c ∧
      (sent es < 2147483648 → confirmed es < 2147483648 → c.inflight = sent es - confirmed es) ∧
      (sent es = confirmed es → sent es < 2147483648 → c.bwe.est.fits = true →
        (∀ r, (Fl.val (33333 + c.minRtt * c.bwe.est.toInt r) 1000000).fits = true) → ∀ wild, held wild c = false) := by
  obtain ⟨c, last, e, g⟩ := honest_run es (good_connect h) hh
  obtain ⟨⟨k, hk⟩, h2⟩ := run_inflight es hh e
  have h0 : (connect t).inflight = 0 := rfl
  rw [h0] at hk h2
  have hin : sent es < 2147483648 → confirmed es < 2147483648 → c.inflight = sent es - confirmed es := by
    intro h3 h4
    have := h2 (by omega)
    omega
  refine ⟨c, e, hin, fun he hs hf hl wild => ?_⟩
  have hz : c.inflight = 0 := by
    rw [hin hs (by omega)]
    omega
  have hm := g.min
  unfold held
  simp only
  split
  · rfl
  · have hl' := hl wild
    rcases g.est with hq | hq | ⟨n, d, hq, hn, -⟩
    · rw [hq] at hf; cases hf
    · rw [hq] at hf; cases hf
    · rw [hq] at hf hl' ⊢
      simp only [Fl.fits, Bool.and_eq_true, decide_eq_true_eq] at hf hl'
      have ht : Fl.toInt wild (.val n d) = roundDiv n d := if_pos hf
      rw [ht] at hl' ⊢
      have ht' : Fl.toInt wild (.val (33333 + c.minRtt * roundDiv n d) 1000000) = roundDiv _ _ := if_pos hl'
      rw [ht', hz, decide_eq_false_iff_not]
      have : 0 ≤ c.minRtt * roundDiv n d := Int.mul_nonneg hm (roundDiv_nonneg hn)
      have := roundDiv_nonneg (n := 33333 + c.minRtt * roundDiv n d) (d := 1000000) (by omega)
      omega

def heldOf (wild : Int) (o : Outcome Client) : Option (Int × Bool × Bool) :=
  match o with | .ok c => some (c.inflight, c.bwe.est.fits, held wild c) | _ => none

example : heldOf 0 (run (connect 1000) demoEvents) = some (0, true, false) := by decide +kernel

/-- after a big frame the next one has to wait -/
example : heldOf 0 (run (connect 1000) (demoEvents ++ [.ping 100000])) = some (100000, true, true) := by decide +kernel

/-- C67 is violated when the first answer to a frame is the fastest so far: the estimate is a division by zero, and
its conversion to `int` is undefined.  On x86-64 it is INT_MIN, and frames are held back although
nothing is in flight; as nothing is sent then, this does not change. -/
theorem c67_stall_violated : heldOf (-2147483648) (run (connect 1000)
    [.handshake 21000, .handshake 41500, .handshake 63000, .ping 5000, .response 83000 63500 5000 8]) =
      some (0, false, true) := by decide +kernel

/-- C67 is violated by fast connections: two million bytes within a millisecond -/
theorem c67_fast_violated : heldOf (-2147483648) (run (connect 1000)
    [.handshake 1200, .handshake 1400, .handshake 1600, .ping 2000000, .response 2700 1700 2000000 8]) =
      some (0, false, true) := by decide +kernel

/-! ## C118 -/

theorem roundDiv_near {n : Int} {d : Nat} (hn : 0 ≤ n) (hd : 0 < d) :
    2 * (roundDiv n d * d) ≤ 2 * n + d ∧ 2 * n < 2 * (roundDiv n d * d) + d := by
  unfold roundDiv
  rw [if_pos hn]
  have h1 := Int.emod_add_mul_ediv (2 * n + d) (2 * d)
  have h2 := Int.emod_nonneg (2 * n + d) (b := 2 * (d : Int)) (by omega)
  have h3 := Int.emod_lt_of_pos (2 * n + d) (b := 2 * (d : Int)) (by omega)
  generalize (2 * n + d) / (2 * (d : Int)) = q at *
  rw [Int.mul_assoc, Int.mul_comm (d : Int) q] at h1
  omega

/-- **C118** (part): after any honest session a frame is held back just if the data in flight is more than the link
delivers within the shortest round trip, up to half a byte: `rate` is the estimate in bytes per second, rounded to the
next whole number.

What is missing: the time that is allowed for beyond that, see `c118_delay_violated`; estimates and limits that are not
`int`s, as in C67. -/
theorem c118_limit_partial {t : Nat} (h : t < 2147483648) {es : List Ev} (hh : Honest t es) :
    ∃ c, run (connect t) es = .ok c ∧ ∀ n d, c.bwe.est = .val n d → c.bwe.est.fits = true →
      (∀ r, (Fl.val (33333 + c.minRtt * c.bwe.est.toInt r) 1000000).fits = true) →
      ∃ rate : Int, 0 ≤ rate ∧ 2 * (rate * d) ≤ 2 * n + d ∧ 2 * n < 2 * (rate * d) + d ∧
        ∀ wild, held wild c = true ↔ rate ≠ 0 ∧ c.minRtt * rate + 533333 < c.inflight * 1000000 := by
  obtain ⟨c, last, e, g⟩ := honest_run es (good_connect h) hh
  refine ⟨c, e, fun n d hq hf hl => ?_⟩
  have hm := g.min
  obtain ⟨hn, hd⟩ : 0 ≤ n ∧ 0 < d := by
    rcases g.est with h | h | ⟨n', d', h, h1, h2⟩
    · rw [hq] at h; cases h
    · rw [hq] at h; cases h
    · rw [hq] at h; cases h; exact ⟨h1, h2⟩
  rw [hq] at hf hl
  simp only [Fl.fits, Bool.and_eq_true, decide_eq_true_eq] at hf hl
  have hr0 := roundDiv_nonneg (d := d) hn
  obtain ⟨h1, h2⟩ := roundDiv_near hn hd
  refine ⟨roundDiv n d, hr0, h1, h2, fun wild => ?_⟩
  have hl' := hl wild
  have ht : Fl.toInt wild (.val n d) = roundDiv n d := if_pos hf
  rw [ht] at hl'
  have ht' : Fl.toInt wild (.val (33333 + c.minRtt * roundDiv n d) 1000000) = roundDiv _ _ := if_pos hl'
  unfold held
  simp only
  rw [hq, ht, ht']
  have h0 : 0 ≤ c.minRtt * roundDiv n d := Int.mul_nonneg hm hr0
  obtain ⟨h3, h4⟩ := roundDiv_near (n := 33333 + c.minRtt * roundDiv n d) (d := 1000000) (by omega) (by decide)
  generalize roundDiv (33333 + c.minRtt * roundDiv n d) 1000000 = q at h3 h4 ⊢
  generalize c.minRtt * roundDiv n d = p at h3 h4 ⊢
  by_cases hz : roundDiv n d = 0
  · rw [if_pos hz]; simp [hz]
  · rw [if_neg hz]
    simp only [decide_eq_true_eq, ne_eq, hz, not_false_eq_true, true_and]
    omega

/-- **C118**, what follows: no frame is held back while the link delivers what is in flight within a round trip -/
theorem c118_round_trip_partial {t : Nat} (h : t < 2147483648) {es : List Ev} (hh : Honest t es) :
    ∃ c, run (connect t) es = .ok c ∧ ∀ n d, c.bwe.est = .val n d → c.bwe.est.fits = true →
      (∀ r, (Fl.val (33333 + c.minRtt * c.bwe.est.toInt r) 1000000).fits = true) →
      ∃ rate : Int, 2 * (rate * d) ≤ 2 * n + d ∧ 2 * n < 2 * (rate * d) + d ∧
        (c.inflight * 1000000 ≤ c.minRtt * rate → ∀ wild, held wild c = false) := by
  obtain ⟨c, e, h1⟩ := c118_limit_partial h hh
  refine ⟨c, e, fun n d h2 h3 h4 => ?_⟩
  obtain ⟨rate, -, h5, h6, h7⟩ := h1 n d h2 h3 h4
  refine ⟨rate, h5, h6, fun h8 wild => Bool.eq_false_iff.2 fun h9 => ?_⟩
  have := ((h7 wild).1 h9).2
  omega

/-- a fast connection: round trips of a millisecond, 100000 bytes in another one -/
def fastEvents : List Ev :=
  [.handshake 2000, .handshake 3000, .handshake 4000, .ping 100000, .response 6000 4000 100000 8]

example : Honest 1000 fastEvents ∧ (match run (connect 1000) fastEvents with
    | .ok c => c.minRtt == 1000 && c.bwe.est == .val 100017000000 1000 && c.bwe.est.fits && !held 0 c
    | _ => false) = true := by
  refine ⟨?_, by decide +kernel⟩
  unfold fastEvents
  simp [Honest]

/-- C118 is violated: 33.333 ms are allowed for (`max_delay`), but they are added to a number of bytes (server.c
910-912, the brackets are missing) and count for nothing.  On a connection that delivers 100 bytes in each
microsecond a frame is held back for 200000 bytes, which take two milliseconds. -/
theorem c118_delay_violated : ∃ c n d, run (connect 1000) (fastEvents ++ [.ping 200000]) = .ok c ∧
    c.bwe.est = .val n d ∧ c.bwe.est.fits = true ∧ held 0 c = true ∧ 10 * (c.inflight * 1000000 * d) < 33333 * n := by
  have h : (match run (connect 1000) (fastEvents ++ [.ping 200000]) with
    | .ok c => c.bwe.est == .val 100017000000 1000 && c.bwe.est.fits && held 0 c && c.inflight == 200000
    | _ => false) = true := by decide +kernel
  split at h
  · rename_i c hc
    simp only [Bool.and_eq_true, beq_iff_eq] at h
    obtain ⟨⟨⟨h1, h2⟩, h3⟩, h4⟩ := h
    exact ⟨c, _, _, hc, h1, h2, h3, by rw [h4]; decide⟩
  · cases h

end Verif.Flow
