import Verif.Spec.Device
import Verif.Props.V4l2

namespace Verif.Device

theorem dvd_iff {s : Nat} : (16 % s == 0) = true ↔ s ∣ 16 := by
  rw [beq_iff_eq]
  exact (Nat.dvd_iff_mod_eq_zero).symm

theorem sizeFits_spec {s : Size} (hs : s.Sound) (w h : Nat) :
    ∃ b, sizeFits s w h = .ok b ∧ (b = true ↔ s.Around w h) := by
  cases s with
  | discrete sw sh =>
    refine ⟨_, rfl, ?_⟩
    simp only [Bool.and_eq_true, beq_iff_eq, Size.Around]
    exact ⟨fun h => ⟨h.1.symm, h.2.symm⟩, fun h => ⟨h.1.symm, h.2.symm⟩⟩
  | steps a b c d e f =>
    obtain ⟨hc, hf⟩ := hs
    simp only [sizeFits]
    split
    · rename_i hr
      rw [divides16, if_neg (by omega)]
      cases hx : (16 % c == 0) with
      | true =>
        refine ⟨16 % f == 0, by simp only [divides16]; rw [if_neg (by omega)], ?_⟩
        rw [dvd_iff]
        exact ⟨fun h => ⟨hr.1, hr.2.1, hr.2.2.1, hr.2.2.2, dvd_iff.mp hx, h⟩, fun h => h.2.2.2.2.2⟩
      | false =>
        refine ⟨false, rfl, by simp, fun h => ?_⟩
        rw [dvd_iff.mpr h.2.2.2.2.1] at hx
        cases hx
    · rename_i hr
      exact ⟨false, rfl, by simp, fun h => absurd ⟨h.1, h.2.1, h.2.2.1, h.2.2.2.1⟩ hr⟩

theorem canHandle_spec {ss : List Size} (hs : ∀ s ∈ ss, s.Sound) (w h : Nat) :
    ∃ b, canHandle ss w h = .ok b ∧ (b = true ↔ ∃ s ∈ ss, s.Around w h) := by
  induction ss with
  | nil => exact ⟨false, rfl, by simp⟩
  | cons s ss ih =>
    obtain ⟨b, hb, hb'⟩ := sizeFits_spec (hs s (by simp)) w h
    rw [canHandle, hb]
    cases b with
    | true => exact ⟨true, rfl, by simp [hb'.mp rfl]⟩
    | false =>
      obtain ⟨c, hc, hc'⟩ := ih fun s hs' => hs s (by simp [hs'])
      refine ⟨c, hc, hc'.trans ⟨fun ⟨s, a, b⟩ => ⟨s, by simp [a], b⟩, ?_⟩⟩
      rintro ⟨t, ht, ha⟩
      rcases List.mem_cons.mp ht with rfl | ht
      · exact absurd (hb'.mpr ha) (by simp)
      · exact ⟨t, ht, ha⟩

theorem caps_iff (c : Nat) :
    c &&& requiredCaps = requiredCaps ↔ c.testBit 14 = true ∧ c.testBit 26 = true := by
  constructor
  · intro h
    have h1 := congrArg (·.testBit 14) h
    have h2 := congrArg (·.testBit 26) h
    simp only [Nat.testBit_and] at h1 h2
    have e1 : requiredCaps.testBit 14 = true := by decide
    have e2 : requiredCaps.testBit 26 = true := by decide
    rw [e1, Bool.and_true] at h1
    rw [e2, Bool.and_true] at h2
    exact ⟨h1, h2⟩
  · rintro ⟨h1, h2⟩
    apply Nat.eq_of_testBit_eq
    intro i
    rw [Nat.testBit_and]
    by_cases hi : requiredCaps.testBit i = true
    · have : i = 14 ∨ i = 26 := by
        have hr : requiredCaps = 2 ^ 14 ||| 2 ^ 26 := by decide
        rw [hr, Nat.testBit_or, Nat.testBit_two_pow, Nat.testBit_two_pow] at hi
        simp only [Bool.or_eq_true, decide_eq_true_eq] at hi
        omega
      rcases this with rfl | rfl
      · rw [h1, hi]; rfl
      · rw [h2, hi]; rfl
    · rw [Bool.eq_false_iff.mpr hi, Bool.and_false]

theorem isVideo_iff (n : String) :
    isVideo n = true ↔ ∃ rest, n.toList = 'v' :: 'i' :: 'd' :: 'e' :: 'o' :: rest := by
  unfold isVideo
  rw [beq_iff_eq]
  generalize n.toList = l
  constructor
  · intro h
    exact ⟨l.drop 5, by
      conv => lhs; rw [← List.take_append_drop 5 l, h]
      rfl⟩
  · rintro ⟨r, rfl⟩
    rfl

theorem isCapable_spec {d : Dev} (hs : ∀ s ∈ d.sizes, s.Sound) (w h : Nat) :
    ∃ b, isCapable d w h = .ok b ∧ (b = true ↔
      (∃ c, d.caps = some c ∧ c.testBit 14 = true ∧ c.testBit 26 = true) ∧
        V4l2.fourcc 'H' '2' '6' '4' ∈ d.captures ∧ ∃ s ∈ d.sizes, s.Around w h) := by
  unfold isCapable
  cases hc : d.caps with
  | none => exact ⟨false, rfl, by simp⟩
  | some c =>
    dsimp only
    split
    · rename_i hr
      refine ⟨false, rfl, by simp, ?_⟩
      rintro ⟨⟨c', e, h1⟩, -⟩
      obtain rfl := Option.some.inj e
      exact absurd ((caps_iff c).mpr h1) hr
    · rename_i hr
      have hr' := (caps_iff c).mp (Classical.byContradiction hr)
      split
      · rename_i he
        refine ⟨false, rfl, by simp, ?_⟩
        rintro ⟨-, h1, -⟩
        have : canEncode d = true := List.contains_iff_mem.mpr h1
        rw [this] at he
        cases he
      · rename_i he
        have he' : canEncode d = true := by simpa using he
        obtain ⟨b, hb, hb'⟩ := canHandle_spec hs w h
        exact ⟨b, hb, hb'.trans ⟨fun x => ⟨⟨c, rfl, hr'⟩, List.contains_iff_mem.mp he', x⟩, fun x => x.2.2⟩⟩

/-- the first that is able, if there is one -/
theorem find_spec {es : List Entry} (hs : Sound es) (w h : Nat) :
    (∃ before e after, es = before ++ e :: after ∧ (∀ x ∈ before, ¬ Able w h x) ∧ Able w h e ∧
        find es w h = .ok (some e.dev)) ∨
      (∀ x ∈ es, ¬ Able w h x) ∧ find es w h = .ok none := by
  induction es with
  | nil => exact .inr ⟨by simp, rfl⟩
  | cons e es ih =>
    have skip : ¬ Able w h e → find (e :: es) w h = find es w h →
        (∃ before e' after, e :: es = before ++ e' :: after ∧ (∀ x ∈ before, ¬ Able w h x) ∧
          Able w h e' ∧ find (e :: es) w h = .ok (some e'.dev)) ∨
        (∀ x ∈ e :: es, ¬ Able w h x) ∧ find (e :: es) w h = .ok none := by
      intro hn hf
      rw [hf]
      rcases ih fun x hx => hs x (by simp [hx]) with ⟨b, e', a, h1, h2, h3, h4⟩ | ⟨h1, h2⟩
      · refine .inl ⟨e :: b, e', a, by rw [h1]; rfl, ?_, h3, h4⟩
        intro x hx
        rcases List.mem_cons.mp hx with rfl | hx
        · exact hn
        · exact h2 x hx
      · refine .inr ⟨?_, h2⟩
        intro x hx
        rcases List.mem_cons.mp hx with rfl | hx
        · exact hn
        · exact h1 x hx
    by_cases hv : isVideo e.name = true
    · by_cases ho : e.dev.opens = true
      · obtain ⟨b, hb, hb'⟩ := isCapable_spec (hs e (by simp)) w h
        cases b with
        | true =>
          refine .inl ⟨[], e, es, rfl, by simp, ?_, by simp [find, hv, ho, hb]⟩
          obtain ⟨h1, h2, h3⟩ := hb'.mp rfl
          exact ⟨(isVideo_iff _).mp hv, ho, h1, h2, h3⟩
        | false =>
          refine skip (fun a => ?_) (by simp [find, hv, ho, hb])
          exact absurd (hb'.mpr ⟨a.caps, a.codes, a.size⟩) (by simp)
      · exact skip (fun a => ho a.opens) (by simp [find, hv, ho])
    · exact skip (fun a => hv ((isVideo_iff _).mpr a.video)) (by simp [find, hv])

theorem alignUp16_spec {n : Nat} (h : n + 15 < 4294967296) :
    16 ∣ alignUp16 n ∧ n ≤ alignUp16 n ∧ alignUp16 n < n + 16 := by
  unfold alignUp16
  rw [Nat.mod_eq_of_lt h]
  refine ⟨⟨(n + 15) / 16, by omega⟩, ?_, ?_⟩ <;> omega

end Verif.Device
