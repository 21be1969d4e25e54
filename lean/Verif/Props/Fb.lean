import Verif.Lemmas.Fb

/-! # Properties of framebuffers: C92, C93 -/

namespace Verif.Fb

/-! ## C92: a new framebuffer has room for its pixels -/

theorem alignUp_ge (n : Nat) : n ≤ alignUp n 8 ∧ alignUp n 8 % 8 = 0 ∧ alignUp n 8 < n + 8 := by
  rw [alignUp]
  omega

/-- C92, partial: when the size is below 2^32, the number of pixels below 2^31 and no row is shorter than the
image, every pixel lies inside the memory, in which there are fewer than eight bytes to spare, and the size is
what `aligned_alloc` asks for, a multiple of the alignment. -/
theorem c92_room_partial {width height stride bpp : Nat} (hw : width ≤ stride) (h31 : height * stride < 2 ^ 31)
    (h32 : height * stride * bpp < 2 ^ 32) :
    ∃ n, capacity height stride bpp = .ok n ∧ n % 8 = 0 ∧ n < height * stride * bpp + 8 ∧
      ∀ x y, x < width → y < height → pixelAt stride bpp x y + bpp ≤ n := by
  obtain ⟨h1, h2, h3⟩ := alignUp_ge (height * stride * bpp)
  refine ⟨alignUp (height * stride * bpp) 8, ?_, h2, h3, ?_⟩
  · rw [capacity, sizeOf, if_neg (by omega), Nat.mod_eq_of_lt h32]
  · intro x y hx hy
    refine Nat.le_trans ?_ h1
    rw [pixelAt]
    have : y * stride + x + 1 ≤ height * stride := by
      have := Nat.mul_le_mul_right stride (show y + 1 ≤ height by omega)
      rw [Nat.succ_mul] at this
      omega
    calc (y * stride + x) * bpp + bpp = (y * stride + x + 1) * bpp := by rw [Nat.succ_mul]
      _ ≤ height * stride * bpp := Nat.mul_le_mul_right _ this

/-- C92, partial: distinct pixels of an image do not overlap -/
theorem c92_apart_partial {width stride bpp x y x' y' : Nat} (hw : width ≤ stride) (hx : x < width)
    (hx' : x' < width) (hne : (x, y) ≠ (x', y')) :
    pixelAt stride bpp x y + bpp ≤ pixelAt stride bpp x' y' ∨
      pixelAt stride bpp x' y' + bpp ≤ pixelAt stride bpp x y := by
  have key : ∀ a b, a < b → a * bpp + bpp ≤ b * bpp := fun a b h => by
    rw [← Nat.succ_mul]
    exact Nat.mul_le_mul_right _ h
  have row : ∀ {a b c d}, c < stride → a < b → a * stride + c < b * stride + d := by
    intro a b c d hc h
    have := Nat.mul_le_mul_right stride (show a + 1 ≤ b by omega)
    rw [Nat.succ_mul] at this
    omega
  rcases Nat.lt_trichotomy y y' with h | h | h
  · exact .inl (key _ _ (row (by omega) h))
  · subst h
    have : x ≠ x' := fun e => hne (by rw [e])
    rcases Nat.lt_or_gt_of_ne this with h | h
    · exact .inl (key _ _ (by omega))
    · exact .inr (key _ _ (by omega))
  · exact .inr (key _ _ (row (by omega) h))

example : capacity 1080 1920 4 = .ok 8294400 ∧ pixelAt 1920 4 1919 1079 + 4 = 8294400 ∧
    capacity 3 5 3 = .ok 48 := by decide +kernel

/-- C92, violated: for sizes that the arguments allow, `nvnc_fb_new` returns a framebuffer without memory for its
pixels, since the product is computed with 32 bits. -/
theorem c92_wraps_violated : ∃ width height stride, width < 2 ^ 16 ∧ height < 2 ^ 16 ∧ stride < 2 ^ 16 ∧
    width ≤ stride ∧ ∃ n, capacity height stride 4 = .ok n ∧
    ∃ x y, x < width ∧ y < height ∧ n < pixelAt stride 4 x y :=
  ⟨32768, 32768, 32768, by decide, by decide, by decide, by decide, 0, by decide +kernel, 1, 0, by decide, by decide,
    by decide⟩

/-- C92, violated: the product of height and stride need not fit into an int. -/
theorem c92_overflow_violated : ∃ height stride, height < 2 ^ 16 ∧ stride < 2 ^ 16 ∧
    ∃ w, capacity height stride 4 = .ub w :=
  ⟨65535, 65535, by decide, by decide, "signed overflow of height * stride", by decide +kernel⟩

/-- C92, violated: a stride that is smaller than the width is not rejected. -/
theorem c92_stride_violated : ∃ width height stride n, capacity height stride 4 = .ok n ∧
    ∃ x y, x < width ∧ y < height ∧ n < pixelAt stride 4 x y + 4 :=
  ⟨16, 1, 8, 32, by decide +kernel, 15, 0, by decide, by decide, by decide⟩

/-! ## C93: a framebuffer stays as long as it is used -/

/-- C93: the framebuffer is freed exactly when the application and the users have all let go of it. -/
theorem c93_freed {b : Bool} {os : List Op} {s : State} (h : run os (if b then ofBo else simple) = .ok s) :
    s.freed = true ↔ s.users = [] ∧ s.app = 0 := by
  have hc := run_cnt os _ s (init_cnt b) h
  rw [hc.freed, hc.ref, Nat.add_eq_zero_iff, List.length_eq_zero_iff]

example : run [.acquire 1, .acquire 2, .drop 1, .appUnref] ofBo = .ok { ofBo with
      ref := 1, hold := 1, users := [(2, .holding)], app := 0 } ∧
    run [.acquire 1, .acquire 2, .drop 1, .appUnref, .drop 2] ofBo = .ok { ofBo with
      ref := 0, hold := 0, users := [], app := 0, freed := true, releases := 1 } := ⟨rfl, rfl⟩

/-- C93: the application is told that the framebuffer is free when the last user lets go of it, and at no other
time. -/
theorem c93_release {b : Bool} {os : List Op} {o : Op} {s t : State}
    (h : run os (if b then ofBo else simple) = .ok s) (e : step o s = .ok t) :
    t.releases = s.releases + if s.users ≠ [] ∧ t.users = [] then 1 else 0 := by
  have hc := run_cnt os _ s (init_cnt b) h
  have same : t.users.length = s.users.length → t.releases = s.releases →
      t.releases = s.releases + if s.users ≠ [] ∧ t.users = [] then 1 else 0 := by
    intro h1 h2
    rw [if_neg, h2]
    · rfl
    · rintro ⟨h3, h4⟩
      rw [h4] at h1
      exact h3 (List.length_eq_zero_iff.mp h1.symm)
  have cm : ∀ u ok, (commit u ok s).users.length = s.users.length ∧ (commit u ok s).releases = s.releases := by
    intro u ok
    rw [commit]
    split <;> exact ⟨setPhase_len _ _ _, rfl⟩
  have dr : ∀ u v, (phase u s).isSome = true → s.freed = false →
      (v = { s with users := s.users.filter fun e => e.1 ≠ u } ∨
        v = unmap { s with users := s.users.filter fun e => e.1 ≠ u }) → t = unref (release v) →
      t.releases = s.releases + if s.users ≠ [] ∧ t.users = [] then 1 else 0 := by
    intro u v hp hf hv ht
    obtain ⟨-, -, -, hr⟩ := drop_cnt hc hf hp v hv
    rw [← ht] at hr
    rw [hr]
    obtain ⟨p, hm⟩ := phase_some hp
    have hne : s.users ≠ [] := fun e => by rw [e] at hm; cases hm
    by_cases ht' : t.users = []
    · rw [if_pos ht', if_pos ⟨hne, ht'⟩]
    · rw [if_neg ht', if_neg (fun h => ht' h.2)]
  unfold step at e
  split at e
  · cases e; exact same rfl rfl
  next hf =>
  have hf : s.freed = false := by simpa using hf
  cases o with
  | acquire u =>
    dsimp only at e
    split at e <;> cases e
    · exact same rfl rfl
    · rw [if_neg (by simp)]
      rfl
  | check u =>
    dsimp only at e
    split at e <;> cases e
    · have hk : (check u s).users.length = s.users.length ∧ (check u s).releases = s.releases := by
        rw [check]
        split <;> exact ⟨setPhase_len _ _ _, rfl⟩
      exact same hk.1 hk.2
    · exact same rfl rfl
  | commit u ok =>
    dsimp only at e
    split at e <;> cases e
    · exact same (cm u ok).1 (cm u ok).2
    · exact same rfl rfl
  | map u ok =>
    dsimp only at e
    split at e
    · split at e <;> cases e
      · exact same (setPhase_len _ _ _) rfl
      · exact same (cm u ok).1 (cm u ok).2
    · cases e; exact same rfl rfl
  | read u =>
    dsimp only at e
    split at e
    · split at e <;> cases e
      exact same rfl rfl
    · cases e; exact same rfl rfl
  | drop u =>
    dsimp only at e
    split at e
    next hp => cases e; exact dr u _ hp hf (.inl rfl) rfl
    · cases e; exact same rfl rfl
  | dropDevice u =>
    dsimp only at e
    split at e
    next hp => cases e; exact dr u _ hp hf (.inr rfl) rfl
    · cases e; exact same rfl rfl
  | appRef =>
    dsimp only at e
    split at e <;> cases e <;> exact same rfl rfl
  | appUnref =>
    dsimp only at e
    split at e <;> cases e
    · exact same rfl rfl
    · obtain ⟨u1, -, -, -, u5, -, -⟩ := unref_users { s with app := s.app - 1 }
      exact same (by rw [u1]) u5

example : ((fun s => s.releases) <$> run [.acquire 1, .acquire 2, .drop 1] simple,
    (fun s => s.releases) <$> run [.acquire 1, .acquire 2, .drop 1, .drop 2] simple) =
    ((.ok 0, .ok 1) : Outcome Nat × Outcome Nat) := rfl

/-- C93, partial: when framebuffers are mapped one at a time and not by the hardware encoder, a user that has
mapped a framebuffer can read it until it lets go of it, whatever the others do: no run fails, and reading is
possible at any time. -/
theorem c93_reads_partial (b : Bool) {os : List Op} (h : ∀ o ∈ os, o.Plain) :
    ∃ s, run os (if b then ofBo else simple) = .ok s ∧
      ∀ u, phase u s = some .mapped → s.freed = false ∧ readable s = true := by
  obtain ⟨s, e, hc, hm⟩ := run_mapd os _ (init_cnt b) (init_mapd b) h
  refine ⟨s, e, ?_⟩
  intro u hu
  have hf : s.freed = false := by
    cases hf : s.freed with
    | false => rfl
    | true =>
      have := hc.freed.mp hf
      have hr := hc.ref
      have := List.length_pos_of_mem (phase_mem hu)
      omega
  exact ⟨hf, readable_of hm hf hu⟩

example : run [.acquire 1, .acquire 2, .map 1 true, .map 2 true, .drop 1, .read 2] ofBo = .ok { ofBo with
      ref := 2, hold := 1, addr := some 1, handle := some 1, users := [(2, .mapped)], maps := [1],
      nextMap := 2 } := rfl

/-- C93, partial: under the same conditions at most one mapping exists at a time, and none does while nobody uses
the framebuffer. -/
theorem c93_unmapped_partial (b : Bool) {os : List Op} (h : ∀ o ∈ os, o.Plain) :
    ∃ s, run os (if b then ofBo else simple) = .ok s ∧ s.maps.length ≤ 1 ∧ (s.users = [] → s.maps = []) := by
  obtain ⟨s, e, hc, hm⟩ := run_mapd os _ (init_cnt b) (init_mapd b) h
  refine ⟨s, e, ?_, ?_⟩
  · rw [hm.maps]
    split
    · cases s.handle <;> simp
    · simp
  · intro hu
    rw [hm.maps]
    split
    next hg => rw [hm.none hg hu]; rfl
    · rfl

example : run [.acquire 1, .map 1 true, .drop 1] ofBo = .ok { ofBo with nextMap := 2, releases := 1 } := rfl

/-- C93, violated: the hardware encoder undoes the mapping when the device has finished with a framebuffer,
though another encoder is reading it. -/
theorem c93_device_violated :
    run [.acquire 1, .acquire 2, .map 1 true, .map 2 true, .dropDevice 2, .read 1] ofBo =
      .ub "pixels are not mapped" := rfl

/-- C93, violated: when two threads map a framebuffer at once, one of the mappings is never undone. -/
theorem c93_leak_violated : ∃ s,
    run [.acquire 1, .acquire 2, .check 1, .check 2, .commit 1 true, .commit 2 true, .drop 1, .drop 2, .appUnref]
      ofBo = .ok s ∧ s.freed = true ∧ s.maps = [1] := ⟨_, rfl, rfl, rfl⟩

/-- C93, violated: and when the second of the two fails, the first reads through a null pointer. -/
theorem c93_race_violated :
    run [.acquire 1, .acquire 2, .check 1, .check 2, .commit 1 true, .commit 2 false, .read 1] ofBo =
      .ub "pixels are not mapped" := rfl

/-- C93, violated: `nvnc_set_cursor` lets go of the old cursor before it takes the new one, so that an application
that sets the same framebuffer again, to move the hotspot say, is told that it is free though it is in use. -/
theorem c93_same_cursor_violated : ∃ s t, run [.acquire 1] simple = .ok s ∧ run [.drop 1, .acquire 1] s = .ok t ∧
    s.hold = t.hold ∧ s.users = t.users ∧ t.releases = s.releases + 1 := ⟨_, _, rfl, rfl, rfl, rfl, rfl⟩

end Verif.Fb
