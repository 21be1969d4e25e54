import Verif.Model.AvFrame
import Verif.Spec.V4l2

/-!
# C122: FFmpeg is told what the picture is
-/

namespace Verif.AvFrame

open V4l2 (Chan drmBytes)

/-- The bytes of a pixel in memory, by the comments of libavutil/pixfmt.h 264-267. -/
def avBytes : AvFormat → Option (List Chan)
  | .bgr0 => some [.b, .g, .r, .x]
  | .rgb0 => some [.r, .g, .b, .x]
  | .obgr => some [.x, .b, .g, .r]
  | .orgb => some [.x, .r, .g, .b]
  | .none => none

/-- A place in memory: which memory, and which byte of it. -/
abbrev Place := Int × Nat

/-- Where the byte `x` of line `y` of plane `i` is, by libgbm. -/
def Bo.place (bo : Bo) (i x y : Nat) : Option Place :=
  bo.planes[i]?.map fun p => (p.fd, p.offset + y * p.stride + x)

/-- Where FFmpeg looks for it. -/
def Desc.place (d : Desc) (i x y : Nat) : Option Place :=
  d.planes[i]?.bind fun p => d.objects[p.object]?.map fun o => (o.fd, p.offset + y * p.pitch + x)

theorem describePlanes_length (m h : Nat) (ps : List Plane) : ∀ i,
    (describePlanes m h i ps).length = ps.length := by
  induction ps with
  | nil => intro i; rfl
  | cons p ps ih => intro i; simp only [describePlanes, List.length_cons, ih]

theorem describePlanes_get (m h : Nat) (ps : List Plane) : ∀ i k : Nat,
    (describePlanes m h i ps)[k]? = ps[k]?.map fun p =>
      ((⟨p.fd, p.stride * h % 4294967296, m⟩, ⟨i + k, p.offset, p.stride⟩) : Object × PlaneDesc) := by
  induction ps with
  | nil => intro i k; rfl
  | cons p ps ih =>
    intro i k
    cases k with
    | zero => rfl
    | succ k =>
      simp only [describePlanes, List.getElem?_cons_succ, ih]
      rw [show i + 1 + k = i + (k + 1) by omega]

/-- The pixels that FFmpeg takes them for are those of the framebuffer; of other formats it takes none. -/
theorem c122_bytes (drm : Nat) : avBytes (avFormat drm) = drmBytes drm := by
  unfold avFormat drmBytes
  by_cases h1 : drm = V4l2.fourcc 'X' 'R' '2' '4' ∨ drm = V4l2.fourcc 'A' 'R' '2' '4'
  · rw [if_pos h1, if_pos (show drm = V4l2.Drm.xrgb8888 ∨ drm = V4l2.Drm.argb8888 from h1)]; rfl
  rw [if_neg h1, if_neg (show ¬ (drm = V4l2.Drm.xrgb8888 ∨ drm = V4l2.Drm.argb8888) from h1)]
  by_cases h2 : drm = V4l2.fourcc 'X' 'B' '2' '4' ∨ drm = V4l2.fourcc 'A' 'B' '2' '4'
  · rw [if_pos h2, if_pos (show drm = V4l2.Drm.xbgr8888 ∨ drm = V4l2.Drm.abgr8888 from h2)]; rfl
  rw [if_neg h2, if_neg (show ¬ (drm = V4l2.Drm.xbgr8888 ∨ drm = V4l2.Drm.abgr8888) from h2)]
  by_cases h3 : drm = V4l2.fourcc 'R' 'X' '2' '4' ∨ drm = V4l2.fourcc 'R' 'A' '2' '4'
  · rw [if_pos h3, if_pos (show drm = V4l2.Drm.rgbx8888 ∨ drm = V4l2.Drm.rgba8888 from h3)]; rfl
  rw [if_neg h3, if_neg (show ¬ (drm = V4l2.Drm.rgbx8888 ∨ drm = V4l2.Drm.rgba8888) from h3)]
  by_cases h4 : drm = V4l2.fourcc 'B' 'X' '2' '4' ∨ drm = V4l2.fourcc 'B' 'A' '2' '4'
  · rw [if_pos h4, if_pos (show drm = V4l2.Drm.bgrx8888 ∨ drm = V4l2.Drm.bgra8888 from h4)]; rfl
  rw [if_neg h4, if_neg (show ¬ (drm = V4l2.Drm.bgrx8888 ∨ drm = V4l2.Drm.bgra8888) from h4)]
  rfl

example : avBytes (avFormat V4l2.Drm.xrgb8888) = some [.b, .g, .r, .x] := by decide +kernel
-- RGB565
example : avFormat (V4l2.fourcc 'R' 'G' '1' '6') = .none := by decide +kernel

/-- What FFmpeg has to know about a framebuffer. -/
structure Right (fb : Fb) (t : Told) : Prop where
  size : t.width = fb.width ∧ t.height = fb.height
  context : t.context = (fb.width, fb.height)
  codec : t.codec = (fb.width, fb.height)
  bytes : ∃ b, avBytes t.pixels = some b ∧ drmBytes fb.bo.format = some b
  format : t.desc.format = fb.bo.format
  planes : t.desc.planes.length = fb.bo.planes.length
  place : ∀ i x y, t.desc.place i x y = fb.bo.place i x y
  modifier : ∀ o ∈ t.desc.objects, o.modifier = fb.bo.modifier
  objects : t.desc.objects.map Object.fd = fb.bo.planes.map Plane.fd

theorem describe_right {bo : Bo} {h : Nat} {d : Desc} (e : describe bo h = .ok d) :
    d.format = bo.format ∧ d.planes.length = bo.planes.length ∧
      (∀ i x y, d.place i x y = bo.place i x y) ∧ (∀ o ∈ d.objects, o.modifier = bo.modifier) ∧
      d.objects.map Object.fd = bo.planes.map Plane.fd := by
  rw [describe] at e
  split at e
  · cases e
  · cases e
    refine ⟨rfl, ?_, ?_, ?_, ?_⟩
    · simp only [List.length_map, describePlanes_length]
    · intro i x y
      simp only [Desc.place, Bo.place, List.getElem?_map, describePlanes_get]
      cases hp : bo.planes[i]? with
      | none => rfl
      | some p => simp only [Option.map_some, Option.bind_some, Nat.zero_add, hp]
    · intro o ho
      obtain ⟨k, hk⟩ := List.mem_iff_getElem?.mp ho
      simp only [List.getElem?_map, describePlanes_get] at hk
      cases hp : bo.planes[k]? with
      | none => simp [hp] at hk
      | some p =>
        simp only [hp, Option.map_some, Option.some.injEq] at hk
        rw [← hk]
    · apply List.ext_getElem?
      intro k
      simp only [List.getElem?_map, describePlanes_get]
      cases bo.planes[k]? <;> rfl

/-- The encoder is the one for the size and format that `open_h264` has noted, and FFmpeg was told right so far. -/
structure Inv (s : Open) : Prop where
  encoder : ∀ e, s.encoder = some e → e = ⟨s.width, s.height, s.format⟩ ∧ avFormat e.format ≠ .none
  told : ∀ ft ∈ s.told, Right ft.1 ft.2

theorem feed_inv {fb : Fb} {s s' : Open} (h : Inv s) (hw : fb.width = s.width) (hh : fb.height = s.height)
    (hf : fb.bo.format = s.format) (e : feed fb s = .ok s') : Inv s' := by
  rw [feed] at e
  split at e
  · cases e
  · cases he : s.encoder with
    | none => rw [he] at e; cases e
    | some c =>
      obtain ⟨hc, hn⟩ := h.encoder c he
      simp only [he, tell] at e
      cases hd : describe fb.bo fb.height with
      | ub w => rw [hd] at e; cases e
      | abort w => rw [hd] at e; cases e
      | ok d =>
        rw [hd] at e
        cases e
        obtain ⟨r1, r2, r3, r4, r5⟩ := describe_right hd
        refine ⟨fun c' hc' => h.encoder c' (he.trans hc'), fun ft hft => ?_⟩
        rcases List.mem_cons.mp hft with rfl | hft
        · subst hc
          refine ⟨⟨rfl, rfl⟩, by rw [hw, hh], by rw [hw, hh], ?_, r1, r2, r3, r4, r5⟩
          dsimp only at hn ⊢
          rw [c122_bytes, hf]
          cases hb : drmBytes s.format with
          | some b => exact ⟨b, rfl, rfl⟩
          | none =>
            rw [← c122_bytes] at hb
            exact absurd (by cases ha : avFormat s.format <;> simp [ha, avBytes] at hb ⊢) hn
        · exact h.told ft hft

theorem step_inv {o : Op} {s s' : Open} (h : Inv s) (e : step o s = .ok s') : Inv s' := by
  cases o with
  | quality => cases e; exact ⟨h.encoder, h.told⟩
  | encode fine fb =>
    simp only [step, encode] at e
    split at e
    · unfold resize create at e
      by_cases hc : fine = true ∧ avFormat fb.bo.format ≠ .none
      · simp only [if_pos hc] at e
        refine feed_inv ?_ rfl rfl rfl e
        exact ⟨fun c he => by cases he; exact ⟨rfl, hc.2⟩, h.told⟩
      · simp only [if_neg hc] at e
        cases e
        exact h
    next hk =>
      have hw : fb.width = s.width := Decidable.byContradiction fun g => hk (Or.inl g)
      have hh : fb.height = s.height := Decidable.byContradiction fun g => hk (Or.inr (Or.inl g))
      have hf : fb.bo.format = s.format :=
        Decidable.byContradiction fun g => hk (Or.inr (Or.inr (Or.inl g)))
      exact feed_inv h hw hh hf e

theorem run_inv {os : List Op} : ∀ {s s' : Open}, Inv s → run os s = .ok s' → Inv s' := by
  induction os with
  | nil => intro s s' h e; cases e; exact h
  | cons o os ih =>
    intro s s' h e
    rw [run] at e
    cases hs : step o s with
    | ok t => rw [hs] at e; exact ih (step_inv h hs) e
    | ub w => rw [hs] at e; cases e
    | abort w => rw [hs] at e; cases e

/-- **C122.** Of every frame that it is to encode, over all sequences of framebuffers and changes of quality and
whichever encoders could be made, FFmpeg is told the size, the order of the bytes of a pixel, and for every byte of
every plane the place where it is; and the picture that it makes has the size of the framebuffer. -/
theorem c122_told (os : List Op) (s : Open) (e : run os {} = .ok s) (ft : Fb × Told) (h : ft ∈ s.told) :
    Right ft.1 ft.2 :=
  (run_inv ⟨fun _ h => by simp at h, fun _ h => by simp at h⟩ e).told ft h

/-- A buffer of one plane. -/
def plain : Bo := { planes := [⟨5, 7680, 0⟩], format := V4l2.Drm.xrgb8888, modifier := 0 }
/-- A compressed buffer: the second plane is behind the first in the same memory. -/
def packed : Bo := { planes := [⟨5, 7680, 0⟩, ⟨6, 256, 8355840⟩], format := V4l2.Drm.abgr8888, modifier := 7 }

-- The second frame needs another encoder, the third cannot have one, the fourth needs none.
example : (match run [.encode true ⟨plain, 1920, 1080⟩, .encode true ⟨packed, 1920, 1080⟩,
      .encode false ⟨plain, 1920, 1080⟩, .encode false ⟨packed, 1920, 1080⟩] {} with
    | .ok s => s.told.map fun ft => (ft.2.pixels, ft.2.desc.place 1 4 2)
    | _ => []) = [(.rgb0, some (6, 8356356)), (.rgb0, some (6, 8356356)), (.bgr0, none)] := by decide +kernel

/-- **C122.** Nothing of this can go wrong for framebuffers of at most four planes that have pixels. -/
theorem c122_no_crash (os : List Op) (ho : ∀ fine fb, Op.encode fine fb ∈ os →
    fb.bo.planes.length ≤ 4 ∧ fb.width ≠ 0 ∧ fb.height ≠ 0) : ∃ s, run os {} = .ok s := by
  have hfeed : ∀ (fb : Fb) (s : Open), fb.bo.planes.length ≤ 4 → s.width ≠ 0 → s.height ≠ 0 →
      s.encoder ≠ none → ∃ t, feed fb s = .ok t ∧ t.encoder = s.encoder ∧ t.width = s.width ∧
        t.height = s.height := by
    intro fb s hp hw hh he
    rw [feed, if_neg (by omega)]
    cases hc : s.encoder with
    | none => exact absurd hc he
    | some c =>
      simp only [tell, describe]
      rw [if_neg (by omega)]
      exact ⟨_, rfl, rfl, rfl, rfl⟩
  have hrun : ∀ (os : List Op), (∀ fine fb, Op.encode fine fb ∈ os →
      fb.bo.planes.length ≤ 4 ∧ fb.width ≠ 0 ∧ fb.height ≠ 0) → ∀ s : Open,
      (s.encoder = none → s.width = 0) → ∃ t, run os s = .ok t := by
    intro os
    induction os with
    | nil => intro _ s _; exact ⟨s, rfl⟩
    | cons o os ih =>
      intro ho s hs
      have ho' := fun fine fb h => ho fine fb (List.mem_cons_of_mem _ h)
      rw [run]
      cases o with
      | quality => exact ih ho' _ hs
      | encode fine fb =>
        obtain ⟨hp, hw, hh⟩ := ho fine fb (List.mem_cons_self ..)
        simp only [step, encode]
        by_cases hk : fb.width ≠ s.width ∨ fb.height ≠ s.height ∨ fb.bo.format ≠ s.format ∨
            s.qualityChanged = true
        · rw [if_pos hk]
          unfold resize create
          by_cases hc : fine = true ∧ avFormat fb.bo.format ≠ .none
          · simp only [if_pos hc]
            obtain ⟨t, et, t1, -, -⟩ := hfeed fb { s with
              encoder := some ⟨fb.width, fb.height, fb.bo.format⟩, width := fb.width, height := fb.height
              format := fb.bo.format, qualityChanged := false } hp hw hh (by simp)
            rw [et]
            exact ih ho' t fun g => by rw [t1] at g; cases g
          · simp only [if_neg hc]
            exact ih ho' s hs
        · rw [if_neg hk]
          have h1 : fb.width = s.width := Decidable.byContradiction fun g => hk (Or.inl g)
          have h2 : fb.height = s.height := Decidable.byContradiction fun g => hk (Or.inr (Or.inl g))
          have he : s.encoder ≠ none := fun g => hw (by rw [h1]; exact hs g)
          obtain ⟨t, et, t1, -, -⟩ := hfeed fb s hp (by omega) (by omega) he
          rw [et]
          exact ih ho' t fun g => absurd (t1 ▸ g) he
  exact hrun os ho {} fun _ => rfl

example : ∃ s, run [.encode true ⟨plain, 1920, 1080⟩, .quality, .encode false ⟨plain, 1920, 1080⟩] {} = .ok s :=
  c122_no_crash _ fun fine fb h => by
    simp only [List.mem_cons, Op.encode.injEq, List.not_mem_nil, or_false, reduceCtorEq, false_or] at h
    rcases h with ⟨-, rfl⟩ | ⟨-, rfl⟩ <;> decide

/-- **C122, partial.** Every plane lies within what FFmpeg is told to be the size of its memory, for planes that
begin where the memory does and have less than 4 GB. -/
theorem c122_extent_partial {bo : Bo} {h : Nat} {d : Desc} (e : describe bo h = .ok d)
    (hp : ∀ p ∈ bo.planes, p.offset = 0 ∧ p.stride * h < 4294967296)
    (i : Nat) (p : PlaneDesc) (hi : d.planes[i]? = some p) :
    ∃ o, d.objects[p.object]? = some o ∧ p.offset + h * p.pitch ≤ o.size := by
  rw [describe] at e
  split at e
  · cases e
  · cases e
    simp only [List.getElem?_map, describePlanes_get] at hi ⊢
    cases hq : bo.planes[i]? with
    | none => simp [hq] at hi
    | some q =>
      simp only [hq, Option.map_some, Option.some.injEq] at hi
      subst hi
      obtain ⟨h0, hs⟩ := hp q (List.mem_iff_getElem?.mpr ⟨i, hq⟩)
      refine ⟨_, by simp only [Nat.zero_add, hq, Option.map_some]; rfl, ?_⟩
      dsimp only
      rw [Nat.mod_eq_of_lt hs, h0, Nat.mul_comm]
      omega

example : (match describe plain 1080 with | .ok d => d.objects.map Object.size | _ => []) = [8294400] := by
  decide +kernel

/-- **C122, violated.** A plane that begins further on, with a line of which anything is to be read, never lies within
what FFmpeg is told to be the size of its memory: no offset is added to it. -/
theorem c122_extent_violated {bo : Bo} {h : Nat} {d : Desc} (e : describe bo h = .ok d) (i : Nat) (q : Plane)
    (hq : bo.planes[i]? = some q) (ho : 0 < q.offset) :
    ∃ p o, d.planes[i]? = some p ∧ d.objects[p.object]? = some o ∧ o.size < p.offset + h * p.pitch := by
  rw [describe] at e
  split at e
  · cases e
  · cases e
    simp only [List.getElem?_map, describePlanes_get]
    refine ⟨_, _, by rw [hq]; rfl, by simp only [Nat.zero_add, hq, Option.map_some]; rfl, ?_⟩
    dsimp only
    have := Nat.mod_le (q.stride * h) 4294967296
    rw [Nat.mul_comm h]
    omega

example : (match describe packed 1080 with
    | .ok d => (d.planes.map fun p => p.offset + 1080 * p.pitch, d.objects.map Object.size)
    | _ => ([], [])) = ([8294400, 8632320], [8294400, 276480]) := by decide +kernel

/-- **C122, violated.** A descriptor that libgbm could not make is passed on as it is. -/
theorem c122_descriptor_violated : ∃ d, describe { plain with planes := [⟨-1, 7680, 0⟩] } 1080 = .ok d ∧
    d.objects = [⟨-1, 8294400, 0⟩] := ⟨_, rfl, by decide +kernel⟩

end Verif.AvFrame
