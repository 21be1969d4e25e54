import Verif.Lemmas.Device

/-! # C110: the hardware encoder is made on a device that can do it -/

namespace Verif.Device
open V4l2 (drmBytes v4l2Bytes)

/-- an encoder of a Raspberry Pi and others, for examples -/
def sample : Dev :=
  { caps := some 0x04204000, driver := "some-codec", captures := [h264],
    sizes := [.steps 32 1920 2 32 1920 2], outs := [V4l2.Pix.rgb32, V4l2.Pix.bgrx32] }

/-- what of a result can be compared -/
def view : Outcome (Option Chosen) → Option (Fmt × Fmt × List Size × List Nat)
  | .ok (some c) => some (c.src, c.dst, c.dev.sizes, c.dev.outs)
  | _ => none

theorem view_some {o : Outcome (Option Chosen)} {a b c d} (h : view o = some (a, b, c, d)) :
    ∃ r, o = .ok (some r) ∧ r.src = a ∧ r.dst = b ∧ r.dev.sizes = c ∧ r.dev.outs = d := by
  cases o with
  | ok x =>
    cases x with
    | none => cases h
    | some r =>
      simp only [view, Option.some.injEq, Prod.mk.injEq] at h
      exact ⟨r, rfl, h⟩
  | ub _ => cases h
  | abort _ => cases h

/-- The device that is used is the first in /dev that can be opened, is named like a video device, can
transfer as needed, codes H.264 and has the size or a range with it. If there is none then there is no
encoder. This is so for all devices, unless one says that its step is zero. -/
theorem c110_device_partial (es : List Entry) (drm w h : Nat) (hs : Sound es)
    (ho : ∀ e ∈ es, e.dev.outs.length ≤ 256) :
    ∃ r, setup es drm w h = .ok r ∧
      (∀ c, r = some c → ∃ before e after, es = before ++ e :: after ∧ (∀ x ∈ before, ¬ Able w h x) ∧
        Able w h e ∧ c.dev = e.dev) ∧
      ((∀ x ∈ es, ¬ Able w h x) → r = none) := by
  unfold setup
  rcases find_spec hs w h with ⟨b, e, a, h1, h2, h3, h4⟩ | ⟨h1, h2⟩
  · rw [h4, Outcome.bind_ok]
    have hlen := ho e (by rw [h1]; simp)
    have hne : ¬ ∀ x ∈ es, ¬ Able w h x := fun hn => hn e (by rw [h1]; simp) h3
    dsimp only
    rw [setSrc, V4l2.supportedFormats, if_neg (by omega), Outcome.bind_ok]
    have fin : ∀ x : Option Fmt, ∃ r, (match x with
        | none => pure none
        | some src => match setDst e.dev w h with
          | none => pure none
          | some dst => pure (some { dev := e.dev, src, dst }) : Outcome (Option Chosen)) = .ok r ∧
        ∀ c, r = some c → c.dev = e.dev := by
      intro x
      cases x with
      | none => exact ⟨none, rfl, fun c h => by cases h⟩
      | some src =>
        cases setDst e.dev w h with
        | none => exact ⟨none, rfl, fun c h => by cases h⟩
        | some dst => exact ⟨_, rfl, fun c h => by cases h; rfl⟩
    dsimp only
    generalize (if e.dev.driver = "bcm2835-codec" then formatBcm2835 drm
      else V4l2.formatFromDrm (V4l2.sort e.dev.outs) drm) = f
    by_cases hf : f = 0
    · rw [if_pos hf]
      exact ⟨none, rfl, (fun c h => by cases h), fun _ => rfl⟩
    · rw [if_neg hf]
      by_cases hg : (!e.dev.gets) = true
      · rw [if_pos hg]
        exact ⟨none, rfl, (fun c h => by cases h), fun _ => rfl⟩
      · rw [if_neg hg]
        obtain ⟨r, hr, hc⟩ := fin (e.dev.setOut ⟨f, alignUp16 w, alignUp16 h⟩)
        exact ⟨r, hr, fun c h => ⟨b, e, a, h1, h2, h3, hc c h⟩, fun hn => absurd hn hne⟩
  · rw [h2, Outcome.bind_ok]
    exact ⟨none, rfl, (fun c h => by cases h), fun _ => rfl⟩

example : view (setup [⟨"video0", { sample with captures := [] }⟩, ⟨"audio", sample⟩, ⟨"video11", sample⟩]
    V4l2.Drm.argb8888 640 480) =
    some (⟨V4l2.Pix.rgb32, 640, 480⟩, ⟨h264, 640, 480⟩, sample.sizes, sample.outs) := by decide +kernel

/-- What the device is set to, if its driver does what it is asked for or fails: one of its own formats,
with the bytes of the framebuffer's in reverse (see C88), in the smallest size that holds the picture and
is a multiple of 16; and H.264 of the size of the picture. It takes no more for an encoder than that the
device has such a format and does not fail. -/
theorem c110_formats_partial (es : List Entry) (drm w h : Nat) (hs : Sound es)
    (ho : ∀ e ∈ es, e.dev.outs.length ≤ 256) (hw : w + 15 < 2 ^ 32) (hh : h + 15 < 2 ^ 32)
    (before after : List Entry) (e : Entry) (hes : es = before ++ e :: after)
    (hb : ∀ x ∈ before, ¬ Able w h x) (he : Able w h e) (hobeys : e.dev.Obeys)
    (hd : e.dev.driver ≠ "bcm2835-codec") :
    (∀ c, setup es drm w h = .ok (some c) →
      c.src.pixfmt ∈ e.dev.outs ∧
      (∃ a, drmBytes drm = some a ∧ v4l2Bytes c.src.pixfmt = some a.reverse) ∧
      (16 ∣ c.src.width ∧ w ≤ c.src.width ∧ c.src.width < w + 16) ∧
      (16 ∣ c.src.height ∧ h ≤ c.src.height ∧ c.src.height < h + 16) ∧
      c.dst = ⟨V4l2.fourcc 'H' '2' '6' '4', w, h⟩) ∧
    ((∃ c, setup es drm w h = .ok (some c)) ↔
      (∃ a p, drmBytes drm = some a ∧ v4l2Bytes p = some a.reverse ∧ p ∈ e.dev.outs) ∧
      e.dev.gets = true ∧ (∃ p wd ht, e.dev.setOut ⟨p, wd, ht⟩ ≠ none ∧ p = V4l2.formatFromDrm
        (V4l2.sort e.dev.outs) drm ∧ wd = alignUp16 w ∧ ht = alignUp16 h) ∧
      e.dev.setCapture ⟨V4l2.fourcc 'H' '2' '6' '4', w, h⟩ ≠ none) := by
  have hf : find es w h = .ok (some e.dev) := by
    subst hes
    clear ho hobeys hd
    induction before with
    | nil =>
      rcases find_spec hs w h with ⟨b, e', a, h1, h2, h3, h4⟩ | ⟨h1, h2⟩
      · cases b with
        | nil =>
          simp only [List.nil_append, List.cons.injEq] at h1
          rw [h4, h1.1]
        | cons x b =>
          simp only [List.nil_append, List.cons_append, List.cons.injEq] at h1
          exact absurd (h1.1 ▸ he) (h2 x (by simp))
      · exact absurd he (h1 e (by simp))
    | cons x bs ih =>
      have hx := hb x (by simp)
      have hrec := ih (fun y hy => hb y (by simp [hy])) (fun y hy => hs y (List.mem_cons_of_mem _ hy))
      rw [List.cons_append, find]
      split
      · exact hrec
      · rename_i hv
        split
        · exact hrec
        · rename_i hop
          obtain ⟨c, hc, hc'⟩ := isCapable_spec (hs x (by simp)) w h
          rw [hc]
          cases c with
          | false => exact hrec
          | true =>
            obtain ⟨k1, k2, k3⟩ := hc'.mp rfl
            exact absurd ⟨(isVideo_iff _).mp (by simpa using hv), by simpa using hop, k1, k2, k3⟩ hx
  have hlen := ho e (by rw [hes]; simp)
  have hperm : ∀ p, p ∈ V4l2.sort e.dev.outs ↔ p ∈ e.dev.outs := fun p =>
    V4l2.mem_sort
  have hz := V4l2.formatFromDrm_zero (V4l2.sort_sorted e.dev.outs) (drm := drm)
  simp only [hperm] at hz
  have hset : setup es drm w h =
      (if V4l2.formatFromDrm (V4l2.sort e.dev.outs) drm = 0 then .ok none
       else if e.dev.gets = false then .ok none
       else match e.dev.setOut ⟨V4l2.formatFromDrm (V4l2.sort e.dev.outs) drm, alignUp16 w, alignUp16 h⟩ with
        | none => .ok none
        | some src => match e.dev.setCapture ⟨h264, w, h⟩ with
          | none => .ok none
          | some dst => .ok (some { dev := e.dev, src, dst }) : Outcome (Option Chosen)) := by
    unfold setup
    rw [hf, Outcome.bind_ok]
    dsimp only
    rw [setSrc, V4l2.supportedFormats, if_neg (by omega), Outcome.bind_ok]
    dsimp only
    rw [if_neg hd]
    split
    · rfl
    · cases hg : e.dev.gets with
      | false => rfl
      | true =>
        simp only [Bool.not_true, Bool.false_eq_true, if_false, Outcome.pure_eq, Outcome.bind_ok, setDst, hg]
        cases e.dev.setOut _ with
        | none => rfl
        | some src => cases e.dev.setCapture _ <;> rfl
  rw [hset]
  split
  · rename_i h0
    refine ⟨fun c h => by (cases h), ⟨fun ⟨c, h⟩ => by (cases h), fun ⟨k, _⟩ => absurd h0 (hz.mpr k)⟩⟩
  · rename_i h0
    have hk := hz.mp h0
    split
    · rename_i hg
      refine ⟨fun c h => by (cases h), ⟨fun ⟨c, h⟩ => by (cases h), fun ⟨_, k, _⟩ => ?_⟩⟩
      rw [hg] at k; cases k
    · rename_i hg
      cases ho1 : e.dev.setOut ⟨V4l2.formatFromDrm (V4l2.sort e.dev.outs) drm, alignUp16 w, alignUp16 h⟩ with
      | none =>
        refine ⟨fun c h => by (cases h), ⟨fun ⟨c, h⟩ => by (cases h), ?_⟩⟩
        rintro ⟨_, _, ⟨p, wd, ht, k1, rfl, rfl, rfl⟩, _⟩
        exact absurd ho1 k1
      | some src =>
        dsimp only
        cases ho2 : e.dev.setCapture ⟨h264, w, h⟩ with
        | none =>
          refine ⟨fun c h => by (cases h), ⟨fun ⟨c, h⟩ => by (cases h), ?_⟩⟩
          rintro ⟨_, _, _, k⟩
          exact absurd ho2 k
        | some dst =>
          refine ⟨?_, ⟨fun _ => ⟨hk, by simpa using hg, ⟨_, _, _, by rw [ho1]; simp, rfl, rfl, rfl⟩,
            by rw [show V4l2.fourcc 'H' '2' '6' '4' = h264 from rfl, ho2]; simp⟩, fun _ => ⟨_, rfl⟩⟩⟩
          intro c hc
          obtain rfl : _ = c := Option.some.inj (Outcome.ok.inj hc)
          have e1 := hobeys.1 _ _ ho1
          have e2 := hobeys.2 _ _ ho2
          subst e1
          subst e2
          refine ⟨(hperm _).mp (V4l2.formatFromDrm_mem h0), ?_, alignUp16_spec hw, alignUp16_spec hh, rfl⟩
          obtain ⟨a, b, k1, k2, k3, -⟩ := V4l2.c88_byte_order_violated _ _ h0
          exact ⟨a, k1, by rw [k2, k3]⟩

example : view (setup [⟨"video11", sample⟩] V4l2.Drm.xbgr8888 1366 1080) =
    some (⟨V4l2.Pix.bgrx32, 1376, 1088⟩, ⟨h264, 1366, 1080⟩, sample.sizes, sample.outs) := by decide +kernel

/-- A device that says its step is zero, with a range that has the size, makes the process divide by
zero, though another device could do it. -/
theorem c110_step_violated :
    ∃ es, (∃ e ∈ es, Able 640 480 e) ∧ ∃ why, setup es V4l2.Drm.argb8888 640 480 = .ub why := by
  refine ⟨[⟨"video0", { sample with sizes := [.steps 0 4096 0 0 4096 0] }⟩, ⟨"video1", sample⟩],
    ⟨⟨"video1", sample⟩, by simp, ?_⟩, _, rfl⟩
  exact ⟨⟨_, rfl⟩, rfl, ⟨_, rfl, by decide, by decide⟩, by simp [sample, h264],
    .steps 32 1920 2 32 1920 2, by simp [sample], by simp only [Size.Around]; decide⟩

/-- A size is taken though the device does not have it padded to multiples of 16, which is what the device
is then asked for: 1920x1080 of at most 1920x1080, for one. -/
theorem c110_padding_violated :
    ∃ es c, setup es V4l2.Drm.argb8888 1920 1080 = .ok (some c) ∧
      ∀ s ∈ c.dev.sizes, ¬ s.Has c.src.width c.src.height := by
  obtain ⟨c, h1, h2, -, h3, -⟩ := view_some (o := setup
    [⟨"video0", { sample with sizes := [.steps 32 1920 8 32 1080 8] }⟩] V4l2.Drm.argb8888 1920 1080)
    (a := ⟨V4l2.Pix.rgb32, 1920, 1088⟩) (b := ⟨h264, 1920, 1080⟩) (c := [.steps 32 1920 8 32 1080 8])
    (d := sample.outs) (by decide +kernel)
  refine ⟨_, c, h1, ?_⟩
  rw [h2, h3]
  intro s hs
  obtain rfl : s = _ := by simpa using hs
  rintro ⟨-, -, -, h⟩
  revert h
  decide

/-- A size is taken though the device does not have it: the steps are not counted from the smallest. -/
theorem c110_steps_violated :
    ∃ es c, setup es V4l2.Drm.argb8888 641 481 = .ok (some c) ∧
      ∀ s ∈ c.dev.sizes, ¬ s.Has 641 481 ∧ ¬ s.Has c.src.width c.src.height := by
  obtain ⟨c, h1, h2, -, h3, -⟩ := view_some (o := setup
    [⟨"video0", { sample with sizes := [.steps 34 1920 16 34 1920 16] }⟩] V4l2.Drm.argb8888 641 481)
    (a := ⟨V4l2.Pix.rgb32, 656, 496⟩) (b := ⟨h264, 641, 481⟩) (c := [.steps 34 1920 16 34 1920 16])
    (d := sample.outs) (by decide +kernel)
  refine ⟨_, c, h1, ?_⟩
  rw [h2, h3]
  intro s hs
  obtain rfl : s = _ := by simpa using hs
  refine ⟨?_, ?_⟩
  · rintro ⟨⟨k, hk⟩, -⟩
    omega
  · rintro ⟨⟨k, hk⟩, -⟩
    dsimp only at hk
    omega

/-- If the first device that is able has no format for the framebuffers, others are not tried. -/
theorem c110_next_violated :
    ∃ es, (∃ e ∈ es, setup [e] V4l2.Drm.argb8888 640 480 ≠ .ok none) ∧
      setup es V4l2.Drm.argb8888 640 480 = .ok none := by
  refine ⟨[⟨"video0", { sample with outs := [] }⟩, ⟨"video1", sample⟩],
    ⟨⟨"video1", sample⟩, by simp, ?_⟩, ?_⟩
  · intro h
    have : view (setup [⟨"video1", sample⟩] V4l2.Drm.argb8888 640 480) =
        some (⟨V4l2.Pix.rgb32, 640, 480⟩, ⟨h264, 640, 480⟩, sample.sizes, sample.outs) := by decide +kernel
    rw [h] at this
    cases this
  · have h : ∀ o : Outcome (Option Chosen), (match o with | .ok none => true | _ => false) = true →
        o = .ok none := by
      intro o
      rcases o with (_ | _) | _ | _ <;> intro h <;> first | rfl | cases h
    exact h _ (by decide +kernel)

/-- A driver may answer with another format or size than it was asked for; the encoder goes on as if it
had not. On `bcm2835-codec` it asks for formats without looking whether they are there. -/
theorem c110_answer_violated :
    (∃ es c, setup es V4l2.Drm.argb8888 640 480 = .ok (some c) ∧
      v4l2Bytes c.src.pixfmt = none ∧ c.src.width < 640 ∧ c.dst.pixfmt ≠ h264) ∧
    ∃ es c, setup es V4l2.Drm.argb8888 640 480 = .ok (some c) ∧ c.src.pixfmt ∉ c.dev.outs := by
  constructor
  · obtain ⟨c, h1, h2, h3, -⟩ := view_some (o := setup
      [⟨"video0", { sample with
          setOut := fun _ => some ⟨1, 320, 240⟩, setCapture := fun _ => some ⟨1, 320, 240⟩ }⟩]
      V4l2.Drm.argb8888 640 480)
      (a := ⟨1, 320, 240⟩) (b := ⟨1, 320, 240⟩) (c := sample.sizes) (d := sample.outs) (by decide +kernel)
    refine ⟨_, c, h1, ?_⟩
    rw [h2, h3]
    decide
  · obtain ⟨c, h1, h2, -, -, h3⟩ := view_some (o := setup
      [⟨"video0", { sample with driver := "bcm2835-codec", outs := [] }⟩] V4l2.Drm.argb8888 640 480)
      (a := ⟨V4l2.Pix.rgba32, 640, 480⟩) (b := ⟨h264, 640, 480⟩) (c := sample.sizes) (d := []) (by decide +kernel)
    exact ⟨_, c, h1, by rw [h3]; simp⟩

/-- What the device is told of a plane is within the buffer, if the height is a multiple of 16 and the
buffer is large enough for its rows. -/
theorem c110_planes_partial (height size : Nat) (p : Plane) (hh : 16 ∣ height) (hb : height + 15 < 2 ^ 32)
    (hs : p.offset + p.stride * height ≤ size) (ho : size < 2 ^ 32) :
    (tell height p).offset = p.offset ∧ (tell height p).size = p.stride * height ∧
      (tell height p).offset + (tell height p).size ≤ size := by
  have ha : alignUp16 height = height := by
    obtain ⟨k1, k2, k3⟩ := alignUp16_spec (n := height) hb
    omega
  have : (tell height p).size = p.stride * height := by
    unfold tell
    rw [ha]
    exact Nat.mod_eq_of_lt (by omega)
  rw [this]
  exact ⟨rfl, rfl, hs⟩

example : tell 480 ⟨2560, 0⟩ = ⟨0, 1228800⟩ := by decide

/-- With any other height the device is told that there are rows after the last one of the buffer. -/
theorem c110_planes_violated (height stride : Nat) (hh : ¬ 16 ∣ height) (hs : 0 < stride)
    (hb : stride * (height + 15) < 2 ^ 32) (hb' : height + 15 < 2 ^ 32) :
    stride * height < (tell height ⟨stride, 0⟩).size := by
  obtain ⟨k1, k2, k3⟩ := alignUp16_spec (n := height) hb'
  have hlt : height < alignUp16 height := by
    rcases Nat.lt_or_eq_of_le k2 with h | h
    · exact h
    · exact absurd (h ▸ k1) hh
  unfold tell
  have hle : stride * alignUp16 height ≤ stride * (height + 15) := Nat.mul_le_mul_left _ (by omega)
  dsimp only
  rw [Nat.mod_eq_of_lt (by omega)]
  exact Nat.mul_lt_mul_of_pos_left hlt hs

example : (tell 1080 ⟨7680, 0⟩).size = 1080 * 7680 + 8 * 7680 := by decide

end Verif.Device
