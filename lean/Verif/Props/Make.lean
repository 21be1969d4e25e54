import Verif.Lemmas.Make

/-!
# C108: what cannot be made leaves nothing behind, and what is made can be given back

`Clean sure given new del` (Verif.Spec.Make) says it for one constructor and its destructor: for every
state, and whatever calls of the libraries fail except for those named in `sure`.
-/

namespace Verif.Make

/-- **C108.** The constructors that do what the property says whatever fails: buffers from memory, the
raw and ZRLE encoders, framebuffers, the resampler, displays, TCP streams (which take the socket over
only if they can be made), the upgrade of a stream to RSA-AES, and the TLS credentials. -/
theorem c108_constructors :
    Clean [] nothing rcbufFromMem rcbufDel ∧
    (∀ payload, Clean [] (one payload) (rcbufNew payload) rcbufDel) ∧
    Clean [] nothing rawNew rawDel ∧
    Clean [] nothing zrleNew zrleDel ∧
    Clean [] nothing fbNew fbDel ∧
    Clean [] nothing resamplerNew (fun r => resamplerDel r.1 r.2) ∧
    Clean [] nothing displayNew displayDel ∧
    (∀ fd, Clean [] (one fd) (streamNew fd) streamDel) ∧
    Clean [] nothing rsaUpgrade rsaDowngrade ∧
    Clean [] nothing tlsCreds tlsCredsDel :=
  ⟨rcbufFromMem_clean, rcbufNew_clean, raw_clean, zrle_clean, fb_clean, resampler_clean, display_clean,
    stream_clean, rsa_clean, tlsCreds_clean⟩

-- A display takes five things; with the last one missing it takes none, and none is left.
example : Tells 6 Option.isSome (displayNew (failing [])) = .ok (true, [1, 1, 1, 1, 1, 0]) := by
  decide +kernel
example : Tells 6 Option.isSome (displayNew (failing ["calloc of the hashes"])) =
    .ok (false, [0, 0, 0, 0, 0, 0]) := by decide +kernel
example : (failing ["calloc of the hashes"]).Sound := fun _ _ => rfl

/-- **C108, partial.** The constructors that do so as long as certain calls work: the others may fail in
any way. A Tight encoder needs its work items; a string buffer the second allocation; a WebSocket stream
and a TLS upgrade the handler; the FFmpeg encoder a render node, the parameters of the filter's source,
and the codec; the V4L2 encoder everything from the first mapping on. -/
theorem c108_constructors_partial :
    Clean ["calloc of a worker", "aml_work_new"] nothing tightNew tightDel ∧
    Clean ["calloc"] nothing rcbufFromString rcbufDel ∧
    (∀ fd, Clean ["aml_handler_new", "aml_start"] (one fd) (wsNew fd) streamDel) ∧
    (∀ h, Clean ["aml_handler_new", "aml_start"] (one h) (tlsUpgrade h) tlsDowngrade) ∧
    (∀ known, Clean ["render node", "av_buffersrc_parameters_set", "avcodec_alloc_context3",
      "avcodec_open2"] nothing (ffmpegNew known) ffmpegDel) ∧
    (∀ dev, Clean ["opendir", "VIDIOC_QUERYBUF", "mmap", "alloc_src_buffers", "v4l2_qbuf", "stream_on",
      "aml_handler_new", "aml_start"] nothing (v4l2New dev) v4l2Del) :=
  ⟨tight_clean, rcbufFromString_clean, ws_clean, tls_clean, ffmpeg_clean, v4l2_clean⟩

-- The FFmpeg encoder takes seven things; without the filters it gives back the ones it had by then.
example : Tells 11 Option.isSome (ffmpegNew true (failing [])) =
    .ok (true, [1, 1, 1, 1, 1, 1, 0, 0, 0, 1, 0]) := by decide +kernel
example : Tells 11 Option.isSome (ffmpegNew true (failing ["avfilter_graph_config"])) =
    .ok (false, [0, 0, 0, 0, 0, 0, 0, 0, 0, 0, 0]) := by decide +kernel
-- The V4L2 encoder with the second entry of /dev: structure, descriptor, three mappings, handler.
example : Tells 8 Option.isSome (v4l2New [false, true] (failing [])) =
    .ok (true, [1, 0, 1, 1, 1, 1, 1, 0]) := by decide +kernel

/-- **C108, partial.** What is missing for Tight is a check for `NULL` where it is destroyed: with such a
check nothing need be assumed. -/
theorem c108_tight_partial : Clean [] nothing tightNew tightDelChecked :=
  tightNew_any

-- Two streams and all workers are missing; the contexts of two workers were made and given back.
example : Tells 8 (fun e => e.map fun e => (e.zs, e.workers))
    (tightNew { failing [] with fine := fun _ n => n < 4 || n % 3 == 0 }) =
    .ok (some ([some 2, some 3, none, none], [none, none, none, none]), [1, 1, 1, 1, 0, 0, 0, 0]) := by
  decide +kernel

/-- **C108, partial.** The frame that is made for a framebuffer, whatever fails but its descriptor. -/
theorem c108_avframe_partial (n : Nat) :
    Clean ["calloc of the descriptor"] nothing (fbToAvframe n) avframeFree :=
  fbToAvframe_clean n

example : Tells 6 Option.isSome (fbToAvframe 3 (failing [])) = .ok (true, [1, 1, 1, 1, 1, 1]) := by
  decide +kernel
example : Tells 6 Option.isSome (fbToAvframe 3 (failing ["av_buffer_create"])) =
    .ok (false, [0, 0, 0, 0, 0, 0]) := by decide +kernel

/-- **C108, partial.** Whole lives, of any length: a display whose refinery is given any number of sizes,
an FFmpeg encoder that encodes any number of frames (of any number of planes, giving any number of
packets), an Open H.264 encoder that is given frames of any sequence of sizes, and the loading of an RSA
key, leave nothing behind, as long as the named calls work. -/
theorem c108_lives_partial :
    (∀ n, Neutral ["XXH3_createState", "calloc of the hashes"] (displayLife n)) ∧
    (∀ known planes packets n, Neutral ["render node", "av_buffersrc_parameters_set",
      "avcodec_alloc_context3", "avcodec_open2", "av_hwframe_ctx_init", "calloc of the descriptor",
      "av_frame_alloc of the input", "av_buffer_create", "av_packet_alloc", "calloc of the entry"]
      (ffmpegLife known planes packets n)) ∧
    (∀ sizes, Neutral (["opendir", "VIDIOC_QUERYBUF", "mmap", "alloc_src_buffers", "v4l2_qbuf",
      "stream_on", "aml_handler_new", "aml_start"] ++ ["render node", "av_buffersrc_parameters_set",
      "avcodec_alloc_context3", "avcodec_open2"]) (openH264Life sizes)) ∧
    (∀ n, Neutral ["first line", "malloc"] (rsaKeyLoad n)) :=
  ⟨displayLife_neutral, ffmpegLife_neutral, openH264Life_neutral, rsaKeyLoad_neutral⟩

-- A first size for which V4L2 works, a second for which only FFmpeg does, a third for which none does.
example : Tells 30 (fun _ => ()) (openH264Life [([true], true), ([], true), ([false], false)]
    (failing [])) = .ok ((), List.replicate 30 0) := by decide +kernel
-- A frame whose filter fails, of two planes.
example : Tells 20 (fun _ => ()) (ffmpegLife true 2 5 1 (failing ["av_buffersink_get_frame"])) =
    .ok ((), List.replicate 20 0) := by decide +kernel
-- Two frames whose packets cannot be copied.
example : Tells 40 (fun _ => ()) (ffmpegLife true 1 1 2 (failing ["vec_init"])) =
    .ok ((), List.replicate 40 0) := by decide +kernel
example : Tells 4 id (rsaKeyLoad 3 (failing ["base64_decode"])) = .ok (false, [0, 0, 0, 0]) := by
  decide +kernel

/-- **C108, partial.** `resampler_feed`, as long as the pool and the side data can be had: a call that
fails leaves nothing but the side data of the framebuffer, and a call that works leaves what the work
owns, which its end gives back. -/
theorem c108_resampler_partial (old : Option Nat) (w : World) (hw : w.Sound)
    (hsure : w.Sure ["nvnc_fb_pool_acquire", "calloc side data"])
    (hold : ∀ x, maybe old x ≤ w.live x) :
    ∃ job side w', resamplerFeed old w = .ok ((job, side), w') ∧ w'.Sound ∧
      match job with
      | none => ∀ x, w'.live x + maybe old x = maybe side x + w.live x
      | some j => ∃ mine : Nat → Nat,
          (∀ x, w'.live x + maybe old x = maybe side x + mine x + w.live x) ∧
          GivesBack mine (jobDel j) := by
  obtain ⟨⟨job, side⟩, w', o, e, hs', _, hw', hQ⟩ :=
    resamplerFeed_does old w (fun x => w.live x - maybe old x) hw hsure
      fun x => by have := hold x; omega
  refine ⟨job, side, w', e, hs', ?_⟩
  cases job with
  | none =>
    intro x
    have h := hQ x
    simp only [jobThings] at h
    have := hold x
    have := hw' x
    omega
  | some j =>
    refine ⟨j.things, fun x => ?_, givesBack_of (jobDel_does j)⟩
    have h := hQ x
    simp only [jobThings] at h
    have := hold x
    have := hw' x
    omega

example : Tells 6 (fun r => (r.1.isSome, r.2)) (resamplerFeed none (failing ["aml_start"])) =
    .ok ((false, some 3), [0, 0, 0, 1, 0, 0]) := by decide +kernel

/-- **C108, violated.** The negation of `Clean` for the encoders: a Tight encoder without one of its work
items cannot be destroyed; FFmpeg without a render node reads a name that was never written; its filter
graph is left behind when there is no codec context or the codec cannot be opened; the V4L2 encoder
leaves its mappings behind when the driver refuses to stream, has no buffers for the frames, or lets only
some be mapped, and uses a handler that could not be made. -/
theorem c108_encoders_violated :
    Tells 8 (fun _ => ()) ((do
      match ← tightNew with
      | some e => tightDel e
      | none => pure ()) (failing ["aml_work_new"])) = .ub "aml_unref(NULL)" ∧
    Tells 8 Option.isSome (ffmpegNew true (failing ["render node"])) =
      .ub "the name of the render node is read and was never written" ∧
    Tells 10 Option.isSome (ffmpegNew true (failing ["avcodec_alloc_context3"])) =
      .ok (false, [0, 0, 0, 0, 0, 1, 0, 0, 0, 0]) ∧
    Tells 10 Option.isSome (ffmpegNew true (failing ["avcodec_open2"])) =
      .ok (false, [0, 0, 0, 0, 0, 1, 0, 0, 0, 0]) ∧
    Tells 8 Option.isSome (v4l2New [true] (failing ["stream_on"])) =
      .ok (false, [0, 0, 0, 1, 1, 1, 0, 0]) ∧
    Tells 8 Option.isSome (v4l2New [true] (failing ["alloc_src_buffers"])) =
      .ok (false, [0, 0, 0, 1, 1, 1, 0, 0]) ∧
    (∃ w : World, w.Sound ∧ w.live = nothing ∧
      Tells 8 Option.isSome (v4l2New [true] w) = .ok (false, [0, 0, 0, 1, 1, 0, 0, 0])) ∧
    Tells 8 Option.isSome (v4l2New [true] (failing ["aml_handler_new"])) =
      .ub "aml_set_event_mask(NULL)" := by
  refine ⟨?_, ?_, ?_, ?_, ?_, ?_, ⟨{ failing [] with fine := fun name n => name != "mmap" || n < 12 },
    fun _ _ => rfl, rfl, ?_⟩, ?_⟩ <;> decide +kernel

/-- **C108, violated.** FFmpeg's frames context that cannot be initialised makes an encoder that crashes
with its first frame, and so does a frame's descriptor that cannot be allocated. -/
theorem c108_frame_violated :
    Tells 8 (fun _ => ()) (ffmpegLife true 1 1 1 (failing ["av_hwframe_ctx_init"])) =
      .ub "NULL is dereferenced" ∧
    Tells 8 (fun _ => ()) (ffmpegLife true 1 1 1 (failing ["calloc of the descriptor"])) =
      .ub "NULL is dereferenced" := by
  refine ⟨?_, ?_⟩ <;> decide +kernel

/-- **C108, violated.** A display whose refinery could not be given another size is not destroyed
soundly: what the refinery had is given back twice. -/
theorem c108_refinery_violated :
    Tells 8 (fun _ => ()) ((do
      match ← displayNew with
      | some d =>
        let d ← (fun w => displayResize d { w with fine := fun name _ => name != "calloc of the hashes" })
        displayDel d
      | none => pure ()) (failing [])) = .ub "a thing is given back that is not there" := by
  decide +kernel

/-- **C108, violated.** A string buffer that cannot be made leaves the copy of the string; a WebSocket
stream without a handler is made all the same and cannot be destroyed; an RSA key file that is empty
leaves the stream open; and a transformed frame for which there is no framebuffer, or no side data, leaves
its damage, or that and the framebuffer. -/
theorem c108_others_violated :
    Tells 2 Option.isSome (rcbufFromString (failing ["calloc"])) = .ok (false, [1, 0]) ∧
    Tells 4 (fun _ => ()) ((do
      let fd ← fresh
      match ← wsNew fd with
      | some s => streamDel s
      | none => pure ()) (failing ["aml_handler_new"])) = .ub "NULL is dereferenced" ∧
    Tells 4 (fun _ => ()) ((do
      let fd ← fresh
      match ← wsNew fd with
      | some s => streamDel s
      | none => pure ()) (failing ["aml_start"])) = .ub "a thing is used that is not there" ∧
    Tells 3 id (rsaKeyLoad 5 (failing ["first line"])) = .ok (false, [1, 1, 0]) ∧
    Tells 3 (fun r => r.1.isSome) (resamplerFeed none (failing ["nvnc_fb_pool_acquire"])) =
      .ok (false, [0, 1, 0]) ∧
    Tells 4 (fun r => r.1.isSome) (resamplerFeed none (failing ["calloc side data"])) =
      .ok (false, [0, 1, 1, 0]) := by
  refine ⟨?_, ?_, ?_, ?_, ?_, ?_⟩ <;> decide +kernel

end Verif.Make
