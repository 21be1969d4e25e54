import Verif.Spec.Messages
import Verif.Lemmas.ServerFrame

/-!
# What the handlers make of well-formed messages
-/

namespace Verif.Server

variable {table : List Nat} {env : Env} {r : St → Outcome St}

theorem toNat8 {n : Nat} (h : n < 256) : (UInt8.ofNat n).toNat = n := by
  rw [toNat_ofNat8]; omega

theorem slice_append {a b : Bytes} {i n : Nat} (h : i + n = a.length) :
    slice (a ++ b) i n = some (a.drop i) := by
  unfold slice
  rw [if_pos (by simp; omega), List.drop_append_of_le_length (by omega),
    List.take_append_of_le_length (by simp; omega), List.take_of_length_le (by simp; omega)]

theorem slice_body {hd body rest : Bytes} {n : Nat} (h : body.length = n) :
    slice (hd ++ body ++ rest) hd.length n = some body := by
  rw [slice_append (by simp; omega)]; simp

theorem tryRead_ready {s : St} (h : s.cl.st = .ready) (a) :
    tryRead env table r s a = onMessage env table r s a := by unfold tryRead; rw [h]

theorem msg_key {s : St} (h : s.cl.st = .ready) {d p : UInt8} {sym : Nat}
    (hs : sym < 4294967296) (rest) :
    tryRead env table r s ((Msg.key d p sym).wire ++ rest) = .ok (emit (.key sym (d != 0)) s, 8) := by
  rw [tryRead_ready h]
  simp [Msg.wire, onMessage, onKey, be32, rd32_be32 _ hs]

theorem msg_pointer {s : St} (h : s.cl.st = .ready) {m : UInt8} {x y : Nat}
    (hx : x < 65536) (hy : y < 65536) (rest) :
    tryRead env table r s ((Msg.pointer m x y).wire ++ rest) =
      .ok (emit (.pointer x y m.toNat) s, 6) := by
  rw [tryRead_ready h]
  simp [Msg.wire, onMessage, onPointer, be16, rd16_be16 _ hx, rd16_be16 _ hy]

theorem msg_qemuKey {s : St} (h : s.cl.st = .ready) {d sym code : Nat} {v : Nat}
    (hd : d < 65536) (hc : code < 4294967296) (hv : table[code]? = some v) (rest) :
    tryRead env table r s ((Msg.qemuKey d sym code).wire ++ rest) =
      .ok (emit (.keyCode (if v = 0 then code else v) (decide (d ≠ 0))) s, 12) := by
  rw [tryRead_ready h]
  simp [Msg.wire, onMessage, onQemu, onQemuKey, be16, be32, rd16_be16 _ hd, rd32_be32 _ hc, hv]

theorem msg_pixfmt {s : St} (h : s.cl.st = .ready) {p : UInt8} {f : PixFmt}
    (hf : f.Fits) (ht : f.trueColour ≠ 0) (rest) :
    tryRead env table r s ((Msg.setPixelFormat p f).wire ++ rest) =
      .ok (emit (.pixFmt f) (s.upd fun k => { k with pix := f, formatsChanged := true }), 20) := by
  obtain ⟨h1, h2, h3, h4, h5, h6, h7, h8, h9, h10⟩ := hf
  rw [tryRead_ready h]
  have ht' : UInt8.ofNat f.trueColour ≠ 0 := by
    intro hc
    have := congrArg UInt8.toNat hc
    rw [toNat8 h4] at this
    exact ht this
  simp only [Msg.wire, be16, List.cons_append, List.nil_append, onMessage, if_pos,
    onSetPixelFormat, if_pos ht', rd16_be16 _ h5, rd16_be16 _ h6, rd16_be16 _ h7, toNat8 h1,
    toNat8 h2, toNat8 h3, toNat8 h4, toNat8 h8, toNat8 h9, toNat8 h10]
  rfl

theorem msg_cutText {s : St} (h : s.cl.st = .ready) {p : UInt8} {text : Bytes}
    (hl : text.length ≤ maxCutText) (rest) :
    tryRead env table r s ((Msg.cutText p text).wire ++ rest) =
      .ok (emit (.cutText text) s, 8 + text.length) := by
  rw [tryRead_ready h]
  unfold maxCutText at hl
  have hl' : text.length < 4294967296 := by omega
  have h0 : ¬ 128 ≤ (UInt8.ofNat (text.length / 16777216)).toNat := by
    rw [toNat8 (by omega)]; omega
  simp only [Msg.wire, be32, List.cons_append, List.nil_append, onMessage]
  rw [if_neg (by decide), if_neg (by decide), if_neg (by decide), if_neg (by decide),
    if_neg (by decide), if_pos trivial]
  simp only [onCutText, h0, and_false, if_false, onPlainCutText, rd32_be32 _ hl']
  rw [if_neg (by unfold maxCutText; omega), if_pos (by simp; omega)]
  simp

theorem wire32_read (i : Int) (h : -2147483648 ≤ i) (h' : i < 2147483648) :
    ∃ a b c d, wire32 i = [a, b, c, d] ∧ toInt32 (rd32 a b c d) = i := by
  have hlt : (i % 4294967296).toNat < 4294967296 := by omega
  refine ⟨_, _, _, _, rfl, ?_⟩
  rw [rd32_be32 _ hlt]
  unfold toInt32
  split <;> omega

theorem msg_cutText_long {s : St} (h : s.cl.st = .ready) {p : UInt8} {text : Bytes}
    (hf : text.length < 2147483648) (hl : maxCutText < text.length) (rest) :
    tryRead env table r s ((Msg.cutText p text).wire ++ rest) =
      .ub "client used after nvnc_client_close" := by
  rw [tryRead_ready h]
  have hl' : text.length < 4294967296 := by omega
  have h0 : ¬ 128 ≤ (UInt8.ofNat (text.length / 16777216)).toNat := by
    rw [toNat8 (by omega)]; omega
  simp only [Msg.wire, be32, List.cons_append, List.nil_append, onMessage]
  rw [if_neg (by decide), if_neg (by decide), if_neg (by decide), if_neg (by decide),
    if_neg (by decide), if_pos trivial]
  simp only [onCutText, h0, and_false, if_false, onPlainCutText, rd32_be32 _ hl']
  rw [if_pos hl]

theorem msg_qemuKey_out {s : St} (h : s.cl.st = .ready) {d sym code : Nat}
    (hc : code < 4294967296) (hv : table[code]? = none) (rest) :
    tryRead env table r s ((Msg.qemuKey d sym code).wire ++ rest) =
      .ub "code_map_qnum_to_linux read out of bounds" := by
  rw [tryRead_ready h]
  simp [Msg.wire, onMessage, onQemu, onQemuKey, be16, be32, rd32_be32 _ hc, hv]

theorem msg_pixmap {s : St} (h : s.cl.st = .ready) {p : UInt8} {f : PixFmt}
    (ht : f.trueColour = 0) (rest) :
    tryRead env table r s ((Msg.setPixelFormat p f).wire ++ rest) =
      .ok ((send .colourMap rgb332Map (emit (.pixFmt cookedFmt) (s.upd fun k => { k with pix := cookedFmt }))).upd
        fun k => { k with formatsChanged := true }, 20) := by
  rw [tryRead_ready h]
  simp only [Msg.wire, be16, List.cons_append, List.nil_append, onMessage, if_pos,
    onSetPixelFormat, ht]
  rw [if_neg (by decide)]

/-- the encodings kept by the scan -/
theorem scan_encodings {x : Bool} (es : List Int)
    (h : ∀ e ∈ es, -2147483648 ≤ e ∧ e < 2147483648) : ∀ acc q, acc.length ≤ maxEncodings →
    (scanEncodings x (es.flatMap wire32) acc q).1 =
      acc ++ (es.filter (recognised x)).take (maxEncodings - acc.length) := by
  induction es with
  | nil => intro acc q _; simp [scanEncodings]
  | cons e es ih =>
    intro acc q hacc
    obtain ⟨a, b, c, d, hw, hr⟩ := wire32_read e (h e (by simp)).1 (h e (by simp)).2
    rw [List.flatMap_cons, hw]
    simp only [List.cons_append, List.nil_append, scanEncodings, hr]
    have ih' := ih (fun e he => h e (by simp [he]))
    split
    · rename_i hfull
      rw [show maxEncodings - acc.length = 0 by omega]; simp
    · rename_i hfull
      cases hrec : recognised x e
      · simp only [Bool.false_eq_true, if_false]
        rw [ih' _ _ hacc, List.filter_cons_of_neg (by simp [hrec])]
      · simp only [if_true]
        rw [ih' _ _ (by simp; omega), List.filter_cons_of_pos hrec]
        obtain ⟨k, hk⟩ : ∃ k, maxEncodings - acc.length = k + 1 :=
          ⟨maxEncodings - acc.length - 1, by omega⟩
        rw [hk, List.take_succ_cons, show maxEncodings - (acc ++ [e]).length = k by simp; omega]
        simp

theorem recognised_quality {x : Bool} {e : Int} (h1 : -32 ≤ e) (h2 : e ≤ -23) :
    recognised x e = false := by
  have : e = -32 ∨ e = -31 ∨ e = -30 ∨ e = -29 ∨ e = -28 ∨ e = -27 ∨ e = -26 ∨ e = -25 ∨
    e = -24 ∨ e = -23 := by omega
  cases x <;> rcases this with h | h | h | h | h | h | h | h | h | h <;> subst h <;> decide

/-- the quality level found by the scan, when the list is not cut short -/
theorem scan_quality {x : Bool} (es : List Int)
    (h : ∀ e ∈ es, -2147483648 ≤ e ∧ e < 2147483648) : ∀ acc q,
    acc.length + (es.filter (recognised x)).length < maxEncodings →
    (scanEncodings x (es.flatMap wire32) acc q).2 =
      ((es.filter fun e => decide (-32 ≤ e) && decide (e ≤ -23)).getLast?.map (· + 32)).getD q := by
  induction es with
  | nil => intro acc q _; simp [scanEncodings]
  | cons e es ih =>
    intro acc q hacc
    obtain ⟨a, b, c, d, hw, hr⟩ := wire32_read e (h e (by simp)).1 (h e (by simp)).2
    rw [List.flatMap_cons, hw]
    simp only [List.cons_append, List.nil_append, scanEncodings, hr]
    have ih' := ih (fun e he => h e (by simp [he]))
    rw [if_neg (by omega)]
    by_cases hq : -32 ≤ e ∧ e ≤ -23
    · have hrec := recognised_quality (x := x) hq.1 hq.2
      simp only [hrec, Bool.false_eq_true, if_false, if_pos hq]
      rw [List.filter_cons_of_neg (by simp [hrec])] at hacc
      rw [ih' _ _ hacc, List.filter_cons_of_pos (by simp [hq])]
      rw [List.getLast?_cons]
      cases hlast : (es.filter fun e => decide (-32 ≤ e) && decide (e ≤ -23)).getLast? <;> simp
    · simp only [if_neg hq]
      rw [List.filter_cons_of_neg (p := fun e => decide (-32 ≤ e) && decide (e ≤ -23))
        (by simpa using hq)]
      cases hrec : recognised x e
      · rw [List.filter_cons_of_neg (by simp [hrec])] at hacc
        simp only [Bool.false_eq_true, if_false]
        exact ih' _ _ hacc
      · rw [List.filter_cons_of_pos hrec] at hacc
        simp only [if_true]
        refine ih' _ _ ?_
        simp at hacc ⊢; omega

theorem flatMap_wire32_length (es : List Int) : (es.flatMap wire32).length = es.length * 4 := by
  induction es with
  | nil => rfl
  | cons e es ih => rw [List.flatMap_cons, List.length_append, ih]; simp [wire32]; omega

theorem msg_setEncodings {s : St} (h : s.cl.st = .ready) {p : UInt8} {es : List Int}
    (hl : es.length < 65536) (rest) :
    tryRead env table r s ((Msg.setEncodings p es).wire ++ rest) =
      (do
        let (encs, q) := scanEncodings env.experimental (es.flatMap wire32) [] 10
        let s := emit (.encodings encs)
          (s.upd fun k => { k with encodings := encs, quality := q, formatsChanged := true })
        let s := notifyCont s
        let s := if hasEnc s.cl encExtClipboard then sendClipCaps s else s
        let s ← sendPing env 0 s
        .ok (s, 4 + 4 * es.length)) := by
  rw [tryRead_ready h]
  have hsl : slice ([2, p] ++ be16 es.length ++ es.flatMap wire32 ++ rest) 4 (es.length * 4) =
      some (es.flatMap wire32) :=
    slice_body (hd := [2, p] ++ be16 es.length) (flatMap_wire32_length es)
  simp only [Msg.wire, be16, List.cons_append, List.nil_append, onMessage] at hsl ⊢
  rw [if_neg (by decide), if_pos trivial]
  unfold onSetEncodings
  simp only [rd16_be16 _ hl, hsl]

theorem parseScreens_wire {flags : Nat} (ss : List Screen) (h : ∀ s ∈ ss, s.Fits) :
    parseScreens (ss.flatMap (·.wire flags)) = ss := by
  induction ss with
  | nil => rfl
  | cons s ss ih =>
    obtain ⟨h1, h2, h3, h4, h5⟩ := h s (by simp)
    rw [List.flatMap_cons]
    generalize hr : ss.flatMap (·.wire flags) = rest at ih ⊢
    simp only [Screen.wire, be32, be16, List.cons_append, List.nil_append, parseScreens]
    rw [rd32_be32 _ h1, rd16_be16 _ h2, rd16_be16 _ h3, rd16_be16 _ h4, rd16_be16 _ h5,
      ih (fun s hs => h s (by simp [hs]))]

theorem flatMap_screen_length {flags : Nat} (ss : List Screen) :
    (ss.flatMap (·.wire flags)).length = ss.length * 16 := by
  induction ss with
  | nil => rfl
  | cons e es ih => rw [List.flatMap_cons, List.length_append, ih]; simp [Screen.wire]; omega

theorem msg_setDesktopSize {s : St} (h : s.cl.st = .ready) {p : UInt8} {w ht flags : Nat}
    {ss : List Screen} (hf : (Msg.setDesktopSize p w ht flags ss).Fits) (rest) :
    tryRead env table r s ((Msg.setDesktopSize p w ht flags ss).wire ++ rest) =
      .ok (send .desktopSize (updateHead 1 ++ extDesktopSizeRect w ht 1
          (checkLayout env { w := w, h := ht, screens := ss }).1)
        (if (checkLayout env { w := w, h := ht, screens := ss }).2
          then emit (.layout { w := w, h := ht, screens := ss }) s else s),
        8 + ss.length * 16) := by
  obtain ⟨h1, h2, h3, h4⟩ := hf
  rw [tryRead_ready h]
  have hsl : slice ([251, p] ++ be16 w ++ be16 ht ++ [UInt8.ofNat ss.length, p] ++
      ss.flatMap (·.wire flags) ++ rest) 8 (ss.length * 16) = some (ss.flatMap (·.wire flags)) :=
    slice_body (hd := [251, p] ++ be16 w ++ be16 ht ++ [UInt8.ofNat ss.length, p])
      (flatMap_screen_length ss)
  simp only [Msg.wire, be16, List.cons_append, List.nil_append, onMessage] at hsl ⊢
  rw [if_neg (by decide), if_neg (by decide), if_neg (by decide), if_neg (by decide),
    if_neg (by decide), if_neg (by decide), if_neg (by decide), if_neg (by decide), if_pos trivial]
  unfold onSetDesktopSize
  simp only [toNat8 h3, hsl, rd16_be16 _ h1, rd16_be16 _ h2, parseScreens_wire _ h4]

theorem msg_ntp {s : St} (h : s.cl.st = .ready) {p : UInt8} {t0 t1 t2 t3 : Nat}
    (h3 : t3 < 4294967296) (rest) :
    tryRead env table r s ((Msg.ntp t0 t1 t2 t3 p).wire ++ rest) =
      .ok (if t3 = 0 then send .ntp ([160, p, p, p] ++ be32 t0 ++ be32 env.now ++ be32 env.now ++
        be32 t3) s else s, 20) := by
  rw [tryRead_ready h]
  have hsl := slice_append (a := (Msg.ntp t0 t1 t2 t3 p).wire) (b := rest) (i := 0) (n := 20) rfl
  have hz : be32 t3 = [0, 0, 0, 0] ↔ t3 = 0 := by
    constructor
    · intro hb
      have := rd32_be32 t3 h3
      unfold be32 at hb
      injection hb with a1 hb; injection hb with a2 hb; injection hb with a3 hb
      injection hb with a4 _
      rw [a1, a2, a3, a4] at this
      exact this.symm
    · rintro rfl; rfl
  show onNtp env s ((Msg.ntp t0 t1 t2 t3 p).wire ++ rest) = _
  unfold onNtp
  rw [hsl]
  show (if be32 t3 ≠ [0, 0, 0, 0] then _ else _) = _
  by_cases ht : t3 = 0
  · rw [if_neg (by simpa using hz.2 ht), if_pos ht]
    rfl
  · rw [if_pos (by simpa [hz] using ht), if_neg ht]

theorem msg_fbRequest {s : St} (h : s.cl.st = .ready) {inc : UInt8} {q : Rect} (hq : q.Fits) (rest) :
    tryRead env table r s ((Msg.fbRequest inc q).wire ++ rest) =
      if inc ≠ 0 ∧ s.cl.cont then .ok (s, 0)
      else (do
        let s ← processFb env r (fbReqPre (inc != 0) q s)
        .ok (s, 10)) := by
  obtain ⟨h1, h2, h3, h4⟩ := hq
  rw [tryRead_ready h]
  simp only [Msg.wire, be16, List.cons_append, List.nil_append, onMessage]
  rw [if_neg (by decide), if_neg (by decide), if_pos trivial]
  unfold onFbRequest
  simp only [rd16_be16 _ h1, rd16_be16 _ h2, rd16_be16 _ h3, rd16_be16 _ h4]

theorem msg_contUpdates {s : St} (h : s.cl.st = .ready) {on : UInt8} {q : Rect} (hq : q.Fits) (rest) :
    tryRead env table r s ((Msg.contUpdates on q).wire ++ rest) =
      if on ≠ 0 then do
        let s ← processFb env r (emit .contOn (s.upd fun k => { k with cont := true, contRect := q }))
        .ok (s, 10)
      else .ok (send .endOfCont [150] (s.upd fun k => { k with
        cont := false, contRect := { x := 0, y := 0, w := 0, h := 0 } }), 10) := by
  obtain ⟨h1, h2, h3, h4⟩ := hq
  rw [tryRead_ready h]
  simp only [Msg.wire, be16, List.cons_append, List.nil_append, onMessage]
  rw [if_neg (by decide), if_neg (by decide), if_neg (by decide), if_neg (by decide),
    if_neg (by decide), if_neg (by decide), if_pos trivial]
  unfold onContUpdates
  simp only [rd16_be16 _ h1, rd16_be16 _ h2, rd16_be16 _ h3, rd16_be16 _ h4]

theorem msg_fence {s : St} (h : s.cl.st = .ready) {p : UInt8} {flags : Nat} {pl : Bytes}
    (hf : flags < 4294967296) (hp : pl.length ≤ 64) (rest) :
    tryRead env table r s ((Msg.fence p flags pl).wire ++ rest) =
      if fenceRequest ≤ flags then do
        let (s, ok) ← onFenceRequest flags pl (noteFence flags pl s)
        if ok then .ok (s, 9 + pl.length) else .ok (s, 0)
      else (do
        let s ← onFenceResponse env r ((pl ++ rest ++ (List.range 80).map env.stale).take 8) s
        .ok (s, 9 + pl.length)) := by
  rw [tryRead_ready h]
  simp only [Msg.wire, be32, List.cons_append, List.nil_append, List.append_assoc, onMessage]
  rw [if_neg (by decide), if_neg (by decide), if_neg (by decide), if_neg (by decide),
    if_neg (by decide), if_neg (by decide), if_neg (by decide), if_neg (by decide),
    if_neg (by decide), if_neg (by decide), if_pos trivial]
  unfold onFence
  simp only [rd32_be32 _ hf, List.cons_append, List.getD_cons_zero, toNat8 (show pl.length < 256 by omega),
    List.length_cons, List.length_append, List.drop_one, List.tail_cons, List.append_assoc]
  rw [if_neg (by omega), if_neg (by omega)]
  simp only [List.take_left]

end Verif.Server
