import Verif.Lemmas.Wire
import Verif.Props.Frames

/-!
# C98: a client can read everything it is sent
-/

namespace Verif.Wire

open Verif.Server Verif.System

variable {z : Sizes} {table : List Nat}

theorem Readable.mono {l m : List Eff} (h : Readable z (l ++ m)) : Readable z l :=
  ⟨fun f hf => h.frames f (List.mem_append_left _ hf), fun ch b hb => h.cursors ch b (List.mem_append_left _ hb),
    fun es he => h.leds es (List.mem_append_left _ he), fun ch k b hb => h.short ch k b (List.mem_append_left _ hb)⟩

/-- what new entries are asked for: `Readable` without frames -/
structure Local (z : Sizes) (l es : List Eff) : Prop where
  cursors : ∀ ch b, .send ch .cursor ([0, 0, 0, 1] ++ b) ∈ es → ∃ q, readRect z b = some (q, []) ∧ q.enc = -239
  leds : ∀ x, .encodings x ∈ l ++ es → 1464686184 ∈ x → -261 ∈ x
  short : ∀ ch k b, .send ch k b ∈ es → b.length < 2147483648

theorem Readable.local {l m : List Eff} (h : Readable z (l ++ m)) : Local z l m :=
  ⟨fun ch b hb => h.cursors ch b (List.mem_append_right _ hb), h.leds,
    fun ch k b hb => h.short ch k b (List.mem_append_right _ hb)⟩

theorem Local.left {l m n : List Eff} (h : Local z l (m ++ n)) : Local z l m :=
  ⟨fun ch b hb => h.cursors ch b (List.mem_append_left _ hb),
    fun x hx => h.leds x (by rw [← List.append_assoc]; exact List.mem_append_left _ hx),
    fun ch k b hb => h.short ch k b (List.mem_append_left _ hb)⟩

theorem Local.right {l m n : List Eff} (h : Local z l (m ++ n)) : Local z (l ++ m) n :=
  ⟨fun ch b hb => h.cursors ch b (List.mem_append_right _ hb),
    fun x hx => h.leds x (by rw [← List.append_assoc]; exact hx),
    fun ch k b hb => h.short ch k b (List.mem_append_right _ hb)⟩

/-- a message that changes nothing on the screen -/
def Quiet (m : SMsg) : Prop := ∀ (α : Type) (dec : Decoder α) (sc : Canvas α), draw dec sc m = sc

/-- the log grows by whole messages that change nothing on the screen -/
def Adds (z : Sizes) (s s' : St) : Prop :=
  ∃ es, s'.log = s.log ++ es ∧ (∀ e ∈ es, isInit e = false) ∧
    (Local z s.log es → ∃ ms, Reads z (sent es) ms ∧ ∀ m ∈ ms, Quiet m)

theorem Adds.refl (s : St) : Adds z s s := ⟨[], by simp, by simp, fun _ => ⟨[], .nil, by simp⟩⟩

theorem Adds.same {s s' : St} (h : s'.log = s.log) : Adds z s s' :=
  ⟨[], by simp [h], by simp, fun _ => ⟨[], .nil, by simp⟩⟩

theorem Adds.trans {s t u : St} (h1 : Adds z s t) (h2 : Adds z t u) : Adds z s u := by
  obtain ⟨es, a1, a2, a3⟩ := h1
  obtain ⟨fs, b1, b2, b3⟩ := h2
  refine ⟨es ++ fs, by rw [b1, a1, List.append_assoc], fun e he => ?_, fun hr => ?_⟩
  · rcases List.mem_append.1 he with he | he
    · exact a2 e he
    · exact b2 e he
  · obtain ⟨ms, c1, c2⟩ := a3 hr.left
    obtain ⟨ns, d1, d2⟩ := b3 (by rw [a1]; exact hr.right)
    refine ⟨ms ++ ns, by rw [sent_append]; exact c1.append d1, fun m hm => ?_⟩
    rcases List.mem_append.1 hm with hm | hm
    · exact c2 m hm
    · exact d2 m hm

theorem Adds.silent {s s' : St} {es : List Eff} (h : s'.log = s.log ++ es)
    (hs : ∀ e ∈ es, ∀ ch k b, e ≠ .send ch k b) : Adds z s s' :=
  ⟨es, h, fun e he => by
    cases e with
    | send ch k b => exact absurd rfl (hs _ he ch k b)
    | _ => rfl, fun _ => ⟨[], by rw [sent_silent hs]; exact .nil, by simp⟩⟩

theorem Adds.emit (s : St) {e : Eff} (h : ∀ ch k b, e ≠ .send ch k b := by exact nofun) :
    Adds z s (Server.emit e s) :=
  .silent (es := [e]) rfl fun e' he => by rw [List.mem_singleton.1 he]; exact h

theorem Adds.send (s : St) (k : Kind) (b : Bytes) (hk : k ≠ .serverInit)
    (h : b.length < 2147483648 → ∃ m, readMsg z b = some (m, []) ∧ Quiet m) : Adds z s (Server.send k b s) := by
  unfold Server.send
  split
  · exact .refl s
  · refine ⟨[.send s.cl.chan k b], rfl, fun e he => ?_, fun hr => ?_⟩
    · rw [List.mem_singleton.1 he]
      cases k <;> first | rfl | exact absurd rfl hk
    · obtain ⟨m, h1, h2⟩ := h (hr.short s.cl.chan k b (by simp))
      refine ⟨[m], ?_, by simpa using h2⟩
      show Reads z (b ++ []) [m]
      rw [List.append_nil]
      exact .one h1

/-! ## The messages -/

theorem read_endOfCont : readMsg z [150] = some (.endOfCont, []) := rfl

theorem beNat_two (n : Nat) : beNat (be16 n) = n % 65536 := by
  simp only [be16, beNat, List.foldl_cons, List.foldl_nil, toNat_ofNat8]
  omega

theorem beNat_four (n : Nat) : beNat (be32 n) = n % 4294967296 := by
  simp only [be32, beNat, List.foldl_cons, List.foldl_nil, toNat_ofNat8]
  omega

theorem toInt32_be32i {i : Int} (h1 : -2147483648 ≤ i) (h2 : i < 2147483648) : toInt32 (beNat (be32i i)) = i := by
  unfold be32i toInt32
  rw [beNat_four]
  split <;> omega

theorem read_fence (flags : Nat) {p : Bytes} (hp : p.length ≤ 64) :
    readMsg z ([248, 0, 0, 0] ++ be32 flags ++ [UInt8.ofNat p.length] ++ p) =
      some (.fence (flags % 4294967296) p, []) := by
  have hn : (UInt8.ofNat p.length).toNat = p.length := by rw [toNat_ofNat8]; omega
  show (if 64 < (UInt8.ofNat p.length).toNat then none else
    (takeN (UInt8.ofNat p.length).toNat p).map fun q => (SMsg.fence (beNat (be32 flags)) q.1, q.2)) = _
  rw [hn, if_neg (by omega), beNat_four]
  have := takeN_append p []
  rw [List.append_nil] at this
  rw [this]
  rfl

theorem read_clip (flags : Nat) {d : Bytes} (hd : d.length < 2147483640) :
    readMsg z ([3, 0, 0, 0] ++ be32i (-(4 + (d.length : Int))) ++ be32 flags ++ d) =
      some (.extClip (flags % 4294967296) d, []) := by
  have hv : toInt32 (beNat (be32i (-(4 + (d.length : Int))))) = -(4 + (d.length : Int)) :=
    toInt32_be32i (by omega) (by omega)
  have hl : (-toInt32 (beNat (be32i (-(4 + (d.length : Int)))))).toNat = (be32 flags ++ d).length := by
    rw [hv]; simp only [List.length_append, be32_length]; omega
  show (if 0 ≤ toInt32 (beNat (be32i (-(4 + (d.length : Int))))) then _ else
    match takeN (-toInt32 (beNat (be32i (-(4 + (d.length : Int)))))).toNat (be32 flags ++ d) with
      | some (f3 :: f2 :: f1 :: f0 :: d, r) => some (SMsg.extClip (beNat [f3, f2, f1, f0]) d, r)
      | _ => none) = _
  rw [if_neg (by rw [hv]; omega), hl]
  have := takeN_append (be32 flags ++ d) []
  rw [List.append_nil] at this
  rw [this]
  show some (SMsg.extClip (beNat (be32 flags)) d, []) = _
  rw [beNat_four]

theorem read_cutText {d : Bytes} (hd : d.length < 2147483648) :
    readMsg z ([3, 0, 0, 0] ++ be32 d.length ++ d) = some (.cutText d, []) := by
  have hb : beNat (be32 d.length) = d.length := by rw [beNat_four]; omega
  show (if 0 ≤ toInt32 (beNat (be32 d.length)) then
    (takeN (beNat (be32 d.length)) d).map fun q => (SMsg.cutText q.1, q.2) else _) = _
  rw [hb, if_pos (by unfold toInt32; rw [if_pos hd]; omega)]
  have := takeN_append d []
  rw [List.append_nil] at this
  rw [this]
  rfl

theorem read_ntp {a b : Bytes} (ha : a.length = 7) (hb : b.length = 12) :
    readMsg z (160 :: a ++ b) = some (.ntp (a.drop 3 ++ b), []) := by
  match a, ha with
  | [a1, a2, a3, a4, a5, a6, a7], _ =>
    show (takeN 16 ([a4, a5, a6, a7] ++ b)).map _ = _
    have := takeN_eq (n := 16) (x := [a4, a5, a6, a7] ++ b) (by simp [hb]) []
    rw [List.append_nil] at this
    rw [this]
    rfl

theorem read_colourMap : ∃ d, readMsg z rgb332Map = some (.colourMap 0 d, []) := by
  unfold rgb332Map
  generalize hd : ((List.range 256).flatMap fun i => _) = d
  have hl : d.length = 1536 := by rw [← hd]; decide +kernel
  refine ⟨d, ?_⟩
  show (takeN (6 * beNat (be16 256)) d).map (fun q => (SMsg.colourMap (beNat (be16 0)) q.1, q.2)) = _
  have := takeN_eq (n := 6 * beNat (be16 256)) (x := d) (by rw [hl]; rfl) []
  rw [List.append_nil] at this
  rw [this]
  rfl

theorem read_rect (x y w h : Nat) {e : Int} (h1 : -2147483648 ≤ e) (h2 : e < 2147483648) {body : Bytes}
    (hb : bodySize z (w % 65536) (h % 65536) e body = some body.length) :
    readRect z (rectHead x y w h e ++ body) =
      some (⟨x % 65536, y % 65536, w % 65536, h % 65536, e, body⟩, []) := by
  have hv : toInt32 (beNat (be32i e)) = e := toInt32_be32i h1 h2
  unfold readRect
  rw [takeN_eq (n := 12) (x := rectHead x y w h e) rfl]
  show (match bodySize z (beNat (be16 w)) (beNat (be16 h)) (toInt32 (beNat (be32i e))) body with
    | none => none
    | some n => match takeN n body with
      | none => none
      | some (body, r) => some (RectMsg.mk (beNat (be16 x)) (beNat (be16 y)) (beNat (be16 w)) (beNat (be16 h))
          (toInt32 (beNat (be32i e))) body, r)) = _
  rw [hv, beNat_two, beNat_two, beNat_two, beNat_two, hb]
  have := takeN_append body []
  rw [List.append_nil] at this
  dsimp only
  rw [this]

theorem read_update {n : Nat} (hn : n < 65536) {b : Bytes} {qs : List RectMsg}
    (h : readRects z n b = some (qs, [])) : readMsg z (updateHead n ++ b) = some (.update qs, []) := by
  show (readRects z (beNat (be16 n)) b).map _ = _
  rw [beNat_two, Nat.mod_eq_of_lt hn, h]
  rfl

theorem draw1_still {α : Type} {q : RectMsg} {dec : Decoder α} {sc : Canvas α} (h0 : isPixels q.enc = false)
    (h1 : q.enc ≠ -223) (h2 : q.enc = -308 → q.x = 1 ∧ q.y ≠ 0) : draw1 dec sc q = sc := by
  unfold draw1
  rw [if_neg (by rw [h0]; exact Bool.false_ne_true), if_neg ?_]
  rintro (h | ⟨h, h'⟩)
  · exact h1 h
  · exact h' (h2 h)

theorem quiet_update {qs : List RectMsg} (h : ∀ q ∈ qs, isPixels q.enc = false ∧ q.enc ≠ -223 ∧ (q.enc = -308 → q.x = 1 ∧ q.y ≠ 0)) :
    Quiet (.update qs) := by
  intro α dec sc
  show qs.foldl (draw1 dec) sc = sc
  induction qs with
  | nil => rfl
  | cons q qs ih =>
    obtain ⟨a, b, c⟩ := h q (by simp)
    rw [List.foldl_cons, draw1_still a b c]
    exact ih fun q hq => h q (by simp [hq])

theorem Adds.quiet (s : St) (k : Kind) (b : Bytes) (hk : k ≠ .serverInit) {qs : List RectMsg} {n : Nat}
    (hn : n < 65536) (h : readRects z n b = some (qs, []))
    (hq : ∀ q ∈ qs, isPixels q.enc = false ∧ q.enc ≠ -223 ∧ (q.enc = -308 → q.x = 1 ∧ q.y ≠ 0)) :
    Adds z s (Server.send k (updateHead n ++ b) s) :=
  .send s k _ hk fun _ => ⟨_, read_update hn h, quiet_update hq⟩

theorem read_extSize (w h i st : Nat) : ∃ body, readRect z (extDesktopSizeRect w h i st) =
    some (⟨i % 65536, st % 65536, w % 65536, h % 65536, -308, body⟩, []) := by
  unfold extDesktopSizeRect
  rw [List.append_assoc]
  exact ⟨_, read_rect (e := -308) _ _ _ _ (by decide) (by decide) rfl⟩

theorem sendExtSupport_adds {s : St} : Adds z s (sendExtSupport s).1 := by
  have h1 : readRect z (rectHead 0 0 0 0 encQemuKey ++ []) = some (⟨0, 0, 0, 0, -258, []⟩, []) :=
    read_rect (e := -258) 0 0 0 0 (by decide) (by decide) rfl
  have h2 : readRect z (rectHead 0 0 0 0 encNtp ++ []) = some (⟨0, 0, 0, 0, -1001, []⟩, []) :=
    read_rect (e := -1001) 0 0 0 0 (by decide) (by decide) rfl
  rw [List.append_nil] at h1 h2
  unfold sendExtSupport
  dsimp only
  cases hq : hasEnc s.cl encQemuKey <;> cases hn : hasEnc s.cl encNtp
  · exact .refl s
  · exact .quiet s _ _ (by decide) (by decide) (readRects_one h2) (by simp [isPixels])
  · show Adds z s (Server.send _ (updateHead 1 ++ rectHead 0 0 0 0 encQemuKey ++ []) s)
    rw [List.append_nil]
    exact .quiet s _ _ (by decide) (by decide) (readRects_one h1) (by simp [isPixels])
  · show Adds z s (Server.send _ (updateHead 2 ++ rectHead 0 0 0 0 encQemuKey ++ rectHead 0 0 0 0 encNtp) s)
    rw [List.append_assoc]
    exact .quiet s _ _ (by decide) (by decide) (n := 2)
      (readRects_append (m := 1) (n := 1) (readRects_one h1) (readRects_one h2)) (by simp [isPixels])

theorem sendCursor_adds {env : Env} {s : St} : Adds z s (sendCursor env s) := by
  unfold sendCursor
  split
  · exact .refl s
  · rename_i b hb
    refine .trans (t := s.upd fun k => { k with cursorSeq := s.srv.cursorSeq }) (.same rfl) ?_
    generalize (s.upd fun k => { k with cursorSeq := s.srv.cursorSeq }) = t
    unfold Server.send
    split
    · exact .refl t
    · refine ⟨[.send t.cl.chan .cursor (updateHead 1 ++ b)], rfl, fun e he => ?_, fun hr => ?_⟩
      · rw [List.mem_singleton.1 he]; rfl
      · obtain ⟨q, h1, h2⟩ := hr.cursors t.cl.chan b (by simp [updateHead, be16])
        refine ⟨[.update [q]], ?_, ?_⟩
        · show Reads z (updateHead 1 ++ b ++ []) _
          rw [List.append_nil]
          exact .one (read_update (by decide) (readRects_one h1))
        · intro m hm
          rw [List.mem_singleton.1 hm]
          refine quiet_update fun q' hq' => ?_
          rw [List.mem_singleton.1 hq', h2]
          exact ⟨by decide, by decide, fun h => absurd h (by decide)⟩

theorem consent_encs (l : List Eff) : (consent l).encs = [] ∨ .encodings (consent l).encs ∈ l := by
  have : ∀ (l pre : List Eff) (c : Consent), (c.encs = [] ∨ .encodings c.encs ∈ pre) →
      (l.foldl Consent.note c).encs = [] ∨ .encodings (l.foldl Consent.note c).encs ∈ pre ++ l := by
    intro l
    induction l with
    | nil => intro pre c h; simpa using h
    | cons e l ih =>
      intro pre c h
      rw [List.foldl_cons]
      have := ih (pre ++ [e]) (c.note e) ?_
      · simpa using this
      · have hk : c.encs = [] ∨ .encodings c.encs ∈ pre ++ [e] := h.imp id (List.mem_append_left _)
        cases e with
        | encodings es => exact .inr (List.mem_append_right _ (List.mem_singleton.2 rfl))
        | clipMsg f d =>
          have : (c.note (.clipMsg f d)).encs = c.encs := by
            show (if _ then _ else _ : Consent).encs = _
            split <;> rfl
          rw [this]; exact hk
        | _ => exact hk
  exact this l [] ⟨[], 0x1a000001, 20971520⟩ (.inl rfl)

theorem sendLed_adds {s : St} (h : Kept s.cl s.log) : Adds z s (sendLed s).1 := by
  unfold sendLed
  split
  · exact .refl s
  · dsimp only
    split
    · exact .refl s
    · rename_i hqv
      refine .trans (t := Server.send .led _ s) ?_ (.same rfl)
      unfold Server.send
      split
      · exact .refl s
      · refine ⟨[_], rfl, fun e he => ?_, fun hr => ?_⟩
        · rw [List.mem_singleton.1 he]; rfl
        · have hq : hasEnc s.cl encQemuLed = true := by
            cases hq : hasEnc s.cl encQemuLed with
            | true => rfl
            | false =>
              rw [hq] at hqv
              have hv : hasEnc s.cl encVmwareLed = true := by simpa using hqv
              have hv' : (1464686184 : Int) ∈ s.cl.encodings := by simpa [hasEnc, encVmwareLed] using hv
              have hm : (-261 : Int) ∈ s.cl.encodings := by
                rcases consent_encs s.log with h1 | h1
                · rw [h.enc, h1] at hv'; cases hv'
                · rw [← h.enc] at h1
                  exact hr.leds _ (by simp [h1]) hv'
              rw [← hq]
              simpa [hasEnc, encQemuLed] using hm
          rw [if_pos hq]
          refine ⟨[.update [⟨0, 0, 0, 0, -261, [UInt8.ofNat (s.cl.pendingLed % 256).toNat]⟩]], ?_, ?_⟩
          · show Reads z (updateHead 1 ++ rectHead 0 0 0 0 encQemuLed ++ [UInt8.ofNat (s.cl.pendingLed % 256).toNat] ++ []) _
            rw [List.append_nil, List.append_assoc]
            exact .one (read_update (by decide) (readRects_one
              (read_rect (e := -261) 0 0 0 0 (by decide) (by decide) rfl)))
          · intro m hm
            rw [List.mem_singleton.1 hm]
            exact quiet_update (by simp [isPixels])

/-! ## The handlers -/

variable {env : Env}

theorem quiet_clip (f d) : Quiet (.extClip f d) := fun _ _ _ => rfl
theorem quiet_fence (f d) : Quiet (.fence f d) := fun _ _ _ => rfl

theorem clip_adds (s : St) (flags : Nat) (d : Bytes) {i : Int} (hi : i = -(4 + (d.length : Int))) :
    Adds z s (Server.send .clip ([3, 0, 0, 0] ++ be32i i ++ be32 flags ++ d) s) := by
  subst hi
  refine .send s _ _ (by decide) fun hl => ⟨_, read_clip flags ?_, quiet_clip _ _⟩
  simp only [List.length_append, be32_length, List.length_cons, List.length_nil] at hl
  have : (be32i (-(4 + (d.length : Int)))).length = 4 := rfl
  omega

theorem clip_adds' (s : St) (flags : Nat) :
    Adds z s (Server.send .clip ([3, 0, 0, 0] ++ be32i (-4) ++ be32 flags) s) := by
  have := clip_adds (z := z) s flags [] (i := -4) rfl
  rwa [List.append_nil] at this

theorem fence_adds (s : St) (flags : Nat) {p : Bytes} (hp : p.length ≤ 64) :
    Adds z s (Server.send .fence ([248, 0, 0, 0] ++ be32 flags ++ [UInt8.ofNat p.length] ++ p) s) :=
  .send s _ _ (by decide) fun _ => ⟨_, read_fence flags hp, quiet_fence _ _⟩

theorem endOfCont_adds (s : St) : Adds z s (Server.send .endOfCont [150] s) :=
  .send s _ _ (by decide) fun _ => ⟨_, read_endOfCont, fun _ _ _ => rfl⟩

theorem sendFence_adds {flags : Nat} {p : Bytes} {s s' : St} (e : sendFence flags p s = .ok s') : Adds z s s' := by
  unfold sendFence at e
  split at e
  · cases e
  · cases e; exact fence_adds s flags (by omega)

theorem sendPing_adds {n : Nat} {s s' : St} (e : sendPing env n s = .ok s') : Adds z s s' := by
  unfold sendPing at e
  split at e
  · cases e; exact .refl _
  · exact .trans (t := s.upd fun k => { k with inflight := k.inflight + n }) (.same rfl) (sendFence_adds e)

theorem clipProvideText_adds {q : Bytes} {s s' : St} (e : clipProvideText env q s = .ok s') : Adds z s s' := by
  unfold clipProvideText at e
  split at e
  · cases e; exact .refl _
  · dsimp only at e
    split at e
    · cases e; exact .refl _
    · split at e
      · cases e; exact .refl _
      · split at e
        · cases e
        · split at e <;> cases e
          · exact .refl _
          · exact .emit _
  · cases e

theorem bigCutText_adds {c d} {s s' : St} (e : bigCutText env c d s = .ok s') : Adds z s s' := by
  unfold bigCutText at e
  rcases ite_cases e with ⟨-, e⟩ | ⟨-, e⟩
  · cases e
  dsimp only at e
  rcases ite_cases e with ⟨-, e⟩ | ⟨-, e⟩
  · cases e; exact .same rfl
  obtain ⟨t, ht, e⟩ := Outcome.bind_eq_ok.1 e
  cases e
  refine .trans ?_ (.same (s := t) rfl)
  rcases ite_cases ht with ⟨-, ht⟩ | ⟨-, ht⟩
  · rcases ite_cases ht with ⟨-, ht⟩ | ⟨-, ht⟩
    · exact clipProvideText_adds ht
    · cases ht; exact .refl _
  · cases ht; exact .emit _

theorem clipAction_adds {flags len body} {s s' : St} (e : clipAction env flags len body s = .ok s') :
    Adds z s s' := by
  unfold clipAction at e
  rcases ite_cases e with ⟨-, e⟩ | ⟨-, e⟩
  · unfold clipSetCaps at e
    dsimp only at e
    split at e
    · split at e
      · cases e; exact .same rfl
      · cases e
    · cases e; exact .same rfl
  rcases ite_cases e with ⟨-, e⟩ | ⟨-, e⟩
  · cases e; exact clip_adds _ _ _ rfl
  rcases ite_cases e with ⟨-, e⟩ | ⟨-, e⟩
  · cases e; exact clip_adds' _ _
  rcases ite_cases e with ⟨-, e⟩ | ⟨-, e⟩
  · cases e; exact clip_adds' _ _
  rcases ite_cases e with ⟨-, e⟩ | ⟨-, e⟩
  · rcases ite_cases e with ⟨-, e⟩ | ⟨-, e⟩
    · cases e
    · exact clipProvideText_adds e
  · cases e; exact .refl _

theorem onCutText_adds {s s' : St} {a n} (e : onCutText env s a = .ok (s', n)) : Adds z s s' := by
  unfold onCutText at e
  split at e
  · split at e
    · unfold onExtClipboard at e
      split at e
      · dsimp only at e
        rcases ite_cases e with ⟨-, e⟩ | ⟨-, e⟩
        · cases e
        rcases ite_cases e with ⟨-, e⟩ | ⟨-, e⟩
        · cases e; exact .refl _
        rcases ite_cases e with ⟨-, e⟩ | ⟨-, e⟩
        · cases e
        rcases ite_cases e with ⟨-, e⟩ | ⟨-, e⟩
        · cases e; exact .same rfl
        obtain ⟨t, ht, e⟩ := Outcome.bind_eq_ok.1 e
        cases e
        exact Adds.trans (.emit s (e := .clipMsg _ _)) (clipAction_adds ht)
      · cases e; exact .refl _
    · unfold onPlainCutText at e
      dsimp only at e
      rcases ite_cases e with ⟨-, e⟩ | ⟨-, e⟩
      · cases e
      rcases ite_cases e with ⟨-, e⟩ | ⟨-, e⟩ <;> cases e
      · exact .emit _
      · exact .same rfl
  · cases e; exact .refl _

theorem onSetEncodings_adds {s s' : St} {a n} (e : onSetEncodings env s a = .ok (s', n)) : Adds z s s' := by
  unfold onSetEncodings at e
  split at e
  · dsimp only at e
    split at e
    · cases e; exact .refl _
    · generalize scanEncodings env.experimental _ [] 10 = res at e
      obtain ⟨encs, q⟩ := res
      dsimp only at e
      obtain ⟨t, ht, e⟩ := Outcome.bind_eq_ok.1 e
      cases e
      refine .trans ?_ (sendPing_adds ht)
      have h1 : Adds z s (emit (.encodings encs)
          (s.upd fun k => { k with encodings := encs, quality := q, formatsChanged := true })) :=
        .silent (es := [.encodings encs]) rfl (by simp)
      generalize emit (.encodings encs) (s.upd fun k =>
        { k with encodings := encs, quality := q, formatsChanged := true }) = u at h1 ⊢
      refine h1.trans ?_
      have h2 : Adds z u (notifyCont u) := by
        unfold notifyCont
        split
        · exact Adds.trans (.same rfl) (endOfCont_adds _)
        · exact .refl _
      split
      · exact h2.trans (clip_adds _ _ _ rfl)
      · exact h2
  · cases e; exact .refl _

theorem slice_some {p b : Bytes} {i n : Nat} (h : slice p i n = some b) : b = (p.drop i).take n ∧ b.length = n := by
  unfold slice at h
  split at h
  · cases h
    exact ⟨rfl, by rw [List.length_take, List.length_drop]; omega⟩
  · cases h

theorem onNtp_adds {s s' : St} {a n} (ha : a.head? = some 160) (e : onNtp env s a = .ok (s', n)) : Adds z s s' := by
  unfold onNtp at e
  split at e
  · cases e; exact .refl _
  · rename_i m hm
    split at e <;> cases e
    · exact .refl _
    · obtain ⟨h1, h2⟩ := slice_some hm
      refine .send s _ _ (by decide) fun _ => ?_
      match a, ha with
      | _ :: a, ha =>
        cases ha
        have h3 : m = 160 :: (a.take 19) := by rw [h1]; rfl
        rw [h3] at h2 ⊢
        simp only [List.length_cons] at h2
        have := read_ntp (z := z) (a := (a.take 19).take 7)
          (b := be32 env.now ++ be32 env.now ++ (a.take 19).drop 15)
          (by rw [List.length_take]; omega)
          (by simp only [List.length_append, List.length_drop, be32_length]; omega)
        refine ⟨_, Eq.trans (congrArg _ ?_) this, fun _ _ _ => rfl⟩
        simp

theorem simple_adds {s a s' n} (h : Simple env table s a s' n) : Adds z s s' := by
  cases h with
  | pix e =>
    unfold onSetPixelFormat at e
    split at e
    · cases e
      split
      · exact Adds.trans (t := emit (.pixFmt _) (s.upd fun k => { k with pix := _ })) (.emit _) (.same rfl)
      · refine Adds.trans (t := Server.send .colourMap rgb332Map (emit (.pixFmt cookedFmt) (s.upd fun k => { k with pix := cookedFmt })))
          (Adds.trans (t := emit (.pixFmt cookedFmt) (s.upd fun k => { k with pix := cookedFmt })) (.emit _)
            (.send _ .colourMap _ (by decide) fun _ => ?_)) (.same rfl)
        obtain ⟨d, hd⟩ := read_colourMap (z := z)
        exact ⟨_, hd, fun _ _ _ => rfl⟩
    · cases e; exact .refl _
  | encs e => exact onSetEncodings_adds e
  | cut e => exact onCutText_adds e
  | key e =>
    unfold onKey at e
    split at e <;> cases e
    · exact .emit _
    · exact .refl _
  | pointer e =>
    unfold onPointer at e
    split at e <;> cases e
    · exact .emit _
    · exact .refl _
  | qemu e =>
    unfold onQemu at e
    split at e
    · split at e
      · unfold onQemuKey at e
        split at e
        · dsimp only at e
          split at e <;> cases e
          exact .emit _
        · cases e; exact .refl _
      · cases e
    · cases e; exact .refl _
  | size e =>
    unfold onSetDesktopSize at e
    split at e
    · split at e
      · cases e; exact .refl _
      · dsimp only at e
        generalize hres : checkLayout env _ = res at e
        obtain ⟨status, called⟩ := res
        cases e
        have hst : status = 4 ∨ status = 1 ∨ status = 3 := by
          unfold checkLayout at hres
          split at hres
          · split at hres <;> cases hres <;> simp
          · cases hres; simp
        have h1 : ∀ (t : St) w h, Adds z t (Server.send .desktopSize
            (updateHead 1 ++ extDesktopSizeRect w h 1 status) t) := by
          intro t w h
          obtain ⟨body, hb⟩ := read_extSize (z := z) w h 1 status
          refine .quiet t _ _ (by decide) (by decide) (readRects_one hb) fun q hq => ?_
          rw [List.mem_singleton.1 hq]
          refine ⟨(by decide : isPixels (-308) = false), (by decide : (-308 : Int) ≠ -223), fun _ => ⟨rfl, ?_⟩⟩
          show status % 65536 ≠ 0
          rcases hst with rfl | rfl | rfl <;> decide
        refine .trans ?_ (h1 _ _ _)
        split
        · exact .emit _
        · exact .refl _
    · cases e; exact .refl _
  | @ntp h e => exact onNtp_adds h e

theorem stageFrame_adds {fb} {s s' : St} (e : stageFrame env fb s = .ok s') : Adds z s s' := by
  obtain ⟨-, -, -, h4⟩ := stageFrame_frame e
  rcases h4 with h4 | ⟨_, _, _, _, h4⟩ | h4
  · exact .same h4
  · exact .silent h4 (by simp)
  · exact .silent h4 (by simp)

theorem streamClose_adds (s : St) : Adds z s (streamClose s) := by
  unfold streamClose
  split
  · exact .refl s
  · dsimp only
    split
    · exact .silent (es := [.deferClose]) rfl (by simp)
    · exact .same rfl

theorem ite_log {c : Prop} [Decidable c] {x y : St} {l : List Eff} (hx : x.log = l) (hy : y.log = l) :
    (if c then x else y).log = l := by
  split
  · exact hx
  · exact hy

theorem onFenceRequest_adds {flags : Nat} {payload : Bytes} {s s' : St} {b}
    (e : onFenceRequest flags payload s = .ok (s', b)) : Adds z s s' := by
  unfold onFenceRequest at e
  dsimp only at e
  rcases ite_cases e with ⟨-, e⟩ | ⟨-, e⟩
  · cases e; exact .same rfl
  · have hl : (if (flags % 8).testBit 0 = true ∧ 0 < s.cl.nPending + (if s.cl.isUpdating then 1 else 0) then
          s.upd fun k => { k with pfN := k.nPending + (if s.cl.isUpdating then 1 else 0) }
        else if (flags % 8).testBit 2 = true ∧ s.cl.isUpdating = true then
          s.upd fun k => { k with pfN := 1, mustBlock := (flags % 8).testBit 1 }
        else s).log = s.log := ite_log rfl (ite_log rfl rfl)
    generalize (if (flags % 8).testBit 0 = true ∧ 0 < s.cl.nPending + (if s.cl.isUpdating then 1 else 0) then
          s.upd fun k => { k with pfN := k.nPending + (if s.cl.isUpdating then 1 else 0) }
        else if (flags % 8).testBit 2 = true ∧ s.cl.isUpdating = true then
          s.upd fun k => { k with pfN := 1, mustBlock := (flags % 8).testBit 1 }
        else s) = u at e hl
    have hu' := hl
    refine Adds.trans (.same hu') ?_
    rcases ite_cases e with ⟨-, e⟩ | ⟨-, e⟩
    · obtain ⟨t, ht, e⟩ := Outcome.bind_eq_ok.1 e
      cases e
      exact sendFence_adds ht
    · cases e; exact .same rfl

theorem noteFence_adds (f : Nat) (p : Bytes) (s : St) : Adds z s (noteFence f p s) := by
  unfold noteFence
  split
  · exact .same rfl
  · exact .emit s

theorem cutTextTo_adds (text : Bytes) (s : St) : Adds z s (cutTextTo text s) := by
  unfold cutTextTo
  split
  · exact .refl s
  · refine .trans (t := if s.cl.closed then s else Server.emit (.offered text) s) ?_ ?_
    · split
      · exact .refl s
      · exact .emit s
    · generalize (if s.cl.closed then s else Server.emit (.offered text) s) = t
      unfold cutTextSend
      split
      · split
        · exact .refl t
        · split
          · exact clip_adds _ _ _ rfl
          · split
            · exact clip_adds' _ _
            · exact .refl t
      · refine .send t _ _ (by decide) fun hl => ⟨_, read_cutText ?_, fun _ _ _ => rfl⟩
        simp only [List.length_append, be32_length, List.length_cons, List.length_nil] at hl
        omega

/-! ## Frames -/

/-- What is sent for a frame is one update: the size if it changed, the time, then what the encoder
wrote. -/
theorem sendFrame_reads (f : Frame) {s : St} (hc : s.cl.closed = false) : ∃ es, (sendFrame f s).log = s.log ++ es ∧
    (∀ e ∈ es, isInit e = false) ∧
    ∀ qs, f.nRects + 2 < 65536 → readRects z f.nRects f.payload = some (qs, []) →
      ∃ pre, readMsg z (sent es) = some (.update (pre ++ qs), []) ∧
        ∀ (α : Type) (dec : Decoder α) (sc : Canvas α), pre.foldl (draw1 dec) sc =
          if resized f s.cl then { sc with pix := fun _ _ => none } else sc := by
  have h1 : ∀ t : St, t.cl.closed = false → ∃ b q, (sendResizeRect f.w f.h t).log =
      t.log ++ [.send t.cl.chan .resizeRect b] ∧ readRect z b = some (q, []) ∧
        ∀ (α : Type) (dec : Decoder α) (sc : Canvas α), draw1 dec sc q = { sc with pix := fun _ _ => none } := by
    intro t ht
    unfold sendResizeRect
    dsimp only
    rw [send_log, if_neg (by exact Bool.eq_false_iff.1 ht)]
    split
    · obtain ⟨body, hb⟩ := read_extSize (z := z) f.w f.h 0 0
      refine ⟨_, _, rfl, hb, fun α dec sc => ?_⟩
      unfold draw1
      rw [if_neg (by exact (by decide : ¬ isPixels (-308) = true)), if_pos (.inr ⟨rfl, by simp⟩)]
    · have := read_rect (z := z) 0 0 f.w f.h (e := -223) (by decide) (by decide) (body := []) rfl
      rw [List.append_nil] at this
      refine ⟨_, _, rfl, this, fun α dec sc => ?_⟩
      unfold draw1
      rw [if_neg (by exact (by decide : ¬ isPixels (-223) = true)), if_pos (.inl rfl)]
  have h2 : ∀ t : St, t.cl.closed = false → ∃ es pre, (sendPts f.pts t).log = t.log ++ es ∧
      (∀ e ∈ es, isInit e = false) ∧
      readRects z (if willSendPts t.cl f.pts then 1 else 0) (sent es) = some (pre, []) ∧
      ∀ (α : Type) (dec : Decoder α) (sc : Canvas α), pre.foldl (draw1 dec) sc = sc := by
    intro t ht
    unfold sendPts willSendPts
    cases f.pts with
    | none => exact ⟨[], [], by simp, by simp, rfl, fun _ _ _ => rfl⟩
    | some p =>
      dsimp only
      by_cases hp : hasEnc t.cl encPts = true
      · rw [if_pos hp, send_log, if_neg (by exact Bool.eq_false_iff.1 ht)]
        have := read_rect (z := z) 0 0 0 0 (e := -1000) (by decide) (by decide) (body := be64 p) rfl
        refine ⟨_, [⟨0, 0, 0, 0, -1000, be64 p⟩], rfl, by simp [isInit], ?_, fun α dec sc => ?_⟩
        · simp only [hp, Option.isSome_some, Bool.and_self, if_true, sent, List.append_nil]
          exact readRects_one this
        · rw [List.foldl_cons, List.foldl_nil]
          exact draw1_still (by exact (by decide : isPixels (-1000) = false)) (by exact (by decide : (-1000 : Int) ≠ -223))
            fun h => absurd h (by exact (by decide : (-1000 : Int) ≠ -308))
      · rw [if_neg hp]
        simp only [Bool.not_eq_true] at hp
        exact ⟨[], [], by simp, by simp, by rw [hp]; rfl, fun _ _ _ => rfl⟩
  unfold sendFrame
  dsimp only
  generalize hu : Server.send .updateHead (updateHead (nRectsSent f s.cl % 65536)) s = u
  have u1 : u.cl = s.cl := by rw [← hu]; simp
  have u2 : u.log = s.log ++ [.send s.cl.chan .updateHead (updateHead (nRectsSent f s.cl % 65536))] := by
    rw [← hu, send_log, if_neg (by exact Bool.eq_false_iff.1 hc)]
  obtain ⟨v, hv, v1, v2, vs, vp, v3, v4, v5, v6⟩ : ∃ v, (if resized f s.cl = true then sendResizeRect f.w f.h u else u) = v ∧
      v.cl.closed = false ∧ willSendPts v.cl f.pts = willSendPts s.cl f.pts ∧ ∃ es pre, v.log = u.log ++ es ∧
        (∀ e ∈ es, isInit e = false) ∧
        readRects z (if resized f s.cl then 1 else 0) (sent es) = some (pre, []) ∧
        ∀ (α : Type) (dec : Decoder α) (sc : Canvas α), pre.foldl (draw1 dec) sc =
          if resized f s.cl then { sc with pix := fun _ _ => none } else sc := by
    by_cases hz : resized f s.cl = true
    · obtain ⟨b, q, b1, b2, b3⟩ := h1 u (by rw [u1]; exact hc)
      refine ⟨_, rfl, ?_, ?_, [.send u.cl.chan .resizeRect b], [q], ?_, by simp [isInit], ?_, ?_⟩
      · rw [if_pos hz]
        simp [sendResizeRect, u1, hc]
      · rw [if_pos hz]
        unfold willSendPts hasEnc
        simp [sendResizeRect, u1]
      · rw [if_pos hz, b1]
      · rw [if_pos hz]
        simp only [sent, List.append_nil]
        exact readRects_one b2
      · intro α dec sc
        rw [if_pos hz]
        exact b3 α dec sc
    · exact ⟨u, by rw [if_neg hz], by rw [u1]; exact hc, by rw [u1], [], [], by simp, by simp,
        by rw [if_neg hz]; rfl, fun _ _ _ => by rw [if_neg hz]; rfl⟩
  rw [hv]
  obtain ⟨ws, wp, w1, w2, w3, w4⟩ := h2 v v1
  have w5 : (sendPts f.pts v).cl.closed = false := by
    unfold sendPts
    split
    · exact v1
    · split <;> simp [v1]
  rw [send_log, if_neg (by exact Bool.eq_false_iff.1 w5), w1, v3, u2]
  refine ⟨.send s.cl.chan .updateHead (updateHead (nRectsSent f s.cl % 65536)) :: (vs ++ ws ++
    [.send (sendPts f.pts v).cl.chan .frame f.payload]), by simp, ?_, ?_⟩
  · intro e he
    simp only [List.mem_cons, List.mem_append, List.not_mem_nil, or_false] at he
    rcases he with rfl | (he | he) | rfl
    · rfl
    · exact v4 e he
    · exact w2 e he
    · rfl
  · intro qs hn hq
    rw [v2] at w3
    refine ⟨vp ++ wp, ?_, fun α dec sc => by rw [List.foldl_append, v6, w4]⟩
    have hs : ∀ (ch) (k) (b) (l : List Eff), sent (.send ch k b :: l) = b ++ sent l := fun _ _ _ _ => rfl
    rw [hs, sent_append, sent_append]
    have hlt : nRectsSent f s.cl < 65536 := by
      unfold nRectsSent
      split <;> split <;> omega
    rw [Nat.mod_eq_of_lt hlt]
    refine read_update hlt ?_
    have h3 := readRects_append (readRects_append v5 w3) hq
    have h4 : nRectsSent f s.cl = (if resized f s.cl then 1 else 0) + (if willSendPts s.cl f.pts then 1 else 0) +
        f.nRects := by unfold nRectsSent; omega
    rw [h4]
    rw [hs]
    show readRects z _ (sent vs ++ sent ws ++ (f.payload ++ [])) = _
    rw [List.append_nil]
    exact h3

/-! ## A session -/

theorem micro_adds {lp s s'} (hm : Micro lp table s s') (hk : Kept s.cl s.log) : Adds z s s' ∨
    (∃ f, s.log.getLast? = some (.encodeDone f) ∧ s.cl.st = .ready ∧ s' = sendFrame f s) ∨
    (s.cl.st ≠ .ready ∧ ∃ env r a n, tryRead env table r s a = .ok (s', n)) := by
  cases hm with
  | hs env r a h1 h2 => exact .inr (.inr ⟨h1, env, r, a, _, h2⟩)
  | sendFrame f hr hd => exact .inr (.inl ⟨f, hd, hr, rfl⟩)
  | fenceOut flags payload hr h => exact .inl (fence_adds s flags h)
  | pfFire hr h hp => exact .inl (Adds.trans (.same rfl) (fence_adds _ _ hp))
  | ext => exact .inl (.trans (.same rfl) sendExtSupport_adds)
  | cursor env => exact .inl sendCursor_adds
  | led hr => exact .inl (sendLed_adds hk)
  | frame env fb hr e => exact .inl (stageFrame_adds e)
  | simple env a h1 h2 => exact .inl (simple_adds h2)
  | fbReq inc r => exact .inl (.silent (fbReqPre_frame inc r s).2.2.2 (by simp))
  | contOn => exact .inl (Adds.trans (.same rfl) (.emit _))
  | contOff => exact .inl (Adds.trans (.same rfl) (endOfCont_adds _))
  | fenceReq flags payload h1 hp h2 => exact .inl (Adds.trans (noteFence_adds _ _ s) (onFenceRequest_adds h2))
  | consume => exact .inl (Adds.trans (.same rfl) (.emit _))
  | bigCut env c d hr hc h1 h2 => exact .inl (bigCutText_adds h2)
  | remoteClosed => exact .inl ((streamClose_adds s).trans (.silent (es := [.deferClose]) rfl (by simp)))
  | flushed => exact .inl (streamClose_adds s)
  | free hl h1 => exact .inl ((streamClose_adds s).trans (.same rfl))
  | idle hl h1 h2 =>
    exact .inl (Adds.trans (t := s.upd fun k => { k with nDefer := k.nDefer - 1 }) (.same rfl)
      ((streamClose_adds _).trans (.same rfl)))
  | encoded => exact .inl (Adds.trans (.same rfl) (.emit _))
  | setLed v => exact .inl (Adds.trans (.same rfl) (.emit _))
  | damage r => exact .inl (Adds.trans (.same rfl) (.emit _))
  | _ => exact .inl (.same rfl)

/-- what a client has been sent can be read -/
def InSync (z : Sizes) (l : List Eff) : Prop :=
  ∀ b, session l = some b → Readable z l →
    ∃ d r i ms, b = d ++ r ∧ (∀ q, readInit (d ++ q) = some (i, q)) ∧ Reads z r ms

theorem InSync.adds {s s' : St} (h : InSync z s.log) (ha : Adds z s s') : InSync z s'.log := by
  obtain ⟨es, h1, h2, h3⟩ := ha
  intro b hb hr
  rw [h1] at hb
  cases hs : session s.log with
  | none => rw [session_none hs, session_noInit h2] at hb; cases hb
  | some c =>
    rw [session_some hs] at hb
    cases hb
    obtain ⟨d, r, i, ms, e1, e2, e3⟩ := h c hs (by rw [h1] at hr; exact hr.mono)
    obtain ⟨ns, e4, -⟩ := h3 (by rw [h1] at hr; exact hr.local)
    exact ⟨d, r ++ sent es, i, ms ++ ns, by rw [e1, List.append_assoc], e2, e3.append e4⟩

theorem adds_noInit {s s' : St} (ha : Adds z s s') (h : session s.log = none) : session s'.log = none := by
  obtain ⟨es, h1, h2, -⟩ := ha
  rw [h1, session_none h, session_noInit h2]

theorem read_init (w h : Nat) {fmt name : Bytes} (hf : fmt.length = 16) (hn : name.length < 4294967296) (q : Bytes) :
    readInit (be16 w ++ be16 h ++ fmt ++ be32 name.length ++ name ++ q) =
      some (⟨w % 65536, h % 65536, fmt, name⟩, q) := by
  unfold readInit
  rw [List.append_assoc _ name q, takeN_eq (n := 24) (by
    simp only [List.length_append, be16_length, be32_length, hf])]
  have h1 : (be16 w ++ be16 h ++ fmt ++ be32 name.length).drop 20 = be32 name.length :=
    List.drop_left' (by simp only [List.length_append, be16_length, hf])
  have h2 : (be16 w ++ be16 h ++ fmt ++ be32 name.length).take 2 = be16 w := rfl
  have h3 : ((be16 w ++ be16 h ++ fmt ++ be32 name.length).drop 2).take 2 = be16 h := rfl
  have h4 : ((be16 w ++ be16 h ++ fmt ++ be32 name.length).drop 4).take 16 = fmt := by
    rw [List.append_assoc, List.drop_left' (by simp only [List.length_append, be16_length]),
      List.take_left' hf]
  dsimp only
  rw [h1, h2, h3, h4, beNat_four, Nat.mod_eq_of_lt hn, takeN_append name q, beNat_two, beNat_two]

/-- a session that has just begun -/
def Begun (l : List Eff) : Prop :=
  ∀ b, session l = some b → (∀ ch k b, .send ch k b ∈ l → b.length < 2147483648) →
    ∃ i, ∀ q, readInit (b ++ q) = some (i, q)

theorem Begun.sync {l : List Eff} (h : Begun l) : InSync z l := fun b hb hr => by
  obtain ⟨i, hi⟩ := h b hb hr.short
  exact ⟨b, [], i, [], (List.append_nil b).symm, hi, .nil⟩

theorem hs_sync {r s a s' n} (hst : s.cl.st ≠ .ready) (e : tryRead env table r s a = .ok (s', n))
    (h : session s.log = none)  : Begun s'.log ∧ (s'.cl.st ≠ .ready → session s'.log = none) := by
  by_cases hi : s.cl.st = .init
  · unfold tryRead at e
    rw [hi] at e
    dsimp only at e
    unfold onInit at e
    split at e
    · cases e
      exact ⟨fun b hb => by rw [h] at hb; (cases hb), fun _ => h⟩
    · rename_i shared _
      dsimp only at e
      have h0 : session (if shared = 0 then emit .disconnectOthers s else s).log = none := by
        split
        · show session (s.log ++ [.disconnectOthers]) = none
          rw [session_none h]; rfl
        · exact h
      generalize (if shared = 0 then emit .disconnectOthers s else s) = t at e h0
      split at e
      · cases e
      · rename_i u hu
        cases e
        refine ⟨?_, fun hr => absurd rfl hr⟩
        unfold sendServerInit at hu
        split at hu
        · cases hu
        · rename_i fb _
          split at hu
          · cases hu
          · rename_i f0 _
            dsimp only at hu
            generalize (if f0.bpp = 24 then { f0 with bpp := 32 } else f0) = f1 at hu
            cases hu
            show Begun ((Server.send _ _ (t.upd _)).log ++ [.newClient])
            rw [send_log]
            split
            · intro b hb
              rw [List.append_nil] at hb
              exact nomatch (session_none (l := t.log) (m := [.newClient]) h0).symm.trans hb
            · intro b hb hr
              have hlen := hr _ .serverInit _ (List.mem_append_left _ (List.mem_append_right _
                (List.mem_singleton.2 rfl)))
              rw [List.append_assoc] at hb
              have hb := (session_none (l := t.log) h0).symm.trans hb
              cases hb
              simp only [List.length_append, be32_length] at hlen
              have hpf : ∀ p : PixFmt, (pixfmtBytes p).length = 16 := fun p => by rfl
              refine ⟨⟨fb.w % 65536, fb.h % 65536, pixfmtBytes f1, t.srv.name⟩, fun q => ?_⟩
              show readInit (be16 fb.w ++ be16 fb.h ++ pixfmtBytes f1 ++ be32 t.srv.name.length ++ t.srv.name ++ [] ++ q) = _
              rw [List.append_nil]
              refine read_init _ _ (hpf f1) (Nat.lt_of_le_of_lt (Nat.le_add_left _ _) (Nat.lt_trans hlen (by decide))) q
  · obtain ⟨es, h1, h2⟩ := (hs_frame hst e).log
    have : session s'.log = none := by
      rw [h1, session_none h]
      refine session_noInit fun e he => ?_
      cases h2 e he with
      | send ch k m hk =>
        cases k <;> first | rfl | skip
        exfalso
        revert hk hi
        cases s.cl.st <;> simp [hsKind]
      | _ => rfl
    exact ⟨fun b hb => by rw [this] at hb; (cases hb), fun _ => this⟩

/-- the record of a client whose session can be read so far -/
structure Clear (z : Sizes) (c : Client) (l : List Eff) : Prop where
  lit : Lit c l
  before : c.st ≠ .ready → session l = none
  sync : InSync z l

theorem micro_clear {lp s s'} (hm : Micro lp table s s') (h : Clear z s.cl s.log) : Clear z s'.cl s'.log := by
  have hst : s'.cl.st ≠ .ready → s.cl.st ≠ .ready := fun h1 h2 => h1 (micro_ready hm h2)
  refine ⟨micro_lit hm h.lit, ?_, ?_⟩
  · intro hr
    have hn := h.before (hst hr)
    rcases micro_adds (z := z) hm h.lit.kept with ha | ⟨f, -, h2, -⟩ | ⟨h1, env, r, a, n, h2⟩
    · exact adds_noInit ha hn
    · exact absurd h2 (hst hr)
    · exact (hs_sync h1 h2 hn).2 hr
  · rcases micro_adds (z := z) hm h.lit.kept with ha | ⟨f, hf, h2, rfl⟩ | ⟨h1, env, r, a, n, h2⟩
    · exact h.sync.adds ha
    · by_cases hc : s.cl.closed = true
      · have : (sendFrame f s).log = s.log := by
          obtain ⟨es, h1, h2⟩ := (sendFrame_frame f s).2.2.2
          cases es with
          | nil => simpa using h1
          | cons e es =>
            have := (h2 e (by simp)).1
            rw [hc] at this; cases this
        rw [this]; exact h.sync
      · have hc : s.cl.closed = false := by simpa using hc
        obtain ⟨es, e1, e2, e3⟩ := sendFrame_reads (z := z) f hc
        intro b hb hr
        rw [e1] at hb
        cases hs : session s.log with
        | none => rw [session_none hs, session_noInit e2] at hb; cases hb
        | some c =>
          rw [session_some hs] at hb
          cases hb
          have hr' : Readable z s.log := by rw [e1] at hr; exact hr.mono
          obtain ⟨d, r, i, ms, a1, a2, a3⟩ := h.sync c hs hr'
          obtain ⟨b1, qs, b2⟩ := hr'.frames f (List.mem_of_getLast? hf)
          obtain ⟨pre, c1, -⟩ := e3 qs b1 b2
          exact ⟨d, r ++ sent es, i, ms ++ [.update (pre ++ qs)], by rw [a1, List.append_assoc], a2,
            a3.append (.one c1)⟩
    · exact (hs_sync h1 h2 (h.before h1)).1.sync

theorem clear_stays : Stays table (Clear z) :=
  ⟨fun _ _ hm _ h => micro_clear hm h, fun s text hb h =>
    ⟨(lit_stays (table := table)).cut s text hb h.lit, fun hr => adds_noInit (z := z) (cutTextTo_adds text s) (h.before hr),
      h.sync.adds (cutTextTo_adds text s)⟩⟩

/-- C98, the part that holds: over all runs of a server, a client whose session has begun can read
everything it was sent from ServerInit on, message after message, to the last byte.

Missing: see `Readable` for what is asked of the encoders, of the cursor and of the client itself, and the
violations below; the client's pixel format is the same throughout; the messages of the handshake. -/
theorem c98_session_partial {s0 s : Sys} {ops : List SysOp} (h0 : s0.peers = [])
    (e : sysRun table ops s0 = .ok s) : ∀ p ∈ s.peers, ∀ b, session p.log = some b → Readable z p.log →
      ∃ i ms, readSession z b = some (i, ms) := by
  intro p hp b hb hr
  have h : Clear z p.cl p.log :=
    clear_stays.all (fun srv => ⟨lit_start srv, fun _ => rfl, fun b hb => nomatch hb⟩) h0 e hp
  obtain ⟨d, r, i, ms, h1, h2, h3⟩ := h.sync b hb hr
  refine ⟨i, ms, ?_⟩
  unfold readSession
  rw [h1, h2]
  dsimp only
  rw [h3.readMsgs (Nat.le_refl _)]
  rfl

/-! ## Sessions -/

/-- `Readable`, checked -/
def readableB (z : Sizes) (l : List Eff) : Bool := l.all fun e =>
  match e with
  | .encodeDone f => decide (f.nRects + 2 < 65536) &&
    match readRects z f.nRects f.payload with
    | some (_, []) => true
    | _ => false
  | .send _ k b => decide (b.length < 2147483648) &&
    match k, b with
    | .cursor, 0 :: 0 :: 0 :: 1 :: b =>
      match readRect z b with
      | some (q, []) => decide (q.enc = -239)
      | _ => false
    | _, _ => true
  | .encodings es => !es.contains 1464686184 || es.contains (-261)
  | _ => true

theorem readable_of {l : List Eff} (h : readableB z l = true) : Readable z l := by
  have h := fun e he => List.all_eq_true.1 h e he
  refine ⟨fun f hf => ?_, fun ch b hb => ?_, fun es he hv => ?_, fun ch k b hb => ?_⟩
  · have := h _ hf
    simp only [Bool.and_eq_true, decide_eq_true_eq] at this
    refine ⟨this.1, ?_⟩
    have := this.2
    split at this
    · rename_i qs hq; exact ⟨qs, hq⟩
    · cases this
  · have := h _ hb
    simp only [Bool.and_eq_true, decide_eq_true_eq, List.cons_append, List.nil_append] at this
    have := this.2
    split at this
    · rename_i q hq; exact ⟨q, hq, of_decide_eq_true this⟩
    · cases this
  · have := h _ he
    simp only [Bool.or_eq_true, Bool.not_eq_true', Bool.eq_false_iff, List.contains_iff_mem, ne_eq] at this
    exact this.resolve_left (absurd hv)
  · have := h _ hb
    simp only [Bool.and_eq_true, decide_eq_true_eq] at this
    exact this.1

/-- the log of the first client after these events -/
def firstLog (ops : List SysOp) : List Eff :=
  match sysRun [] ops (fresh [110] (some demoFb)) with
  | .ok { peers := p :: _, .. } => p.log
  | _ => []

/-- four bytes for a pixel -/
def four : Sizes := ⟨4, 3⟩

/-- one pixel in raw encoding, at (1, 2) -/
def dotFrame : Frame := { demoFrame with nRects := 1, payload := rectHead 1 2 1 1 0 ++ [9, 8, 7, 6] }

/-- the environment in which all encodings are offered -/
def richEnv : Env := { demoEnv with experimental := true, cursorMsg := fun _ => some (rectHead 0 0 1 1 (-239) ++ [1, 2, 3, 4, 128]) }

/-- a message of the first client -/
def says (b : Bytes) : SysOp := .client 0 (.readable (.data b)) richEnv []

/-- A session with all that there is: the client lists its encodings and is answered with the end of
continuous updates, clipboard capabilities and a ping; it asks for updates and gets one with the extensions,
one with the cursor, one with the LEDs, and a frame, whose size is new, with a time; the application sets the
clipboard; a fence and the clock are answered; the client asks for colours in a map. -/
def talk : List SysOp :=
  joins [0] ++
    [says (Msg.setEncodings 0 [0, -223, -239, -258, -261, -312, -313, -1000, -1001, -1063131698]).wire,
      .client 0 (.setLed 2) richEnv [], .cursor (fun _ => (richEnv, [])),
      says fullReq, says fullReq, says fullReq, says fullReq,
      .client 0 (.encoded { dotFrame with w := 5, pts := some 77 }) richEnv [],
      .sendCutText some [104, 105],
      says (Msg.fence 0 2147483650 [65, 66]).wire,
      says ([160, 0, 0, 0] ++ be32 1 ++ be32 2 ++ be32 3 ++ be32 0),
      says ([0, 0, 0, 0, 8, 8] ++ List.replicate 14 0)]

/-- the reader reads all of it -/
example : readableB four (firstLog talk) = true ∧
    ((session (firstLog talk)).bind (readSession four)).map (fun q => (q.1.name, q.2.take 11)) = some ([110],
      [.endOfCont, .extClip 520093697 [0, 0, 0, 0], .fence 2147483649 [0, 0, 0, 7, 0, 0, 0, 0],
        .update [⟨0, 0, 0, 0, -258, []⟩, ⟨0, 0, 0, 0, -1001, []⟩],
        .update [⟨0, 0, 1, 1, -239, [1, 2, 3, 4, 128]⟩],
        .update [⟨0, 0, 0, 0, -261, [2]⟩],
        .update [⟨0, 0, 5, 3, -223, []⟩, ⟨0, 0, 0, 0, -1000, [0, 0, 0, 0, 0, 0, 0, 77]⟩,
          ⟨1, 2, 1, 1, 0, [9, 8, 7, 6]⟩],
        .fence 2147483649 [0, 0, 0, 7, 0, 0, 0, 16], .extClip 268435457 [0, 0, 0, 2, 104, 105, 0],
        .fence 2 [65, 66], .ntp (be32 1 ++ be32 7 ++ be32 7 ++ be32 0)]) ∧
    ((session (firstLog talk)).bind (readSession four)).map (fun q => q.2.drop 11 |>.map fun
      | .colourMap 0 d => d.length
      | _ => 0) = some [1536] := by
  refine ⟨by decide +kernel, by decide +kernel, by decide +kernel⟩

/-- C98 is false as it stands: a client that knows only VMware's way of being told of the LEDs cannot read
what it is sent from the first change of the LEDs on -/
theorem c98_session_violated : ∃ s p b, sysRun [] (joins [0, 1464686184] ++ [.client 0 (.setLed 2) demoEnv [],
      .client 0 (.readable (.data fullReq)) demoEnv []]) (fresh [110] (some demoFb)) = .ok s ∧
    p ∈ s.peers ∧ session p.log = some b ∧ ∀ z, readSession z b = none := by
  generalize hl : sysRun [] (joins [0, 1464686184] ++ [.client 0 (.setLed 2) demoEnv [],
      .client 0 (.readable (.data fullReq)) demoEnv []]) (fresh [110] (some demoFb)) = o
  have h : (match o with
    | .ok s => s.peers.head?.bind fun p => session p.log
    | _ => none) = some ([0, 4, 0, 3, 32, 24, 0, 1, 0, 255, 0, 255, 0, 255, 16, 8, 0, 0, 0, 0, 0, 0, 0, 1, 110] ++
      [0, 0, 0, 1, 0, 0, 0, 0, 0, 0, 0, 0, 255, 255, 254, 251, 0, 0, 0, 2]) := by
    rw [← hl]; decide +kernel
  cases o with
  | ok s =>
    obtain ⟨p, h1, h2⟩ := Option.bind_eq_some_iff.1 h
    refine ⟨s, p, _, rfl, List.mem_of_head? h1, h2, fun z => ?_⟩
    have r1 : readInit ([0, 4, 0, 3, 32, 24, 0, 1, 0, 255, 0, 255, 0, 255, 16, 8, 0, 0, 0, 0, 0, 0, 0, 1, 110] ++
        [0, 0, 0, 1, 0, 0, 0, 0, 0, 0, 0, 0, 255, 255, 254, 251, 0, 0, 0, 2]) =
        some (⟨4, 3, [32, 24, 0, 1, 0, 255, 0, 255, 0, 255, 16, 8, 0, 0, 0, 0], [110]⟩,
          [0, 0, 0, 1, 0, 0, 0, 0, 0, 0, 0, 0, 255, 255, 254, 251, 0, 0, 0, 2]) := by decide +kernel
    have r2 : readMsg z [0, 0, 0, 1, 0, 0, 0, 0, 0, 0, 0, 0, 255, 255, 254, 251, 0, 0, 0, 2] =
        some (.update [⟨0, 0, 0, 0, -261, [0]⟩], [0, 0, 2]) := by
      rw [show ([0, 0, 0, 1, 0, 0, 0, 0, 0, 0, 0, 0, 255, 255, 254, 251, 0, 0, 0, 2] : Bytes) =
        updateHead 1 ++ (rectHead 0 0 0 0 (-261) ++ [0]) ++ [0, 0, 2] from by decide +kernel]
      exact readMsg_more (read_update (n := 1) (by decide)
        (readRects_one (read_rect (e := -261) 0 0 0 0 (by decide) (by decide) (body := [0]) rfl))) [0, 0, 2]
    unfold readSession
    rw [r1]
    simp only [List.length_cons, readMsgs, r2]
    rfl
  | _ => cases h

end Verif.Wire
