import Verif.Spec.Lifetime
import Verif.Lemmas.Segmentation

/-!
# Lemmas about the life of a client
-/

namespace Verif.Server

variable {env : Env} {table : List Nat} {k : House} {r : St → Outcome St}

/-- what the server knows about a client that keeps to the rules -/
structure Pol (k : House) (s : St) : Prop where
  pos : 0 < k.w ∧ 0 < k.h
  fences : s.cl.pfN = 0
  blocked : s.cl.blocked = false
  damage : ∀ q ∈ s.cl.damage, k.Meets q
  fb : ∀ fb, s.srv.fb = some fb → k.w ≤ fb.w ∧ k.h ≤ fb.h
  size : match k.size with
    | none => -223 ∈ s.cl.encodings ∨ -308 ∈ s.cl.encodings
    | some (w, h) => s.cl.knownW = w ∧ s.cl.knownH = h ∧ -308 ∉ s.cl.encodings

/-- the part of the state this is about -/
def polKey (s : St) : Int × Bool × Region × Option Fb × List Int × Nat × Nat :=
  (s.cl.pfN, s.cl.blocked, s.cl.damage, s.srv.fb, s.cl.encodings, s.cl.knownW, s.cl.knownH)

theorem Pol.congr {s t : St} (h : Pol k s) (e : polKey t = polKey s) : Pol k t := by
  unfold polKey at e
  simp only [Prod.mk.injEq] at e
  obtain ⟨e1, e2, e3, e4, e5, e6, e7⟩ := e
  exact ⟨h.pos, by rw [e1]; exact h.fences, by rw [e2]; exact h.blocked, by rw [e3]; exact h.damage,
    by rw [e4]; exact h.fb, by rw [e5, e6, e7]; exact h.size⟩

@[simp] theorem polKey_send (kd b s) : polKey (send kd b s) = polKey s := by
  unfold polKey; simp

@[simp] theorem polKey_emit (e s) : polKey (emit e s) = polKey s := rfl

theorem SimpleFrame.polKey {s t : St} (h : SimpleFrame s t) (he : t.cl.encodings = s.cl.encodings) :
    polKey t = polKey s := by
  obtain ⟨h1, -, ⟨_, _, _, _, _, _, _, _, _, h2⟩, -⟩ := h
  unfold Server.polKey
  rw [h1, he, h2]

/-! ## Regions -/

theorem meets_clip {d : Region} {fb : Fb} (hd : ∀ q ∈ d, k.Meets q) (hw : k.w ≤ fb.w) (hh : k.h ≤ fb.h)
    (hne : d.notEmpty = true) :
    (d.clip { x := 0, y := 0, w := fb.w, h := fb.h }).notEmpty = true := by
  unfold Region.notEmpty at *
  rw [List.any_eq_true] at hne ⊢
  obtain ⟨q, hq, hne⟩ := hne
  rw [Bool.and_eq_true, decide_eq_true_eq, decide_eq_true_eq] at hne
  refine ⟨_, List.mem_map.2 ⟨q, hq, rfl⟩, ?_⟩
  rw [Bool.and_eq_true, decide_eq_true_eq, decide_eq_true_eq]
  rcases hd q hq with h | h | ⟨h1, h2⟩
  · omega
  · omega
  · unfold Rect.inter
    simp only
    omega

theorem hasDamage_notEmpty {c : Client} (h : hasDamage c = true) : c.damage.notEmpty = true := by
  unfold hasDamage at h
  cases hd : c.damage.notEmpty with
  | true => rfl
  | false => rw [hd] at h; cases h

/-! ## Updates -/

theorem pendingFence_pol {s : St} (h : Pol k s) : processPendingFence r s = .ok s := by
  unfold processPendingFence
  rw [if_pos h.fences, if_neg (by rw [h.blocked]; exact Bool.false_ne_true)]

theorem decrement_pol {s : St} (h : Pol k s) (hu : s.cl.isUpdating = false) :
    ∃ t b, decrementPending r s = .ok (t, b) ∧ Pol k t ∧ t.cl.isUpdating = false := by
  unfold decrementPending
  rw [if_neg (by rw [hu]; exact Bool.false_ne_true)]
  split
  · exact ⟨_, _, rfl, h, hu⟩
  · rw [pendingFence_pol h]
    exact ⟨_, _, rfl, h.congr rfl, hu⟩

theorem sendExtSupport_key (s : St) : ∃ t b, sendExtSupport s = (t, b) ∧ polKey t = polKey s ∧
    t.cl = s.cl := by
  unfold sendExtSupport
  dsimp only
  by_cases h : (if hasEnc s.cl encQemuKey then 1 else 0) + (if hasEnc s.cl encNtp then 1 else 0) = 0
  · rw [if_pos h]; exact ⟨_, _, rfl, rfl, rfl⟩
  · rw [if_neg h]; exact ⟨_, _, rfl, polKey_send _ _ _, send_cl _ _ _⟩

theorem stageExt_pol {s : St} (h : Pol k s) (hu : s.cl.isUpdating = false) :
    ∃ t b, stageExt r s = .ok (t, b) ∧ Pol k t ∧ t.cl.isUpdating = false := by
  unfold stageExt
  split
  · exact ⟨_, _, rfl, h, hu⟩
  · dsimp only
    obtain ⟨t, b, e, h1, h2⟩ := sendExtSupport_key (s.upd fun c => { c with extNotified := true })
    rw [e]
    have h1 : Pol k t := h.congr h1
    have h2 : t.cl.isUpdating = false := by rw [h2]; exact hu
    cases b with
    | true => exact decrement_pol h1 h2
    | false => exact ⟨_, _, rfl, h1, h2⟩

theorem stageCursor_pol {s : St} (h : Pol k s) (hu : s.cl.isUpdating = false) :
    ∃ t b, stageCursor env r s = .ok (t, b) ∧ Pol k t ∧ t.cl.isUpdating = false := by
  unfold stageCursor
  split
  · unfold sendCursor
    split
    · exact decrement_pol h hu
    · exact decrement_pol (h.congr (by rw [polKey_send]; rfl)) (by rw [send_cl]; exact hu)
  · exact ⟨_, _, rfl, h, hu⟩

theorem stageLed_pol {s : St} (h : Pol k s) (hu : s.cl.isUpdating = false) :
    ∃ t b, stageLed r s = .ok (t, b) ∧ Pol k t ∧ t.cl.isUpdating = false := by
  unfold stageLed sendLed
  dsimp only
  split
  · rename_i heq
    split at heq
    · cases heq
    · split at heq
      · cases heq
      · cases heq
        refine decrement_pol (h.congr ?_) ?_
        · unfold polKey; simp
        · simp [hu]
  · rename_i heq
    split at heq
    · cases heq; exact ⟨_, _, rfl, h, hu⟩
    · split at heq
      · cases heq; exact ⟨_, _, rfl, h, hu⟩
      · cases heq

theorem ite_pol {c : Prop} [Decidable c] {a b : Outcome St} {P : St → Prop}
    (h1 : c → ∃ t, a = .ok t ∧ P t) (h2 : ¬ c → ∃ t, b = .ok t ∧ P t) :
    ∃ t, (if c then a else b) = .ok t ∧ P t := by
  split
  · exact h1 ‹_›
  · exact h2 ‹_›

theorem ensureEncoder_kept [he : Roomy env] {fb : Fb} {s t : St} (h : ensureEncoder env fb s = (t, false)) :
    isKept (chooseEncoding env fb s.cl.encodings) = false := by
  cases hk : isKept (chooseEncoding env fb s.cl.encodings) with
  | false => rfl
  | true =>
    unfold ensureEncoder at h
    dsimp only at h
    rw [he.room _ hk] at h
    rcases ite_cases h with ⟨-, h⟩ | ⟨-, h⟩
    · cases h
    split at h <;> cases h

theorem stageFrame_pol [Roomy env] {fb : Fb} {s : St} (h : Pol k s) (hw : k.w ≤ fb.w) (hh : k.h ≤ fb.h) :
    ∃ t, stageFrame env fb s = .ok t ∧ Pol k t := by
  unfold stageFrame
  by_cases hd : hasDamage s.cl = true
  · rw [if_neg (by rw [hd]; decide)]
    refine ite_pol (fun _ => ⟨_, rfl, h⟩) fun _ => ?_
    · have hen : ∃ u b, ensureEncoder env fb s = (u, b) ∧ polKey u = polKey s := by
        unfold ensureEncoder
        dsimp only
        split
        · exact ⟨_, _, rfl, rfl⟩
        · split
          · exact ⟨_, _, rfl, rfl⟩
          · split
            · exact ⟨_, _, rfl, rfl⟩
            · exact ⟨_, _, rfl, rfl⟩
      obtain ⟨u, b, he, hk⟩ := hen
      rw [he]
      have hu := h.congr hk
      have hdm : u.cl.damage = s.cl.damage := congrArg (·.2.2.1) hk
      cases b with
      | false =>
        dsimp only
        rw [ensureEncoder_kept he]
        exact ⟨_, rfl, hu⟩
      | true =>
        dsimp only
        rw [if_neg (by
          rintro ⟨-, hc⟩
          rw [hdm, meets_clip h.damage hw hh (hasDamage_notEmpty hd)] at hc
          cases hc)]
        have hpol : ∀ {t : St}, polKey t = (u.cl.pfN, u.cl.blocked, [], u.srv.fb, u.cl.encodings,
            u.cl.knownW, u.cl.knownH) → Pol k t := by
          intro t e
          refine Pol.congr (s := u.upd fun c => { c with damage := [] }) ?_ e
          exact ⟨hu.pos, hu.fences, hu.blocked, fun q hq => (by cases hq), hu.fb, hu.size⟩
        split
        · refine ⟨_, rfl, hpol ?_⟩
          split <;> rfl
        · exact ⟨_, rfl, hpol rfl⟩
  · rw [if_pos (by rw [Bool.eq_false_iff.2 hd]; decide)]
    exact ⟨_, rfl, h⟩

theorem processFb_pol [Roomy env] {s : St} (h : Pol k s) : ∃ t, processFb env r s = .ok t ∧ Pol k t := by
  unfold processFb
  split
  · exact ⟨_, rfl, h⟩
  split
  · exact ⟨_, rfl, h⟩
  rename_i fb hfb
  obtain ⟨hw, hh⟩ := h.fb fb hfb
  split
  · exact ⟨_, rfl, h⟩
  rename_i hu
  split
  · exact ⟨_, rfl, h⟩
  obtain ⟨s1, b1, e1, h1, u1⟩ := stageExt_pol (r := r) h (by simpa using hu)
  rw [e1]
  show ∃ t, (if (!b1) = true then _ else _) = _ ∧ _
  split
  · exact ⟨_, rfl, h1⟩
  obtain ⟨s2, b2, e2, h2, u2⟩ := stageCursor_pol (env := env) (r := r) h1 u1
  rw [e2]
  show ∃ t, (if (!b2) = true then _ else _) = _ ∧ _
  split
  · exact ⟨_, rfl, h2⟩
  obtain ⟨s3, b3, e3, h3, u3⟩ := stageLed_pol (r := r) h2 u2
  rw [e3]
  show ∃ t, (if (!b3) = true then _ else _) = _ ∧ _
  split
  · exact ⟨_, rfl, h3⟩
  exact stageFrame_pol h3 hw hh

theorem completeFb_pol [Roomy env] {s : St} (h : Pol k s) : ∃ t, completeFb env r s = .ok t ∧ Pol k t := by
  unfold completeFb
  split
  · exact ⟨_, rfl, h⟩
  · exact processFb_pol (h.congr rfl)

theorem sendPing_pol {n : Nat} {s : St} (h : Pol k s) : ∃ t, sendPing env n s = .ok t ∧ Pol k t := by
  obtain ⟨t, ht⟩ := sendPing_ok (env := env) n s
  refine ⟨t, ht, h.congr ((sendPing_frame ht).polKey ?_)⟩
  unfold sendPing at ht
  split at ht
  · cases ht; rfl
  · unfold sendFence at ht
    dsimp only at ht
    split at ht
    · cases ht
    · cases ht; simp

theorem sendFrame_pol {f : Frame} {s : St} (h : Pol k s)
    (hf : ∀ w h, k.size = some (w, h) → f.w = w ∧ f.h = h) : Pol k (sendFrame f s) := by
  have hpts : ∀ u, polKey (sendPts f.pts u) = polKey u := by
    intro u
    unfold sendPts
    split
    · rfl
    · split
      · exact polKey_send _ _ _
      · rfl
  have h0 : Pol k (send .updateHead (updateHead (nRectsSent f s.cl % 65536)) s) :=
    h.congr (polKey_send _ _ _)
  unfold sendFrame
  dsimp only
  refine Pol.congr ?_ ((polKey_send _ _ _).trans (hpts _))
  split
  · rename_i hr
    cases hs : k.size with
    | some wh =>
      obtain ⟨w, ht⟩ := wh
      obtain ⟨rfl, rfl⟩ := hf w ht hs
      have := h.size
      rw [hs] at this
      obtain ⟨a1, a2, -⟩ := this
      unfold resized at hr
      rw [a1, a2] at hr
      simp at hr
    | none =>
      unfold sendResizeRect
      refine Pol.congr ?_ (polKey_send _ _ _)
      refine ⟨h0.pos, h0.fences, h0.blocked, ?_, h0.fb, ?_⟩
      · intro q hq
        rcases List.mem_append.1 hq with hq | hq
        · exact h0.damage q hq
        · rw [List.mem_singleton.1 hq]
          exact Or.inr (Or.inr h0.pos)
      · have := h0.size
        rw [hs] at this ⊢
        exact this
  · exact h0

theorem resizing_pol {f : Frame} {s : St} (h : Pol k s)
    (hf : ∀ w h, k.size = some (w, h) → f.w = w ∧ f.h = h) :
    ¬ (resized f s.cl && !supportsResizing s.cl) = true := by
  have hsz := h.size
  cases hs : k.size with
  | none =>
    rw [hs] at hsz
    have : supportsResizing s.cl = true := by
      unfold supportsResizing hasEnc encDesktopSize encExtDesktopSize
      rcases hsz with h | h
      · rw [List.contains_iff_mem.2 h]; rfl
      · rw [List.contains_iff_mem.2 h]; simp
    rw [this]
    simp
  | some wh =>
    obtain ⟨w, ht⟩ := wh
    obtain ⟨rfl, rfl⟩ := hf w ht hs
    rw [hs] at hsz
    unfold resized
    rw [hsz.1, hsz.2.1]
    simp

theorem finishFb_pol [Roomy env] {f : Frame} {s : St} (h : Pol k s)
    (hf : ∀ w h, k.size = some (w, h) → f.w = w ∧ f.h = h) :
    ∃ t, finishFb env r f s = .ok t ∧ Pol k t := by
  unfold finishFb
  split
  · exact completeFb_pol h
  split
  · exact completeFb_pol (h.congr rfl)
  rw [if_neg (resizing_pol h hf)]
  have h1 := sendFrame_pol h hf
  dsimp only
  generalize sendFrame f s = u at h1 ⊢
  have hmid : ∃ v, (if env.sentAtOnce = true then completeFb env r u
      else .ok (u.upd fun c => { c with writing := true })) = .ok v ∧ Pol k v := by
    split
    · exact completeFb_pol h1
    · exact ⟨_, rfl, h1.congr rfl⟩
  obtain ⟨v, e2, h2⟩ := hmid
  rw [e2]
  obtain ⟨x, e3, h3⟩ := sendPing_pol (env := env) (n := f.payload.length) h2
  show ∃ t, (sendPing env f.payload.length v >>= fun s => processPendingFence r s) = _ ∧ _
  rw [e3]
  exact ⟨x, pendingFence_pol h3, h3⟩

/-! ## Messages -/

theorem fbReqPre_pol {inc : UInt8} {q : Rect} {s : St} (h : Pol k s) (hq : inc = 0 → k.Meets q) :
    Pol k (fbReqPre (inc != 0) q s) := by
  have h1 : Pol k (emit (.fbReq (inc != 0) q.x q.y q.w q.h) (s.upd fun c => { c with
      nPending := c.nPending + 1
      damage := if (inc != 0) = true then c.damage else c.damage ++ [q] })) := by
    refine ⟨h.pos, h.fences, h.blocked, ?_, h.fb, h.size⟩
    show ∀ p ∈ (if (inc != 0) = true then s.cl.damage else s.cl.damage ++ [q]), k.Meets p
    intro p hp
    by_cases hi : inc = 0
    · rw [hi] at hp
      rw [if_neg (by decide)] at hp
      rcases List.mem_append.1 hp with hp | hp
      · exact h.damage p hp
      · rw [List.mem_singleton.1 hp]; exact hq hi
    · rw [if_pos (by simpa using hi)] at hp
      exact h.damage p hp
  unfold fbReqPre
  dsimp only
  generalize emit (.fbReq (inc != 0) q.x q.y q.w q.h) _ = u at h1 ⊢
  unfold forgetSize
  split
  · rename_i hc
    refine ⟨h1.pos, h1.fences, h1.blocked, h1.damage, h1.fb, ?_⟩
    have hs := h1.size
    cases hk : k.size with
    | none => rw [hk] at hs; exact hs
    | some wh =>
      rw [hk] at hs
      rw [Bool.and_eq_true] at hc
      exact absurd (List.contains_iff_mem.1 hc.2) hs.2.2
  · exact h1

theorem mem_first {es : List Int} {e : Int} (p : Int → Bool) (hp : p e = true) {n : Nat}
    (h : e ∈ es.take n) : e ∈ (es.filter p).take n := by
  induction es generalizing n with
  | nil => simp at h
  | cons a es ih =>
    cases n with
    | zero => simp at h
    | succ n =>
      rw [List.take_succ_cons, List.mem_cons] at h
      rcases h with rfl | h
      · rw [List.filter_cons_of_pos hp]; simp
      · have := ih h
        cases ha : p a with
        | true => rw [List.filter_cons_of_pos ha, List.take_succ_cons]; exact List.mem_cons_of_mem _ this
        | false =>
          rw [List.filter_cons_of_neg (by rw [ha]; exact Bool.false_ne_true)]
          exact List.mem_of_mem_take (i := n) (by rw [List.take_take, Nat.min_eq_left (Nat.le_succ n)]; exact this)

theorem house_noFence {m : Msg} (hs : k.Msg table m) (p flags payload)
    (h : m = .fence p flags payload) : flags < 2147483648 := by subst h; exact hs.elim

/-- a complete message is handled -/
theorem pol_complete [Roomy env] {s : St} {m : Msg} {rest : Bytes} (hp : Pol k s) (hr : s.cl.st = .ready)
    (hn : s.net = []) (hf : m.Fits) (hs : k.Msg table m)
    (hst : ∀ inc q, m = .fbRequest inc q → ¬ (inc ≠ 0 ∧ s.cl.cont = true)) :
    ∃ t n, tryRead env table reenterInHandler s (m.wire ++ rest) = .ok (t, n) ∧ Pol k t := by
  cases m with
  | key d p sym => exact ⟨_, _, msg_key hr hf rest, hp.congr rfl⟩
  | pointer mk x y => exact ⟨_, _, msg_pointer hr hf.1 hf.2 rest, hp.congr rfl⟩
  | cutText p text => exact ⟨_, _, msg_cutText hr hs rest, hp.congr rfl⟩
  | qemuKey d sym code =>
    exact ⟨_, _, msg_qemuKey hr hf.1 hf.2.2 (List.getElem?_eq_getElem hs) rest, hp.congr rfl⟩
  | setPixelFormat p f =>
    by_cases ht : f.trueColour = 0
    · refine ⟨_, _, msg_pixmap hr ht rest, hp.congr ?_⟩
      unfold polKey; simp
    · exact ⟨_, _, msg_pixfmt hr hf ht rest, hp.congr rfl⟩
  | setEncodings p es =>
    have key : ∀ t n, tryRead env table reenterInHandler s ((Msg.setEncodings p es).wire ++ rest) =
        .ok (t, n) → t.cl.encodings = (es.filter fun e => decide (e ∈ supported env.experimental)).take 32 := by
      intro t n he
      obtain ⟨-, hd⟩ := msg_complete hn hr hf (house_noFence hs) hst he
      exact congrArg Settings.encodings hd.settings
    rw [msg_setEncodings hr hf.1] at key ⊢
    generalize hsc : scanEncodings env.experimental (es.flatMap wire32) [] 10 = sc at key ⊢
    obtain ⟨encs, q⟩ := sc
    dsimp only at key ⊢
    generalize hu : emit (.encodings encs) (s.upd fun c => { c with encodings := encs, quality := q, formatsChanged := true }) = u at key ⊢
    have hfr : SimpleFrame u (if hasEnc (notifyCont u).cl encExtClipboard = true then sendClipCaps (notifyCont u)
        else notifyCont u) := by
      split
      · exact (notifyCont_frame u).trans (.send _ _ _)
      · exact notifyCont_frame u
    generalize (if hasEnc (notifyCont u).cl encExtClipboard = true then sendClipCaps (notifyCont u)
        else notifyCont u) = v at hfr key ⊢
    obtain ⟨t, ht⟩ := sendPing_ok (env := env) 0 v
    rw [ht] at key ⊢
    refine ⟨t, _, rfl, ?_⟩
    have henc := key t _ rfl
    have hfr := hfr.trans (sendPing_frame ht)
    obtain ⟨h1, -, ⟨_, _, _, _, _, _, _, _, _, h2⟩, -⟩ := hfr
    rw [← hu] at h1 h2
    refine ⟨hp.pos, by rw [h2]; exact hp.fences, by rw [h2]; exact hp.blocked, by rw [h2]; exact hp.damage,
      by rw [h1]; exact hp.fb, ?_⟩
    have hsz := hp.size
    have hs2 := hs.2
    cases hk : k.size with
    | none =>
      rw [hk] at hs2
      dsimp only at hs2 ⊢
      rw [henc]
      rcases hs2 with h | h
      · exact Or.inl (mem_first _ (by cases env.experimental <;> decide) h)
      · exact Or.inr (mem_first _ (by cases env.experimental <;> decide) h)
    | some wh =>
      rw [hk] at hs2 hsz
      dsimp only at hs2 hsz ⊢
      refine ⟨by rw [h2]; exact hsz.1, by rw [h2]; exact hsz.2.1, ?_⟩
      rw [henc]
      intro hc
      exact hs2 (List.mem_filter.1 (List.mem_of_mem_take hc)).1
  | setDesktopSize p w h fl ss =>
    refine ⟨_, _, msg_setDesktopSize hr hf rest, hp.congr ?_⟩
    rw [polKey_send]
    split <;> rfl
  | ntp t0 t1 t2 t3 p =>
    refine ⟨_, _, msg_ntp hr hf.2.2.2 rest, hp.congr ?_⟩
    split
    · exact polKey_send _ _ _
    · rfl
  | fbRequest inc q =>
    rw [msg_fbRequest hr hf, if_neg (hst inc q rfl)]
    obtain ⟨t, ht, h1⟩ := processFb_pol (env := env) (r := reenterInHandler) (fbReqPre_pol hp hs)
    rw [ht]
    exact ⟨t, _, rfl, h1⟩
  | contUpdates on q =>
    rw [msg_contUpdates hr hf]
    split
    · obtain ⟨t, ht, h1⟩ := processFb_pol (env := env) (r := reenterInHandler)
        (hp.congr (t := emit .contOn (s.upd fun c => { c with cont := true, contRect := q })) rfl)
      rw [ht]
      exact ⟨t, _, rfl, h1⟩
    · exact ⟨_, _, rfl, hp.congr (by rw [polKey_send]; rfl)⟩
  | fence p flags pl => exact hs.elim

theorem house_simple {m : Msg} (hs : k.Msg table m) :
    m.Simple table ∨ (∃ inc q, m = .fbRequest inc q) ∨ (∃ on q, m = .contUpdates on q) := by
  cases m with
  | setEncodings p es => exact .inl hs.1
  | fbRequest inc q => exact .inr (.inl ⟨_, _, rfl⟩)
  | contUpdates on q => exact .inr (.inr ⟨_, _, rfl⟩)
  | fence p flags pl => exact hs.elim
  | _ => exact .inl hs

/-- an incomplete one is left alone -/
theorem pol_partial {s : St} {m : Msg} {a b : Bytes} (hr : s.cl.st = .ready) (hf : m.Fits)
    (hs : k.Msg table m) (hb : b ≠ []) (hw : a ++ b = m.wire) :
    ∃ s' n, tryRead env table reenterInHandler s a = .ok (s', n) ∧ n ≤ a.length := by
  rcases house_simple hs with h | ⟨inc, q, rfl⟩ | ⟨on, q, rfl⟩
  · exact simple_partial hr hf h hb hw
  · rw [tryRead_ready hr]
    obtain ⟨n, hn, rfl⟩ := prefix_fixed hw hb
    have hn : n < 10 := hn
    match n, hn with
    | 0, _ | 1, _ | 2, _ | 3, _ | 4, _ | 5, _ | 6, _ | 7, _ | 8, _ | 9, _ =>
      exact ⟨_, _, rfl, Nat.zero_le _⟩
  · rw [tryRead_ready hr]
    obtain ⟨n, hn, rfl⟩ := prefix_fixed hw hb
    have hn : n < 10 := hn
    match n, hn with
    | 0, _ | 1, _ | 2, _ | 3, _ | 4, _ | 5, _ | 6, _ | 7, _ | 8, _ | 9, _ =>
      exact ⟨_, _, rfl, Nat.zero_le _⟩

theorem house_plain {m : Msg} (hf : m.Fits) (hs : k.Msg table m) : m.Plain := by
  rcases house_simple hs with h | ⟨inc, q, rfl⟩ | ⟨on, q, rfl⟩
  · exact simple_plain hf h
  · exact ⟨hf, fun _ _ _ h => (by cases h), fun _ => by simp [Msg.wire]⟩
  · exact ⟨hf, fun _ _ _ h => (by cases h), fun _ => by simp [Msg.wire]⟩

/-! ## Reading -/

theorem loop_pol [Roomy env] {unread : Bytes} : ∀ (fuel : Nat) (s : St) (todo : List Msg), Mid s → Pol k s →
    s.cl.buf.drop s.cl.idx ++ unread = todo.flatMap Msg.wire →
    NoStall s.cl.cont todo → (∀ m ∈ todo, m.Fits ∧ k.Msg table m) →
    s.cl.idx ≤ s.cl.buf.length → ∃ s', loop env table fuel s = .ok s' ∧ Pol k s' := by
  intro fuel
  induction fuel with
  | zero => intro s _ _ hp _ _ _ _; exact ⟨s, rfl, hp⟩
  | succ fuel ih =>
    intro s todo hm hp hw hns hpl hidx
    unfold loop
    rw [if_neg (by rw [hm.blocked]; exact Bool.false_ne_true)]
    have hs0 : (s.upd fun k => { k with blocked := k.mustBlock, mustBlock := false }) = s := by
      show { s with cl := { s.cl with blocked := s.cl.mustBlock, mustBlock := false } } = s
      have h1 := hm.blocked
      have h2 := hm.mustBlock
      clear hp hw hns hidx
      cases s with | mk srv cl net log =>
      cases cl
      simp only at h1 h2
      subst h1 h2
      rfl
    dsimp only
    rw [hs0]
    have hal : (s.cl.buf.drop s.cl.idx).length = s.cl.buf.length - s.cl.idx := List.length_drop
    generalize ha : s.cl.buf.drop s.cl.idx = a at *
    -- with nothing left the loop ends
    have hnil : ∀ (fuel : Nat) (t : St), Mid t → Pol k t → t.cl.buf.drop t.cl.idx = [] →
        ∃ s', loop env table fuel t = .ok s' ∧ Pol k s' := by
      intro fuel t htm htp hb
      cases fuel with
      | zero => exact ⟨_, rfl, htp⟩
      | succ fuel =>
        unfold loop
        split
        · exact ⟨_, rfl, htp⟩
        · dsimp only
          have : (t.upd fun k => { k with blocked := k.mustBlock, mustBlock := false }).cl.buf.drop
            (t.upd fun k => { k with blocked := k.mustBlock, mustBlock := false }).cl.idx = [] := hb
          rw [this, tryRead_ready (by exact htm.ready)]
          exact ⟨_, rfl, htp.pos, htp.fences, htm.mustBlock, htp.damage, htp.fb, htp.size⟩
    cases todo with
    | nil =>
      have : a = [] := (List.append_eq_nil_iff.1 (by simpa using hw)).1
      subst this
      rw [tryRead_ready hm.ready]
      exact ⟨_, rfl, hp⟩
    | cons m ms =>
      obtain ⟨hf, hsm⟩ := hpl m (by simp)
      rw [List.flatMap_cons] at hw
      by_cases hle : m.wire.length ≤ a.length
      · obtain ⟨rest, rfl⟩ : ∃ rest, a = m.wire ++ rest := by
          have := congrArg (List.take m.wire.length) hw
          rw [List.take_append_of_le_length hle, List.take_left] at this
          exact ⟨a.drop m.wire.length, by
            conv => lhs; rw [← List.take_append_drop m.wire.length a, this]⟩
        obtain ⟨s1, rc, he, hp1⟩ := pol_complete (env := env) (table := table) (rest := rest) hp hm.ready
          hm.net hf hsm (noStall_head hns)
        obtain ⟨rfl, hd⟩ := msg_complete hm.net hm.ready hf (house_noFence hsm) (noStall_head hns) he
        rw [he]
        show ∃ s', (if m.wire.length = 0 then _ else _) = _ ∧ _
        have hpos := wire_pos m
        obtain ⟨g1, g2, g3⟩ := hd.rest
        have hm1 := hd.mid hm
        have hset : s1.cl.cont = (m.apply env.experimental s.cl.settings).cont := by
          rw [← hd.settings]; rfl
        rw [List.length_append] at hal hle
        rw [if_neg (by omega), if_neg (by rw [g2, g3]; omega)]
        refine ih _ ms (by exact ⟨hm1.net, hm1.ready, hm1.open_, hm1.pending, hm1.defer, hm1.alive,
          hm1.blocked, hm1.mustBlock⟩) (by exact hp1.congr rfl) ?_ ?_ (fun m hm => hpl m (by simp [hm])) ?_
        · show s1.cl.buf.drop (s1.cl.idx + m.wire.length) ++ unread = _
          rw [g2, g3, ← List.drop_drop, ha, List.drop_left]
          rw [List.append_assoc] at hw
          exact List.append_cancel_left hw
        · show NoStall s1.cl.cont ms
          rw [hset]
          exact noStall_tail (g := s.cl.settings) hns
        · show s1.cl.idx + m.wire.length ≤ s1.cl.buf.length
          rw [g2, g3]; omega
      · obtain ⟨b, hb⟩ : ∃ b, a ++ b = m.wire := by
          have := congrArg (List.take a.length) hw
          rw [List.take_left, List.take_append_of_le_length (by omega)] at this
          exact ⟨m.wire.drop a.length, by
            rw [this, List.length_take, Nat.min_eq_left (by omega), List.take_append_drop]⟩
        have hbne : b ≠ [] := by
          rintro rfl
          rw [List.append_nil] at hb
          rw [hb] at hle
          exact hle (Nat.le_refl _)
        obtain ⟨s1, n, he, hn⟩ := pol_partial (env := env) (table := table) (s := s) hm.ready hf hsm hbne hb
        rw [he]
        show ∃ s', (if n = 0 then _ else _) = _ ∧ _
        have hc := msg_partial hm.ready hf (house_noFence hsm) hbne hb he
        by_cases hn0 : n = 0
        · rw [if_pos hn0]
          rcases hc with ⟨-, h0, -⟩ | hlt | ⟨p, text, x, -, -, hna, h8, hs'⟩
          · subst h0; exact ⟨_, rfl, hp⟩
          · omega
          · omega
        · rw [if_neg hn0]
          obtain ⟨g2, g3, -⟩ := tryRead_buf he
          rw [if_neg (by rw [g2, g3]; omega)]
          rcases hc with ⟨h0, -⟩ | hlt | ⟨p, text, x, hmt, hx, hna, -, hs'⟩
          · exact absurd h0 hn0
          · omega
          · subst hs'
            refine hnil _ _ ⟨hm.net, hm.ready, hm.open_, hm.pending, hm.defer, hm.alive, hm.blocked,
              hm.mustBlock⟩ (hp.congr rfl) ?_
            show s.cl.buf.drop (s.cl.idx + n) = []
            rw [hna, ← List.drop_drop, ha]
            simp

theorem read_pol [Roomy env] {n : Nat} {unread : Bytes} {s : St} {todo : List Msg} (hm : Mid s) (hp : Pol k s)
    (hi : s.cl.idx = 0) (ha : At s unread todo) (hns : NoStall s.cl.cont todo)
    (hpl : ∀ m ∈ todo, m.Fits ∧ k.Msg table m) :
    ∃ s', event table (.readable (.data (unread.take (n + 1)))) env s = .ok s' ∧ Pol k s' := by
  have hroom : 0 < room s.cl := by
    unfold room
    cases ha with
    | between hc hw hl =>
      rw [hc]
      rw [hi, List.drop_zero] at hw hl
      cases todo with
      | nil =>
        have := (List.append_eq_nil_iff.1 (show s.cl.buf ++ unread = [] by simpa using hw)).1
        rw [this]; decide
      | cons m ms =>
        obtain ⟨h1, h8⟩ := hl m ms rfl
        dsimp only
        by_cases hct : ∀ p text, m ≠ .cutText p text
        · have := (house_plain (hpl m (by simp)).1 (hpl m (by simp)).2).2.2 hct
          omega
        · simp only [Classical.not_forall, Classical.not_not] at hct
          obtain ⟨p, text, hct⟩ := hct
          have := h8 p text hct
          omega
    | within p text x y ms hc ht hy hb hu =>
      rw [hc]
      have hyl : 0 < y.length := List.length_pos_iff.2 hy
      have htl : text.length = x.length + y.length := by rw [ht, List.length_append]
      simp only
      omega
  unfold event
  rw [if_neg (by rw [hm.alive]; exact Bool.false_ne_true)]
  dsimp only
  rw [if_neg (by rw [hm.open_]; exact Bool.false_ne_true)]
  unfold onReadable
  cases ha with
  | between hc hw hl =>
    rw [hc]
    dsimp only
    rw [if_neg (by omega)]
    cases unread with
    | nil => exact ⟨_, rfl, hp⟩
    | cons u us =>
      rw [List.take_succ_cons]
      dsimp only
      have hb : ¬ msgBufferSize ≤ s.cl.buf.length := by
        unfold room at hroom; rw [hc] at hroom; unfold msgBufferSize; simp only at hroom; omega
      rw [if_neg hb, ← List.take_succ_cons, List.take_take, Nat.min_comm]
      generalize min (n + 1) (msgBufferSize - s.cl.buf.length) = j
      obtain ⟨t, ht, htp⟩ := loop_pol (k := k) (env := env) (table := table) (unread := (u :: us).drop j)
        ((s.cl.buf ++ (u :: us).take j).length + 1)
        (s.upd fun c => { c with
          buf := s.cl.buf ++ (u :: us).take j
          plain := if c.chan = .plain then (s.cl.buf ++ (u :: us).take j).length else c.plain }) todo
        (by exact ⟨hm.net, hm.ready, hm.open_, hm.pending, hm.defer, hm.alive, hm.blocked, hm.mustBlock⟩)
        (by exact hp.congr rfl)
        (by
          show (s.cl.buf ++ (u :: us).take j).drop s.cl.idx ++ (u :: us).drop j = _
          rw [hi, List.drop_zero, List.append_assoc, List.take_append_drop]
          rw [hi, List.drop_zero] at hw
          exact hw) (by exact hns) hpl (by show s.cl.idx ≤ _; rw [hi]; exact Nat.zero_le _)
      rw [ht]
      exact ⟨_, rfl, htp.congr rfl⟩
  | within p text x y ms hc ht hy hb hu =>
    rw [hc]
    have hyl : 0 < y.length := List.length_pos_iff.2 hy
    have htl : text.length = x.length + y.length := by rw [ht, List.length_append]
    dsimp only
    rw [if_neg (by omega)]
    cases unread with
    | nil => exact ⟨_, rfl, hp⟩
    | cons u us =>
      rw [List.take_succ_cons]
      dsimp only
      unfold bigCutText
      rw [if_neg (by simp only; omega)]
      dsimp only
      split
      · exact ⟨_, rfl, hp.congr rfl⟩
      · exact ⟨_, rfl, hp.congr rfl⟩

/-- anything else that does not end the session -/
theorem other_pol [Roomy env] {o : Op} {s : St} (ho : Ev.benign (.other o)) (hk : k.Op o) (hm : Mid s) (hp : Pol k s) :
    ∃ s', event table o env s = .ok s' ∧ Pol k s' := by
  unfold event
  rw [if_neg (by rw [hm.alive]; exact Bool.false_ne_true)]
  cases o with
  | readable rd => exact ho.elim
  | appClose => exact ho.elim
  | written =>
    dsimp only
    split
    · exact completeFb_pol (hp.congr rfl)
    · exact ⟨_, rfl, hp⟩
  | encoded f =>
    dsimp only
    split
    · exact finishFb_pol (hp.congr rfl) hk
    · exact ⟨_, rfl, hp⟩
  | flushed =>
    dsimp only
    rw [if_neg (by rw [hm.pending]; exact Bool.false_ne_true)]
    exact ⟨_, rfl, hp⟩
  | idle =>
    dsimp only
    rw [if_pos hm.defer]
    exact ⟨_, rfl, hp⟩
  | damage q =>
    dsimp only
    rw [if_neg (by rw [hm.open_]; exact Bool.false_ne_true)]
    refine processFb_pol ⟨hp.pos, hp.fences, hp.blocked, ?_, hp.fb, hp.size⟩
    intro p hpm
    rcases List.mem_append.1 hpm with h | h
    · exact hp.damage p h
    · exact hk p h
  | display fb =>
    refine ⟨_, rfl, hp.pos, hp.fences, hp.blocked, hp.damage, ?_, hp.size⟩
    intro fb' h
    have h : fb = some fb' := h
    subst h
    exact hk
  | cursor => exact processFb_pol (hp.congr rfl)
  | setLed v => exact processFb_pol (hp.congr rfl)

/-! ## The end -/

/-- a client whose end is scheduled, or that is gone -/
def Over : Phase → St → Prop
  | .live, _ => False
  | .closing, s => s.cl.closed = true ∧ s.cl.freed = false ∧ s.cl.nDefer = 1 ∧ s.cl.closePending = false
  | .dead, s => s.cl.closed = true ∧ s.cl.freed = true ∧ s.cl.nDefer = 0

theorem processFb_closed {s : St} (h : s.cl.closed = true) : processFb env r s = .ok s := by
  unfold processFb; rw [if_pos h]

theorem completeFb_closed {s : St} (h : s.cl.closed = true) :
    completeFb env r s = .ok (if s.cl.isUpdating then s.upd fun c => { c with isUpdating := false } else s) := by
  unfold completeFb
  cases hu : s.cl.isUpdating with
  | false => rfl
  | true =>
    rw [if_neg (by decide), processFb_closed (by exact h)]; rfl

theorem over_step {p : Phase} {ev : Op} {s : St} (h : Over p s) (hc : ev = .appClose → p = .live) :
    ∃ t, event table ev env s = .ok t ∧ Over (p.next (.other ev)) t := by
  cases p with
  | live => exact h.elim
  | dead =>
    obtain ⟨h1, h2, h3⟩ := h
    have hn : Phase.dead.next (.other ev) = .dead := by rfl
    rw [hn]
    unfold event
    rw [if_pos h2]
    cases ev with
    | idle => dsimp only; rw [if_pos h3]; exact ⟨_, rfl, h1, h2, h3⟩
    | _ => exact ⟨_, rfl, h1, h2, h3⟩
  | closing =>
    obtain ⟨h1, h2, h3, h4⟩ := h
    unfold event
    rw [if_neg (by rw [h2]; exact Bool.false_ne_true)]
    have hcomplete : ∀ u : St, Over .closing u → ∃ t, completeFb env (reenterTop env table) u = .ok t ∧
        Over .closing t := by
      intro u ⟨a1, a2, a3, a4⟩
      refine ⟨_, completeFb_closed a1, ?_⟩
      split <;> exact ⟨a1, a2, a3, a4⟩
    cases ev with
    | readable rd =>
      dsimp only
      rw [if_pos h1]
      cases rd <;> exact ⟨_, rfl, h1, h2, h3, h4⟩
    | written =>
      dsimp only
      split
      · exact hcomplete _ ⟨h1, h2, h3, h4⟩
      · exact ⟨_, rfl, h1, h2, h3, h4⟩
    | encoded f =>
      dsimp only
      split
      · unfold finishFb
        rw [if_pos (by exact h1)]
        exact hcomplete _ ⟨h1, h2, h3, h4⟩
      · exact ⟨_, rfl, h1, h2, h3, h4⟩
    | flushed =>
      dsimp only
      rw [if_neg (by rw [h4]; exact Bool.false_ne_true)]
      exact ⟨_, rfl, h1, h2, h3, h4⟩
    | idle =>
      dsimp only
      rw [if_neg (by omega)]
      refine ⟨_, rfl, ?_⟩
      unfold freeClient streamClose
      dsimp only
      rw [if_pos (by exact h1)]
      exact ⟨h1, rfl, by show s.cl.nDefer - 1 = 0; omega⟩
    | appClose => cases hc rfl
    | damage q =>
      dsimp only
      rw [if_pos h1, processFb_closed h1]
      exact ⟨_, rfl, h1, h2, h3, h4⟩
    | display fb => exact ⟨_, rfl, h1, h2, h3, h4⟩
    | cursor =>
      dsimp only
      rw [processFb_closed (by exact h1)]
      exact ⟨_, rfl, h1, h2, h3, h4⟩
    | setLed v =>
      dsimp only
      rw [processFb_closed (by exact h1)]
      exact ⟨_, rfl, h1, h2, h3, h4⟩

theorem over_net {p : Phase} {s : St} (h : Over p s) : Over p { s with net := [] } := by
  cases p <;> exact h

theorem over_feed : ∀ (evs : List (Ev × Env)) (p : Phase) (s : St) (unread : Bytes), Over p s →
    k.Evs p evs → ∃ t u, feed table evs s unread = .ok (t, u) ∧ Over (p.after evs) t := by
  intro evs
  induction evs with
  | nil => intro p s u h _; exact ⟨s, u, rfl, h⟩
  | cons e evs ih =>
    obtain ⟨ev, env⟩ := e
    intro p s u h hev
    cases ev with
    | read n =>
      obtain ⟨t, ht, hot⟩ := over_step (table := table) (env := env)
        (ev := .readable (.data (u.take (n + 1)))) (over_net h) (fun h => by cases h)
      unfold feed step
      rw [ht]
      have hp : p.next (.other (.readable (.data (u.take (n + 1))))) = p.next (.read n) := by
        cases p <;> rfl
      rw [hp] at hot
      exact ih _ t _ hot hev
    | other o =>
      obtain ⟨t, ht, hot⟩ := over_step (table := table) (env := env) (ev := o) (over_net h) hev.2.1
      unfold feed step
      rw [ht]
      exact ih _ t _ hot hev.2.2

theorem onReadable_end {rd : Read} {s : St} {unread : Bytes} {todo : List Msg} (hi : s.cl.idx = 0)
    (ha : At s unread todo) (h : ∀ d, rd ≠ .data d) :
    onReadable env table rd s = match rd with
      | .again => .ok s
      | .closed => .ok (remoteClosed s)
      | .err => .ok (freeClient s)
      | .data _ => .ok s := by
  unfold onReadable
  cases ha with
  | between hc hw hl =>
    rw [hc]
    dsimp only
    rw [if_neg (by omega)]
    cases rd with
    | data d => exact absurd rfl (h d)
    | _ => rfl
  | within p text x y ms hc ht hy hb hu =>
    rw [hc]
    have hyl : 0 < y.length := List.length_pos_iff.2 hy
    have htl : text.length = x.length + y.length := by rw [ht, List.length_append]
    dsimp only
    rw [if_neg (by omega)]
    cases rd with
    | data d => exact absurd rfl (h d)
    | _ => rfl

theorem free_over {s : St} (hm : Mid s) : Over .dead (freeClient s) := by
  unfold freeClient streamClose
  dsimp only
  rw [if_neg (by rw [hm.open_]; exact Bool.false_ne_true), if_neg (by
    show ¬ s.cl.closePending = true
    rw [hm.pending]; exact Bool.false_ne_true)]
  exact ⟨rfl, rfl, hm.defer⟩

theorem remote_over {s : St} (hm : Mid s) : Over .closing (remoteClosed s) := by
  unfold remoteClosed streamClose
  dsimp only
  rw [if_neg (by rw [hm.open_]; exact Bool.false_ne_true), if_neg (by
    show ¬ s.cl.closePending = true
    rw [hm.pending]; exact Bool.false_ne_true)]
  exact ⟨rfl, hm.alive, by show s.cl.nDefer + 1 = 1; rw [hm.defer], hm.pending⟩

/-- in use, with `todo` still to be received -/
structure Live (k : House) (table : List Nat) (s : St) (unread : Bytes) (todo : List Msg) : Prop where
  mid : Mid s
  pol : Pol k s
  idx : s.cl.idx = 0
  at_ : At s unread todo
  stall : NoStall s.cl.cont todo
  msgs : ∀ m ∈ todo, m.Fits ∧ k.Msg table m

theorem live_other [Roomy env] {o : Op} {s : St} {unread : Bytes} {todo : List Msg} (h : Live k table s unread todo)
    (ho : Ev.benign (.other o)) (hk : k.Op o) :
    ∃ t, event table o env s = .ok t ∧ Live k table t unread todo := by
  obtain ⟨t, ht, hp⟩ := other_pol (table := table) (env := env) ho hk h.mid h.pol
  obtain ⟨g1, g2, g3, g4, g5, g6⟩ := other_flow ho h.mid ht
  have hcont : t.cl.cont = s.cl.cont := congrArg Settings.cont g2
  exact ⟨t, ht, g1, hp, g6.trans h.idx, at_congr h.at_ g4 g5 g6, by rw [hcont]; exact h.stall, h.msgs⟩

theorem live_feed : ∀ (evs : List (Ev × Env)) (s : St) (unread : Bytes) (todo : List Msg),
    Live k table s unread todo → k.Evs .live evs → (∀ p ∈ evs, Roomy p.2) →
    ∃ t u, feed table evs s unread = .ok (t, u) ∧
      ((Phase.live.after evs = .live ∧ ∃ todo', Live k table t u todo') ∨ Over (Phase.live.after evs) t) := by
  intro evs
  induction evs with
  | nil => intro s u todo h _ _; exact ⟨s, u, rfl, .inl ⟨rfl, todo, h⟩⟩
  | cons e evs ih =>
    obtain ⟨ev, env⟩ := e
    intro s u todo h hev hmem
    have hroom : Roomy env := hmem _ (List.mem_cons_self ..)
    replace hmem : ∀ p ∈ evs, Roomy p.2 := fun p hp => hmem p (List.mem_cons_of_mem _ hp)
    have hnet : { s with net := [] } = s := by
      have := h.mid.net
      clear h
      cases s; simp only at this; subst this; rfl
    have over : ∀ {p t u}, Over p t → k.Evs p evs → ∃ t' u', feed table evs t u = .ok (t', u') ∧
        ((p.after evs = .live ∧ ∃ todo', Live k table t' u' todo') ∨ Over (p.after evs) t') := by
      intro p t u ho he
      obtain ⟨t', u', h1, h2⟩ := over_feed (table := table) evs p t u ho he
      exact ⟨t', u', h1, .inr h2⟩
    cases ev with
    | read n =>
      obtain ⟨t, ht, hp⟩ := read_pol (env := env) (n := n) h.mid h.pol h.idx h.at_ h.stall h.msgs
      obtain ⟨d, todo1, g1, g2, g3, g4, g5, g6⟩ := read_feed h.mid h.idx h.at_ h.stall
        (fun m hm => house_plain (h.msgs m hm).1 (h.msgs m hm).2) ht
      unfold feed step
      rw [hnet, ht]
      exact ih t _ todo1 ⟨g2, hp, g3, g4, g5, fun m hm => h.msgs m (by rw [g1]; simp [hm])⟩ hev hmem
    | other o =>
      obtain ⟨hk, -, hev⟩ := hev
      unfold feed step
      rw [hnet]
      have benign : Ev.benign (.other o) → Phase.live.next (.other o) = .live →
          ∃ t' u', (event table o env s >>= fun t => feed table evs t u) = .ok (t', u') ∧
          (((Phase.live.next (.other o)).after evs = .live ∧ ∃ todo', Live k table t' u' todo') ∨
            Over ((Phase.live.next (.other o)).after evs) t') := by
        intro hb hn
        rw [hn] at hev ⊢
        obtain ⟨t, ht, hl⟩ := live_other (env := env) h hb hk
        rw [ht]
        exact ih t u todo hl hev hmem
      cases o with
      | appClose =>
        have : event table .appClose env s = .ok (freeClient s) := by
          unfold event
          rw [if_neg (by rw [h.mid.alive]; exact Bool.false_ne_true)]
        rw [this]
        exact over (free_over h.mid) hev
      | readable rd =>
        have he : event table (.readable rd) env s = onReadable env table rd s := by
          unfold event
          rw [if_neg (by rw [h.mid.alive]; exact Bool.false_ne_true)]
          exact if_neg (by rw [h.mid.open_]; exact Bool.false_ne_true)
        rw [he]
        cases rd with
        | data d => exact hk.elim
        | again =>
          rw [onReadable_end h.idx h.at_ (fun d hd => by cases hd)]
          exact ih s u todo h hev hmem
        | closed =>
          rw [onReadable_end h.idx h.at_ (fun d hd => by cases hd)]
          exact over (remote_over h.mid) hev
        | err =>
          rw [onReadable_end h.idx h.at_ (fun d hd => by cases hd)]
          exact over (free_over h.mid) hev
      | _ => exact benign trivial rfl

end Verif.Server
