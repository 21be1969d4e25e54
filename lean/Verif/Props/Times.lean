import Verif.Props.Extensions
import Verif.Props.Sizes
import Verif.Spec.Times

/-!
# C127: frames carry their times
-/

namespace Verif.Times

open Verif.Server Verif.System Verif.Formats Verif.Sizes

variable {table : List Nat} {env : Env}

/-- neither a frame nor a time -/
def quiet : Eff → Bool
  | .send _ .frame _ | .send _ .ptsRect _ => false
  | _ => true

/-- the record of a connection -/
structure Timed (l : List Eff) : Prop where
  frames : ∀ a ch b d, l = a ++ .send ch .frame b :: d → Dated a ch b
  times : ∀ a ch b d, l = a ++ .send ch .ptsRect b :: d → Followed a ch b d

theorem Followed.more {a d m : List Eff} {ch b} (h : Followed a ch b d) : Followed a ch b (d ++ m) := by
  obtain ⟨f, p, d', h1, h2, h3, h4, rfl⟩ := h
  exact ⟨f, p, d' ++ m, h1, h2, h3, h4, rfl⟩

theorem Timed.grow {l es : List Eff} (h : Timed l) (hq : ∀ e ∈ es, quiet e = true) : Timed (l ++ es) := by
  refine ⟨fun a ch b d hl => ?_, fun a ch b d hl => ?_⟩
  · rcases append_eq_cons hl with ⟨q, g1, rfl⟩ | ⟨q, -, g2⟩
    · exact h.frames a ch b q g1
    · exact absurd (hq (.send ch .frame b) (by rw [g2]; simp)) (by simp [quiet])
  · rcases append_eq_cons hl with ⟨q, g1, rfl⟩ | ⟨q, -, g2⟩
    · exact (h.times a ch b q g1).more
    · exact absurd (hq (.send ch .ptsRect b) (by rw [g2]; simp)) (by simp [quiet])

theorem dull_quiet {e : Eff} (h : Sizes.dull e = true) : quiet e = true := by
  cases e with
  | send ch k b => revert h; cases k <;> simp [Sizes.dull, loud, quiet]
  | _ => rfl

theorem Timed.still {s s' : St} (h : Timed s.log) (hm : Sizes.Still s s') : Timed s'.log := by
  obtain ⟨es, h1, h2⟩ := hm.log
  rw [h1]
  exact h.grow fun e he => dull_quiet (h2 e he)

/-- what is sent of the time of a frame -/
def part (es : List Int) (ch : Chan) (f : Frame) : List Eff :=
  match f.pts with
  | some p => if -1000 ∈ es then [.send ch .ptsRect (stamp p)] else []
  | none => []

theorem sendPts_log {f : Frame} {s : St} (hc : s.cl.closed = false) :
    (sendPts f.pts s).log = s.log ++ part s.cl.encodings s.cl.chan f := by
  have hE : hasEnc s.cl encPts = decide (-1000 ∈ s.cl.encodings) := by
    unfold hasEnc encPts; exact List.contains_eq_mem ..
  have h1 : rectHead 0 0 0 0 encPts = [0, 0, 0, 0, 0, 0, 0, 0, 0xff, 0xff, 0xfc, 0x18] := by decide +kernel
  unfold sendPts part
  rw [hE, h1]
  cases f.pts with
  | none => simp
  | some p =>
    by_cases hn : -1000 ∈ s.cl.encodings
    · simp [hn, send_log, hc, stamp]
    · simp [hn]

/-- all that is sent with a frame -/
theorem sendFrame_log {f : Frame} {s : St} (hc : s.cl.closed = false) : ∃ uh rz,
    (sendFrame f s).log = (s.log ++ (.send s.cl.chan .updateHead uh :: rz)) ++ part s.cl.encodings s.cl.chan f ++
      [.send s.cl.chan .frame f.payload] ∧ (rz = [] ∨ ∃ m, rz = [.send s.cl.chan .resizeRect m]) := by
  unfold sendFrame
  dsimp only
  generalize updateHead (nRectsSent f s.cl % 65536) = uh
  generalize hu : (if resized f s.cl = true then sendResizeRect f.w f.h (send .updateHead uh s)
    else send .updateHead uh s) = u
  have k : ∃ rz, u.log = s.log ++ (.send s.cl.chan .updateHead uh :: rz) ∧
      (rz = [] ∨ ∃ m, rz = [.send s.cl.chan .resizeRect m]) ∧ u.cl.closed = false ∧
      u.cl.encodings = s.cl.encodings ∧ u.cl.chan = s.cl.chan := by
    subst hu
    split
    · unfold sendResizeRect
      dsimp only
      generalize (if hasEnc _ encExtDesktopSize = true then _ else _ : Bytes) = m
      refine ⟨[.send s.cl.chan .resizeRect m], ?_, .inr ⟨m, rfl⟩, ?_⟩
      · simp [send, St.upd, hc]
      · simp [send, St.upd, hc]
    · refine ⟨[], ?_, .inl rfl, ?_⟩ <;> simp [send, hc]
  obtain ⟨rz, k1, k2, k3, k4, k5⟩ := k
  refine ⟨uh, rz, ?_, k2⟩
  have hl := sendPts_log (f := f) k3
  have w2 : (sendPts f.pts u).cl = u.cl := (sendPts_frame f.pts u).2.2.1
  rw [send_log, w2, if_neg (by simp [k3]), hl, k1, k4, k5]

theorem sendFrame_shut {f : Frame} {s : St} (hc : s.cl.closed = true) : (sendFrame f s).log = s.log := by
  have hs : ∀ (t : St) k b, t.cl.closed = true → send k b t = t := fun t k b h => by simp [send, h]
  unfold sendFrame
  dsimp only
  rw [hs s _ _ hc]
  have hp : ∀ t : St, t.cl.closed = true → (send .frame f.payload (sendPts f.pts t)).log = t.log := fun t h => by
    have : sendPts f.pts t = t := by
      unfold sendPts
      split
      · rfl
      · split
        · exact hs t _ _ h
        · rfl
    rw [this, hs t _ _ h]
  split
  · unfold sendResizeRect
    dsimp only
    generalize hq : (s.upd fun k => { k with
      knownW := f.w % 65536, knownH := f.h % 65536,
      damage := k.damage ++ [{ x := 0, y := 0, w := f.w % 65536, h := f.h % 65536 }] }) = v
    have v1 : v.cl.closed = true := by rw [← hq]; exact hc
    have v2 : v.log = s.log := by rw [← hq]; rfl
    rw [hs v _ _ v1, hp v v1, v2]
  · exact hp s hc

theorem frame_timed {s : St} {f : Frame} (h0 : Sized s.cl s.log) (h : Timed s.log)
    (hd : s.log.getLast? = some (.encodeDone f)) : Timed (sendFrame f s).log := by
  cases hc : s.cl.closed with
  | true => rw [sendFrame_shut hc]; exact h
  | false =>
  obtain ⟨uh, rz, h1, h2⟩ := sendFrame_log (f := f) hc
  rw [h1]
  have hm : (view s.log).made = some f := by
    obtain ⟨l, hl⟩ := List.getLast?_eq_some_iff.1 hd
    rw [hl, view_snoc]; rfl
  have henc : ∀ (l : List Eff) ch k b, (view (l ++ [.send ch k b])).encs = (view l).encs := fun l ch k b => by
    rw [view_snoc]
    cases k <;> first | rfl | (unfold View.see; split <;> first | rfl | simp_all)
  -- the record in front of the time
  generalize hA : s.log ++ (.send s.cl.chan .updateHead uh :: rz) = A
  have a1 : (view A).made = some f ∧ (view A).encs = s.cl.encodings ∧ ends A = false := by
    rcases h2 with rfl | ⟨m, rfl⟩
    · rw [← hA, made_send, henc]
      exact ⟨hm, h0.encs, by simp [ends]⟩
    · rw [← hA, List.append_cons, made_send, made_send, henc, henc]
      exact ⟨hm, h0.encs, by simp [ends]⟩
  have a2 : Timed A := by
    rw [← hA]
    refine h.grow fun e he => ?_
    rcases List.mem_cons.1 he with rfl | he
    · rfl
    · rcases h2 with rfl | ⟨m, rfl⟩
      · cases he
      · rw [List.mem_singleton.1 he]; rfl
  clear hA h2 h1
  obtain ⟨a1, a3, a4⟩ := a1
  -- one thing more
  have one : ∀ {l a d : List Eff} {x e : Eff}, l ++ [x] = a ++ e :: d →
      (∃ q, l = a ++ e :: q ∧ d = q ++ [x]) ∨ (a = l ∧ e = x ∧ d = []) := fun hl => by
    rcases append_eq_cons hl with h | ⟨q, rfl, j2⟩
    · exact .inl h
    · cases q with
      | nil =>
        rw [List.nil_append, List.cons.injEq] at j2
        exact .inr ⟨List.append_nil _, j2.1.symm, j2.2.symm⟩
      | cons y q => have := congrArg List.length j2; simp at this
  have two : part s.cl.encodings s.cl.chan f = [] → Dated A s.cl.chan f.payload := fun hp => by
    refine ⟨f, a1, rfl, ?_⟩
    rw [a3]
    unfold part at hp
    cases hq : f.pts with
    | none => exact a4
    | some p =>
      rw [hq] at hp
      by_cases hn : -1000 ∈ s.cl.encodings
      · simp [hn] at hp
      · simpa [hn] using a4
  by_cases hn : part s.cl.encodings s.cl.chan f = []
  · rw [hn, List.append_nil]
    refine ⟨fun a ch b d hl => ?_, fun a ch b d hl => ?_⟩
    · rcases one hl with ⟨q, g1, rfl⟩ | ⟨rfl, g2, -⟩
      · exact a2.frames a ch b q g1
      · cases g2; exact two hn
    · rcases one hl with ⟨q, g1, rfl⟩ | ⟨rfl, g2, -⟩
      · exact (a2.times a ch b q g1).more
      · cases g2
  · obtain ⟨p, hp, hE⟩ : ∃ p, f.pts = some p ∧ -1000 ∈ s.cl.encodings := by
      unfold part at hn
      cases hq : f.pts with
      | none => rw [hq] at hn; exact absurd rfl hn
      | some p => exact ⟨p, rfl, Decidable.by_contra fun hE => hn (by simp [hq, hE])⟩
    rw [show part s.cl.encodings s.cl.chan f = [.send s.cl.chan .ptsRect (stamp p)] by simp [part, hp, hE]]
    refine ⟨fun a ch b d hl => ?_, fun a ch b d hl => ?_⟩
    · rcases one hl with ⟨q, g1, rfl⟩ | ⟨rfl, g2, -⟩
      · rcases one g1 with ⟨q, g3, rfl⟩ | ⟨-, g2, -⟩
        · exact a2.frames a ch b q g3
        · cases g2
      · cases g2
        refine ⟨f, by rw [made_send]; exact a1, rfl, ?_⟩
        rw [hp, henc, a3]
        simp [hE]
    · rcases one hl with ⟨q, g1, rfl⟩ | ⟨rfl, g2, -⟩
      · rcases one g1 with ⟨q, g3, rfl⟩ | ⟨rfl, g2, rfl⟩
        · rw [List.append_assoc]
          exact (a2.times a ch b q g3).more
        · cases g2
          exact ⟨f, p, [], a1, hp, by rw [a3]; exact hE, rfl, rfl⟩
      · cases g2

theorem encs_timed {s s' : St} {a : Bytes} {n : Nat} (h : Timed s.log) (e : onSetEncodings env s a = .ok (s', n)) :
    Timed s'.log := by
  rcases Extensions.encs_sent e with rfl | ⟨es, t, m, -, -, -, -, -, -, hl, hm⟩
  · exact h
  · rw [hl]
    refine h.grow fun x hx => ?_
    rcases List.mem_cons.1 hx with rfl | hx
    · rfl
    · rw [hm] at hx
      split at hx
      · cases hx
      · simp only [List.mem_append] at hx
        rcases hx with (hx | hx) | hx <;> split at hx <;>
          first | (cases hx; done) | (rw [List.mem_singleton.1 hx]; rfl)

theorem hs_timed {s s' : St} {r : St → Outcome St} {a : Bytes} {n : Nat} (h1 : s.cl.st ≠ .ready)
    (e : tryRead env table r s a = .ok (s', n)) (h : Timed s.log) : Timed s'.log := by
  obtain ⟨es, h4, h5⟩ := (hs_frame h1 e).log
  rw [h4]
  refine h.grow fun e he => ?_
  cases h5 e he with
  | send ch k m hk => cases k <;> first | rfl | (exfalso; revert hk; cases s.cl.st <;> simp [hsKind])
  | _ => rfl

theorem micro_timed {lp s s'} (hm : Micro lp table s s') (h0 : Sized s.cl s.log) (h : Timed s.log) : Timed s'.log := by
  cases hm with
  | fenceOut => exact h.still (.send _ _ _)
  | pfFire => exact h.still ((Sizes.Still.upd _).trans (.send _ _ _))
  | ext hr hx => exact h.still (ext_still s)
  | cursor env hr =>
    rcases (sendCursor_frame env s).2.2.2 with h4 | ⟨-, b, h4⟩
    · rw [h4]; exact h
    · rw [h4]; exact h.grow (by simp [quiet])
  | led hr => exact h.still (sendLed_still s)
  | frame env fb hr e => exact h.still (stage_still e)
  | sendFrame f hr hd hs hf => exact frame_timed h0 h hd
  | hs env r a h1 h2 => exact hs_timed h1 h2 h
  | simple env a h1 h2 =>
    rcases simple_still h2 with e | e
    · exact encs_timed h e
    · exact h.still e
  | fbReq inc r hr =>
    rw [(fbReqPre_frame inc r s).2.2.2]
    exact h.grow (by simp [quiet])
  | contOn => exact h.still ((Sizes.Still.upd _).trans (.emit _))
  | contOff => exact h.still ((Sizes.Still.upd _).trans (.send _ _ _))
  | fenceReq flags payload h1 hp h2 => exact h.still (fenceReq_still h2)
  | consume => exact h.still ((Sizes.Still.upd _).trans (.emit _))
  | bigCut env c d hr hc h1 h2 => exact h.still (bigCutText_still h2)
  | remoteClosed => exact h.still ((Sizes.streamClose_still s).trans (deferClose_still _))
  | flushed => exact h.still (Sizes.streamClose_still s)
  | free hl h1 => exact h.still (freeClient_still s)
  | idle hl h1 h2 => exact h.still ((Sizes.Still.upd s).trans (freeClient_still _))
  | encoded f hr he => exact h.still ((Sizes.Still.upd _).trans (.emit _))
  | setLed v => exact h.still ((Sizes.Still.upd _).trans (.emit _))
  | damage r => exact h.still ((Sizes.Still.upd _).trans (.emit _))
  | net => exact h.still (.world rfl rfl)
  | display => exact h.still (.world rfl rfl)
  | setCursor => exact h.still (.world rfl rfl)
  | _ => exact h.still (.upd _)

theorem timed_stays : Stays table fun c l => Sized c l ∧ Timed l :=
  ⟨fun _ _ hm _ h => ⟨micro_sized hm h.1, micro_timed hm h.1 h.2⟩, fun s text hl h =>
    ⟨(sized_stays (table := table)).2 s text hl h.1, h.2.still (cutTextTo_still text s)⟩⟩

theorem timed_all {s0 s : Sys} {ops : List SysOp} (h0 : s0.peers = []) (e : sysRun table ops s0 = .ok s)
    {p : Peer} (hp : p ∈ s.peers) : Timed p.log := by
  refine (timed_stays.all (fun srv => ?_) h0 e hp).2
  have hn : ∀ x, x ∈ (start srv).log → x = .send .plain .version versionMsg := fun x hx => by simpa [start] using hx
  refine ⟨⟨rfl, fun _ => rfl, fun hr => (by cases hr), fun a ch b d hl => ?_, fun a ch b d hl => ?_⟩,
    fun a ch b d hl => ?_, fun a ch b d hl => ?_⟩
  · cases hn (.send ch .resizeRect b) (by rw [hl]; simp)
  · cases hn (.send ch .frame b) (by rw [hl]; simp)
  · cases hn (.send ch .frame b) (by rw [hl]; simp)
  · cases hn (.send ch .ptsRect b) (by rw [hl]; simp)

/-- **C127**: a frame that has a time and goes to a client that named -1000 last comes directly after a rectangle with
that time, on the same channel; there is no such rectangle in front of any other frame. -/
theorem c127_frames {s0 s : Sys} {ops : List SysOp} (h0 : s0.peers = []) (e : sysRun table ops s0 = .ok s)
    {p : Peer} (hp : p ∈ s.peers) {a d : List Eff} {ch : Chan} {b : Bytes}
    (hl : p.log = a ++ .send ch .frame b :: d) : Dated a ch b :=
  (timed_all h0 e hp).frames a ch b d hl

/-- **C127**: a time is sent only to a client that named -1000 last, and is that of the frame that follows directly. -/
theorem c127_times {s0 s : Sys} {ops : List SysOp} (h0 : s0.peers = []) (e : sysRun table ops s0 = .ok s)
    {p : Peer} (hp : p ∈ s.peers) {a d : List Eff} {ch : Chan} {b : Bytes}
    (hl : p.log = a ++ .send ch .ptsRect b :: d) : Followed a ch b d :=
  (timed_all h0 e hp).times a ch b d hl

/-- the times and frames of a record -/
def dates (l : List Eff) : List Bytes :=
  l.filterMap fun e => match e with
    | .send _ .ptsRect b => some b
    | .send _ .frame b => some b
    | _ => none

/-- a frame with or without a time -/
def next (t : Option Nat) : List (Op × Env × List Read) :=
  [(.damage [⟨0, 0, 4, 3⟩], cursorEnv, []), reads (Msg.fbRequest 1 ⟨0, 0, 4, 3⟩).wire,
    (.encoded { demoFrame with pts := t }, cursorEnv, []), (.written, cursorEnv, [])]

/-- the same in a library that was built with what is experimental -/
def trial (x : Op × Env × List Read) : Op × Env × List Read := (x.1, { x.2.1 with experimental := true }, x.2.2)

/-- A client that named -1000 gets the times of the frames that have one. -/
example : runCheck ((enter [0, -1000] ++ next (some 66051) ++ next none ++ next (some 1)).map trial)
    (fun s => dates s.log == [stamp 66051, [1], [1], stamp 1, [1]]) = true := by decide +kernel

/-- A library that was built without it does not take note of -1000. -/
example : runCheck (enter [0, -1000] ++ next (some 66051)) (fun s => dates s.log == [[1]]) = true := by decide +kernel

/-- Another client gets none. -/
example : runCheck ((enter [0] ++ next (some 66051) ++ next none).map trial)
    (fun s => dates s.log == [[1], [1]]) = true := by decide +kernel

/-- the bytes of a time -/
example : stamp 66051 = [0, 0, 0, 0, 0, 0, 0, 0, 255, 255, 252, 24, 0, 0, 0, 0, 0, 1, 2, 3] := by decide +kernel

end Verif.Times
