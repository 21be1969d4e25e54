import Verif.Spec.Repaint
import Verif.Props.Canvas
import Verif.Props.Changes
import Verif.Props.Calm

/-!
# C99: the client decodes the application's picture, in whatever formats it asks for
-/

namespace Verif.Repaint

open Verif.Server Verif.System Verif.Formats Verif.Wire Verif.Changes

variable {sizes : Bytes → Sizes} {table : List Nat} {α : Type} {dec : Bytes → Decoder α} {c : Pic α}

/-! ## Parts -/

theorem readParts_snoc {ps : List Part} {qs : List (Bytes × List SMsg)} (h : readParts sizes ps = some qs) {p : Part}
    {ms : List SMsg} (hm : Reads (sizes p.fmt) p.bytes ms) :
    readParts sizes (ps ++ [p]) = some (qs ++ [(p.fmt, ms)]) := by
  have hm := hm.readMsgs (Nat.le_refl _)
  induction ps generalizing qs with
  | nil =>
    cases h
    rw [List.nil_append, readParts, hm]
    rfl
  | cons q ps ih =>
    rw [readParts] at h
    split at h
    · rename_i ns qs' h1 h2
      cases h
      rw [List.cons_append, readParts, h1, ih h2]
      rfl
    · cases h

theorem repaint_new (qs : List (Bytes × List SMsg)) (g : Bytes) : repaint dec (qs ++ [(g, [])]) = repaint dec qs := by
  unfold repaint
  rw [List.foldl_append]
  rfl

theorem repaint_more (qs : List (Bytes × List SMsg)) (g : Bytes) (ms ns : List SMsg) :
    repaint dec (qs ++ [(g, ms ++ ns)]) = ns.foldl (draw (dec g)) (repaint dec (qs ++ [(g, ms)])) := by
  unfold repaint
  rw [List.foldl_append, List.foldl_append, List.foldl_cons, List.foldl_cons, List.foldl_nil, List.foldl_nil,
    List.foldl_append]

theorem draws_quiet {d : Decoder α} {ns : List SMsg} (h : ∀ m ∈ ns, Quiet m) (sc : Canvas α) :
    ns.foldl (draw d) sc = sc := by
  induction ns with
  | nil => rfl
  | cons m ns ih =>
    rw [List.foldl_cons, h m (by simp) α d sc]
    exact ih fun m hm => h m (by simp [hm])

/-! ## Encoders -/

theorem crew_append (l es : List Eff) : crew sizes (l ++ es) = es.foldl (Crew.see sizes) (crew sizes l) := by
  unfold crew
  rw [List.foldl_append]

theorem crew_softs {es : List Eff} (h : ∀ e ∈ es, soft e = true) (m : Crew) : es.foldl (Crew.see sizes) m = m := by
  induction es generalizing m with
  | nil => rfl
  | cons e es ih =>
    have : m.see sizes e = m := by
      have := h e (by simp)
      cases e with
      | encode => cases this
      | encodeDone => cases this
      | _ => rfl
    rw [List.foldl_cons, this]
    exact ih (fun e he => h e (by simp [he])) m

theorem air_softs {l es : List Eff} (h : ∀ e ∈ es, soft e = true) : air (l ++ es) = air l :=
  air_other fun e he => ⟨fun a b c d hx => (by rw [hx] at he; exact nomatch h _ he),
    fun f hx => (by rw [hx] at he; exact nomatch h _ he)⟩

/-- the encoder at work is the one that was last used for its encoding -/
theorem crew_cur (l : List Eff) : ∀ {e i g}, (crew sizes l).cur = some (e, i, g) → lastJob e l = some i := by
  induction l using snoc_induction with
  | h0 => exact nofun
  | h1 l x ih =>
    intro e i g h
    rw [crew_append] at h
    by_cases hx : ∃ a b c d, x = .encode a b c d
    · obtain ⟨a, b, c, d, rfl⟩ := hx
      cases h
      rw [lastJob_encode, if_pos rfl]
    · have hc : x.calm := fun a b c d h => hx ⟨a, b, c, d, h⟩
      rw [lastJob_calm (by simpa using hc)]
      apply ih (g := g)
      cases x with
      | encode a b c d => exact absurd rfl (hc a b c d)
      | encodeDone f =>
        rw [List.foldl_cons, List.foldl_nil] at h
        unfold Crew.see at h
        dsimp only at h
        split at h
        · exact h
        · exact h
      | _ => exact h

/-- an encoder that was not used made nothing -/
theorem crew_made (l : List Eff) : ∀ {i}, (∀ e j p q, .encode e j p q ∈ l → j.id ≠ i) → (crew sizes l).made i = [] := by
  induction l using snoc_induction with
  | h0 => exact fun _ => rfl
  | h1 l x ih =>
    intro i h
    have h0 := ih (i := i) fun e j p q hm => h e j p q (by simp [hm])
    rw [crew_append]
    cases x with
    | encodeDone f =>
      rw [List.foldl_cons, List.foldl_nil]
      unfold Crew.see
      dsimp only
      split
      · rename_i e i' g hc
        dsimp only
        split
        · next he =>
          obtain ⟨j, p, q, h1, h2⟩ := lastJob_some (crew_cur l hc)
          exact absurd (h2.trans he.symm) (h e j p q (by simp [h1]))
        · exact h0
      · exact h0
    | _ => exact h0

theorem see_done {m : Crew} {f : Frame} {e : Int} {i : Nat} {g : Bytes} (h : m.cur = some (e, i, g)) (i' : Nat) :
    (m.see sizes (.encodeDone f)).made i' = if i' = i then m.made i ++ rectsOf (sizes g) f else m.made i' := by
  unfold Crew.see
  rw [h]

theorem faith_append {v : Viewer α} {m : Crew} {es fs : List Eff} (h : Faith sizes dec c v m (es ++ fs)) :
    Faith sizes dec c v m es ∧ Faith sizes dec c (es.foldl (Viewer.see c) v) (es.foldl (Crew.see sizes) m) fs := by
  induction es generalizing v m with
  | nil => exact ⟨trivial, h⟩
  | cons e es ih =>
    obtain ⟨h1, h2⟩ := h
    obtain ⟨h3, h4⟩ := ih h2
    exact ⟨⟨h1, h3⟩, h4⟩

/-! ## The invariant -/

/-- the client has decoded what the encoders made -/
def Hist (sc : Canvas α) (m : Crew) (l : List Eff) : Prop :=
  ∀ e, (lastJob e l = none → sc.of e = []) ∧
    ∀ i, lastJob e l = some i → ∃ before, sc.of e = before ++ m.made i ∧ (e = 16 ∨ e = 7 → before = [])

/-- the client has read everything, and has painted what the viewer has -/
def Sync (sizes : Bytes → Sizes) (dec : Bytes → Decoder α) (v : Viewer α) (m : Crew) (l : List Eff) : Prop :=
  Fair sizes l → Timely l → ∀ t, talkOf l = some t → ∃ qs ms, readParts sizes t.past = some qs ∧
    Reads (sizes t.now.fmt) t.now.bytes ms ∧ (v.lost = false →
      (∀ px py, (repaint dec (qs ++ [(t.now.fmt, ms)])).pix px py = v.screen px py) ∧
      Hist (repaint dec (qs ++ [(t.now.fmt, ms)])) m l)

/-- What the client has decoded is what the viewer has painted; `m` are the encoders, before the frame that
was made and not sent yet. -/
structure Match (sizes : Bytes → Sizes) (dec : Bytes → Decoder α) (v : Viewer α) (m : Crew) (s : St) : Prop where
  early : s.cl.st ≠ .ready → v.screen = (fun _ _ => none) ∧ ∀ e, lastJob e s.log = none
  sync : Sync sizes dec v m s.log
  calm : v.lost = false → v.done = false → m = crew sizes s.log
  busy : v.lost = false → s.cl.encoding = true → v.frame.isSome = true ∧ v.done = false ∧
    ∃ e i p, m.cur = some (e, i, describe p) ∧ (e, p) ∈ (air s.log).fly
  idle : v.lost = false → v.done = true → v.frame.isSome = true
  last : v.lost = false → ∀ f, s.log.getLast? = some (.encodeDone f) → s.cl.encoding = false ∧
    m.see sizes (.encodeDone f) = crew sizes s.log ∧
    ∃ r k e i p, v.frame = some (r, k) ∧ m.cur = some (e, i, describe p) ∧ lastJob e s.log = some i ∧
      (e, p) ∈ (air s.log).done ∧
      ∀ before, (e = 16 ∨ e = 7 → before = []) →
        Draws (sizes (describe p)) (dec (describe p)) e (before ++ m.made i) f r k

/-- the part that goes on is in the format that the client asked for last -/
def Now (sizes : Bytes → Sizes) (l : List Eff) : Prop :=
  Fair sizes l → Timely l → ∀ t, talkOf l = some t → (asked l).fmt = some t.now.fmt

/-- messages of one format, which paint nothing -/
theorem sync_adds {v v' : Viewer α} {m m' : Crew} {s s' : St} (hn : Now sizes s.log) (h : Sync sizes dec v m s.log)
    (ha : ∀ z, Adds z s s') (hf : ∃ es, s'.log = s.log ++ es ∧ ∀ e ∈ es, flat e = true)
    (hv : v'.screen = v.screen) (hl : v'.lost = false → v.lost = false)
    (hm : v'.lost = false → ∀ sc : Canvas α, Hist sc m s.log → Hist sc m' s'.log) : Sync sizes dec v' m' s'.log := by
  obtain ⟨es, h1, h2⟩ := hf
  intro g1 g2 t' ht'
  rw [h1] at g1 g2 ht' hm ⊢
  cases ht : talkOf s.log with
  | none => rw [talk_none ht fun e he => flat_init (h2 e he)] at ht'; cases ht'
  | some t =>
    rw [talk_some ht h2] at ht'
    cases ht'
    obtain ⟨fs, k1, -, k2⟩ := ha (sizes t.now.fmt)
    obtain rfl : es = fs := List.append_cancel_left (h1.symm.trans k1)
    obtain ⟨ns, k3, k4⟩ := k2 (g1.local h2 (hn g1.mono g2.mono t ht))
    obtain ⟨qs, ms, a1, a2, a3⟩ := h g1.mono g2.mono t ht
    refine ⟨qs, ms ++ ns, a1, a2.append k3, fun hl' => ?_⟩
    obtain ⟨b1, b2⟩ := a3 (hl hl')
    show (∀ px py, (repaint dec (qs ++ [(t.now.fmt, ms ++ ns)])).pix px py = _) ∧
      Hist (repaint dec (qs ++ [(t.now.fmt, ms ++ ns)])) m' _
    rw [repaint_more, draws_quiet k4]
    exact ⟨fun px py => by rw [b1, hv], hm hl' _ b2⟩

theorem hist_calm {sc : Canvas α} {m : Crew} {l es : List Eff} (h : ∀ e ∈ es, e.calm) (hh : Hist sc m l) :
    Hist sc m (l ++ es) := fun e => by rw [lastJob_calm h]; exact hh e

/-- the format changes -/
theorem sync_pix {v : Viewer α} {m : Crew} {s u : St} (h : Sync sizes dec v m s.log) {f : PixFmt}
    (hu : u.log = s.log ++ [.pixFmt f]) : Sync sizes dec v m u.log ∧ Now sizes u.log := by
  refine ⟨fun g1 g2 t' ht' => ?_, fun g1 g2 t' ht' => ?_⟩ <;> rw [hu] at g1 g2 ht' ⊢
  · cases ht : talkOf s.log with
    | none => rw [talk_none ht (by simp [isInit])] at ht'; cases ht'
    | some t =>
      rw [talkOf_append, ht] at ht'
      cases ht'
      obtain ⟨qs, ms, a1, a2, a3⟩ := h g1.mono g2.mono t ht
      refine ⟨qs ++ [(t.now.fmt, ms)], [], readParts_snoc a1 a2, .nil, fun hl => ?_⟩
      rw [repaint_new]
      obtain ⟨b1, b2⟩ := a3 hl
      exact ⟨b1, hist_calm (by simp [Eff.calm]) b2⟩
  · cases ht : talkOf s.log with
    | none => rw [talk_none ht (by simp [isInit])] at ht'; cases ht'
    | some t =>
      rw [talkOf_append, ht] at ht'
      cases ht'
      rw [Formats.asked_append]
      rfl

theorem sync_format {s s' : St} {a : Bytes} {n : Nat} (e : onSetPixelFormat s a = .ok (s', n)) {v : Viewer α} {m : Crew}
    (h : Sync sizes dec v m s.log) : Sync sizes dec v m s'.log ∧ s'.cl.encoding = s.cl.encoding ∧
      ∃ es, s'.log = s.log ++ es ∧ ∀ e ∈ es, soft e = true := by
  unfold onSetPixelFormat at e
  split at e
  · cases e
    split
    · exact ⟨(sync_pix h rfl).1, rfl, _, rfl, by simp [soft]⟩
    · have h2 := sync_pix h (u := emit (.pixFmt cookedFmt) (s.upd fun k => { k with pix := cookedFmt })) rfl
      have hl : ∃ es, (Server.send .colourMap rgb332Map
          (emit (.pixFmt cookedFmt) (s.upd fun k => { k with pix := cookedFmt }))).log =
          (emit (.pixFmt cookedFmt) (s.upd fun k => { k with pix := cookedFmt })).log ++ es ∧ ∀ e ∈ es, soft e = true := by
        rw [send_log]
        split
        · exact ⟨[], rfl, by simp⟩
        · exact ⟨_, rfl, by simp [soft]⟩
      obtain ⟨es, h3, h4⟩ := hl
      refine ⟨sync_adds h2.2 h2.1 (fun z => ?_) ?_ rfl id fun _ sc hh => ?_, ?_, ?_⟩
      · obtain ⟨d, hd⟩ := read_colourMap (z := z)
        exact Adds.trans (.send _ .colourMap _ (by decide) fun _ => ⟨_, hd, fun _ _ _ => rfl⟩) (.same rfl)
      · exact flat_steady (s' := Server.send .colourMap rgb332Map
          (emit (.pixFmt cookedFmt) (s.upd fun k => { k with pix := cookedFmt }))) (.send _ _ _)
      · show Hist sc m (Server.send .colourMap rgb332Map
          (emit (.pixFmt cookedFmt) (s.upd fun k => { k with pix := cookedFmt }))).log
        rw [h3]
        exact hist_calm (fun e he => calm_soft (h4 e he)) hh
      · show (Server.send .colourMap rgb332Map
          (emit (.pixFmt cookedFmt) (s.upd fun k => { k with pix := cookedFmt }))).cl.encoding = _
        simp [emit, St.upd]
      · refine ⟨.pixFmt cookedFmt :: es, ?_, by simpa [soft] using h4⟩
        show (Server.send .colourMap rgb332Map
          (emit (.pixFmt cookedFmt) (s.upd fun k => { k with pix := cookedFmt }))).log = _
        rw [h3]
        simp [emit, St.upd]
  · cases e
    exact ⟨h, rfl, [], by simp, by simp⟩

/-- a step that means nothing to the viewer -/
theorem match_soft {v : Viewer α} {m : Crew} {s s' : St} (h : Match sizes dec v m s)
    (hst : s'.cl.st ≠ .ready → s.cl.st ≠ .ready) (hs : Sync sizes dec v m s'.log) {es : List Eff}
    (h1 : s'.log = s.log ++ es) (h2 : ∀ e ∈ es, soft e = true) (h3 : s'.cl.encoding = s.cl.encoding) :
    Match sizes dec v m s' := by
  have hmk : crew sizes s'.log = crew sizes s.log := by rw [h1, crew_append, crew_softs h2]
  have hlj : ∀ e, lastJob e s'.log = lastJob e s.log := fun e => by
    rw [h1, lastJob_calm fun e he => calm_soft (h2 e he)]
  have hair : air s'.log = air s.log := by rw [h1, air_softs h2]
  refine ⟨fun hr => ⟨(h.early (hst hr)).1, fun e => by rw [hlj]; exact (h.early (hst hr)).2 e⟩, hs,
    by rw [hmk]; exact h.calm, fun hl he => by rw [hair]; exact h.busy hl (h3 ▸ he), h.idle, fun hl f hd => ?_⟩
  rw [h1] at hd
  obtain ⟨h4, h5⟩ := last_append hd (fun e he h => by rw [h] at he; exact nomatch h2 _ he)
  obtain ⟨a1, a2, r, k, e, i, p, a3, a4, a5, a6, a7⟩ := h.last hl f h5
  exact ⟨h3.trans a1, by rw [hmk]; exact a2, r, k, e, i, p, a3, a4, by rw [hlj]; exact a5, by rw [hair]; exact a6, a7⟩

/-! ## Frames -/

/-- a frame that is sent is in the format of its time -/
theorem frame_timely {f : Frame} {s : St} (hc : s.cl.closed = false) {es : List Eff}
    (he : (sendFrame f s).log = s.log ++ es) : (∀ e ∈ es, flat e = true) ∧
      (Timely (s.log ++ es) → ∀ j ∈ (air s.log).done, (asked s.log).fmt = some (describe j.2)) := by
  obtain ⟨u, hu, hcl, hsf⟩ := sendFrame_last f s
  obtain ⟨fs, h1, h2⟩ := hu.log
  have hlog : (sendFrame f s).log = s.log ++ (fs ++ [.send u.cl.chan .frame f.payload]) := by
    rw [hsf, send_log, h1, hcl, hc, if_neg (by simp), List.append_assoc]
  obtain rfl : fs ++ [.send u.cl.chan .frame f.payload] = es := List.append_cancel_left (hlog.symm.trans he)
  refine ⟨fun e he => ?_, fun g => ?_⟩
  · rcases List.mem_append.1 he with he | he
    · exact flat_dull (h2 e he)
    · rw [List.mem_singleton.1 he]; rfl
  · have g := g (s.log ++ fs) u.cl.chan f.payload [] (by simp)
    rwa [asked_dull h2, air_dull h2] at g

/-- a frame is sent -/
theorem match_frame {f : Frame} {s : St} (hr : s.cl.st = .ready) (hd : s.log.getLast? = some (.encodeDone f))
    (hk : EncOk s) (hn : Now sizes s.log) {v : Viewer α} {m : Crew} (h : Match sizes dec v m s) {es : List Eff}
    (he : (sendFrame f s).log = s.log ++ es) :
    ∃ m', Match sizes dec (es.foldl (Viewer.see c) v) m' (sendFrame f s) := by
  obtain ⟨-, -, ⟨kw, kh, dm, h3, -⟩, fs, h5, h5'⟩ := sendFrame_frame f s
  have c1 : (sendFrame f s).cl.st = .ready := by rw [h3]; exact hr
  have c2 : (sendFrame f s).cl.encoding = s.cl.encoding := by rw [h3]
  have hsend : ∀ e ∈ es, ∃ ch k b, e = .send ch k b := by
    have : fs = es := List.append_cancel_left (h5.symm.trans he)
    subst this
    intro e he
    obtain ⟨-, k, b, -, h⟩ := h5' e he
    exact ⟨_, k, b, h⟩
  have hcalm : ∀ e ∈ es, e.calm := by
    intro e he
    obtain ⟨ch, k, b, rfl⟩ := hsend e he
    exact nofun
  have hmk : crew sizes (s.log ++ es) = crew sizes s.log := by
    rw [crew_append]
    generalize crew sizes s.log = m
    clear h5 h5' he hcalm
    induction es generalizing m with
    | nil => rfl
    | cons e es ih =>
      obtain ⟨ch, k, b, rfl⟩ := hsend e (by simp)
      exact ih (fun e he => hsend e (by simp [he])) m
  by_cases hc : s.cl.closed = true
  · have hes : es = [] := by
      have : fs = es := List.append_cancel_left (h5.symm.trans he)
      subst this
      cases fs with
      | nil => rfl
      | cons e fs =>
        have := (h5' e (by simp)).1
        rw [hc] at this; cases this
    subst hes
    rw [List.append_nil] at he
    exact ⟨m, fun h => absurd c1 h, by rw [he]; exact h.sync, by rw [he]; exact h.calm,
      by rw [c2, he]; exact h.busy, h.idle, by rw [he, c2]; exact h.last⟩
  · have hc : s.cl.closed = false := by simpa using hc
    obtain ⟨g1, ch, b', g2⟩ := sendFrame_see (c := c) f hc he v
    obtain ⟨hflat, htime⟩ := frame_timely hc he
    rw [g1]
    refine ⟨crew sizes s.log, fun h => absurd c1 h, ?_, fun _ _ => by rw [he, hmk], fun hl he => ?_, nofun, fun hl g hg => ?_⟩
    · intro u1 u2 t' ht'
      rw [he] at u1 u2 ht'
      cases ht : talkOf s.log with
      | none => rw [talk_none ht fun e he => flat_init (hflat e he)] at ht'; cases ht'
      | some t =>
        rw [talk_some ht hflat] at ht'
        cases ht'
        have hnow := hn u1.mono u2.mono t ht
        have hform : ∀ j ∈ (air s.log).done, describe j.2 = t.now.fmt := fun j hj =>
          Option.some.inj ((htime u2 j hj).symm.trans hnow)
        obtain ⟨ys, hy⟩ := List.getLast?_eq_some_iff.1 hd
        obtain ⟨n1, ⟨e0, g0⟩, hj, qs, n2⟩ := u1.frames ys f es (by rw [hy]; simp)
        rw [show describe (e0, g0).2 = t.now.fmt from hform _ (by rw [hy, air_append]; exact hj)] at n2
        obtain ⟨fs, m1, -, m2⟩ := sendFrame_reads (z := sizes t.now.fmt) f hc
        obtain rfl : es = fs := List.append_cancel_left (he.symm.trans m1)
        obtain ⟨pre, c3, c4⟩ := m2 qs n1 n2
        obtain ⟨ps, ms, a1, a2, a3⟩ := h.sync u1.mono u2.mono t ht
        refine ⟨ps, ms ++ [.update (pre ++ qs)], a1, a2.append (.one c3), fun hl => ?_⟩
        obtain ⟨-, hsee, r', k, en, id, p, d1, d4, d5, dj, dr⟩ := h.last hl f hd
        rw [show describe p = t.now.fmt from hform _ dj] at d4 dr
        obtain ⟨a4, a5⟩ := a3 hl
        obtain ⟨before, a6, a7⟩ := (a5 en).2 id d5
        obtain ⟨dp, qs', d2, d3, d6⟩ := dr before a7
        rw [n2] at d2
        cases d2
        show (∀ px py, (repaint dec (ps ++ [(t.now.fmt, ms ++ [.update (pre ++ qs)])])).pix px py = _) ∧
          Hist (repaint dec (ps ++ [(t.now.fmt, ms ++ [.update (pre ++ qs)])])) _ _
        have hcv : repaint dec (ps ++ [(t.now.fmt, ms ++ [.update (pre ++ qs)])]) = qs.foldl (draw1 (dec t.now.fmt))
            (if resized f s.cl then { repaint dec (ps ++ [(t.now.fmt, ms)]) with pix := fun _ _ => none }
              else repaint dec (ps ++ [(t.now.fmt, ms)])) := by
          rw [repaint_more, List.foldl_cons, List.foldl_nil]
          show (pre ++ qs).foldl (draw1 (dec t.now.fmt)) _ = _
          rw [List.foldl_append, c4]
        generalize repaint dec (ps ++ [(t.now.fmt, ms)]) = old at hcv a4 a5 a6
        generalize repaint dec (ps ++ [(t.now.fmt, ms ++ [.update (pre ++ qs)])]) = new at hcv ⊢
        have hof : ∀ e, (if resized f s.cl then { old with pix := fun _ _ => none } else old).of e = old.of e := by
          intro e; split <;> rfl
        have hpast : ∀ e, new.of e = old.of e ++ qs.filter (·.enc == e) := by
          intro e
          rw [hcv]
          unfold Canvas.of
          rw [draw_past dp qs _ d3, List.filter_append]
          congr 1
          exact hof e
        refine ⟨fun px py => ?_, fun e => ?_⟩
        · show _ = paint v.frame (if resized f s.cl then fun _ _ => none else v.screen) px py
          rw [hcv, d6 _ (by rw [hof, a6]) px py, d1]
          have : ∀ sc sc' : Nat → Nat → Option α, sc = sc' → paint (some (r', k)) sc px py = paint (some (r', k)) sc' px py := by
            rintro _ _ rfl; rfl
          apply this
          split
          · rfl
          · funext px py; exact a4 px py
        · rw [hpast, he, lastJob_calm hcalm, ← hsee]
          by_cases hen : e = en
          · subst hen
            have hq : qs.filter (·.enc == e) = qs := by
              rw [List.filter_eq_self]
              intro q hq
              rw [d3 q hq]; exact beq_self_eq_true _
            refine ⟨fun h => (by rw [d5] at h; cases h), fun i hi => ?_⟩
            rw [d5] at hi
            cases hi
            refine ⟨before, ?_, a7⟩
            rw [a6, hq, see_done d4, if_pos rfl, List.append_assoc]
            unfold rectsOf
            rw [n2]
          · have hq : qs.filter (·.enc == e) = [] := by
              rw [List.filter_eq_nil_iff]
              intro q hq
              rw [d3 q hq]
              simpa using Ne.symm hen
            rw [hq, List.append_nil]
            refine ⟨(a5 e).1, fun i hi => ?_⟩
            obtain ⟨before', b3, b4⟩ := (a5 e).2 i hi
            refine ⟨before', ?_, b4⟩
            rw [b3, see_done d4, if_neg]
            rintro rfl
            obtain ⟨j, p, q, j1, j2⟩ := lastJob_some hi
            obtain ⟨j', p', q', j3, j4⟩ := lastJob_some d5
            exact hen (hk.one _ _ _ _ _ _ _ _ j1 j3 (j2.trans j4.symm))
    · obtain ⟨a1, -⟩ := h.last hl f hd
      rw [c2, a1] at he
      cases he
    · rw [he, List.getLast?_append, g2] at hg
      cases hg

theorem match_step {lp s s'} (hm : Micro lp table s s') (ht : Told sizes s.cl s.log) (hen : EncOk s) {v : Viewer α}
    {m : Crew} (h : Match sizes dec v m s) {es : List Eff} (he : s'.log = s.log ++ es)
    (hf : Faith sizes dec c v (crew sizes s.log) es) :
    ∃ m', Match sizes dec (es.foldl (Viewer.see c) v) m' s' := by
  have hst : s'.cl.st ≠ .ready → s.cl.st ≠ .ready := fun h1 h2 => h1 (micro_ready hm h2)
  have hlost : (es.foldl (Viewer.see c) v).lost = false → v.lost = false := lost_mono
  have hen' := micro_enc hm hen
  have hn : Now sizes s.log := fun g1 g2 t h => (ht.ok g1 g2 t h).fmt
  have hsoft : ∀ fs, s'.log = s.log ++ fs → (∀ e ∈ fs, soft e = true) → s'.cl.encoding = s.cl.encoding →
      Sync sizes dec v m s'.log → ∃ m', Match sizes dec (es.foldl (Viewer.see c) v) m' s' := by
    intro fs h1 h2 h3 h4
    obtain rfl : fs = es := List.append_cancel_left (h1.symm.trans he)
    rw [see_softs h2]
    exact ⟨m, match_soft h hst h4 h1 h2 h3⟩
  have hhs : s.cl.st ≠ .ready → (∃ env r a n, tryRead env table r s a = .ok (s', n)) →
      ∃ m', Match sizes dec (es.foldl (Viewer.see c) v) m' s' := by
    rintro h4 ⟨env, r, a, n, h5⟩
    obtain ⟨-, -, ⟨_, _, _, _, _, _, _, _, _, _, _, h3⟩, fs, h6, h7⟩ := hs_frame h4 h5
    have h7 : ∀ e ∈ fs, soft e = true := fun e he => soft_plain (h7 e he).plain
    refine hsoft fs h6 h7 (by rw [h3]) fun g1 g2 t htk => ?_
    obtain ⟨b, k1, rfl, k2⟩ := (hs_told h4 h5 (ht.before h4)).2 t htk
    refine ⟨[], [], rfl, .nil, fun hl => ⟨fun px py => ?_, ?_⟩⟩
    · rw [(h.early h4).1]
      rfl
    · rw [h6]
      refine hist_calm (fun e he => calm_soft (h7 e he)) fun e => ⟨fun _ => rfl, fun i hi => ?_⟩
      rw [(h.early h4).2] at hi
      cases hi
  rcases micro_flat hm with hfl | ⟨f, hd, rfl, hr⟩ | ⟨h1, h2⟩ | ⟨a, n, h1, -⟩
  · by_cases hall : ∀ z, Adds z s s'
    · cases micro_seen hm with
      | soft fs h1 h2 h3 =>
        refine hsoft fs h1 h2 h3 (sync_adds hn h.sync hall hfl rfl id fun _ sc hh => ?_)
        rw [h1]
        exact hist_calm (fun e he => calm_soft (h2 e he)) hh
      | encode en j f q h1 h2 h3 =>
        have : [.encode en j f q] = es := List.append_cancel_left (h1.symm.trans he)
        subst this
        have hr := micro_ready hm h2
        have hmk : crew sizes s'.log = (crew sizes s.log).see sizes (.encode en j f q) := by rw [h1, crew_append]; rfl
        have hfr : (v.see c (.encode en j f q)).lost = false → v.frame = none ∧ v.lost = false := by
          intro hl
          have : (v.lost || v.frame.isSome) = false := hl
          simp only [Bool.or_eq_false_iff] at this
          exact ⟨by simpa using this.2, this.1⟩
        have hdn : (v.see c (.encode en j f q)).lost = false → v.done = false ∧ m = crew sizes s.log := by
          intro hl
          obtain ⟨a1, a2⟩ := hfr hl
          have : v.done = false := by
            cases hd : v.done with
            | false => rfl
            | true =>
              have := h.idle a2 hd
              rw [a1] at this
              cases this
          exact ⟨this, h.calm a2 this⟩
        refine ⟨crew sizes s'.log, fun h => absurd hr h, sync_adds hn h.sync hall hfl rfl hlost ?_, fun _ _ => rfl,
          fun hl _ => ⟨rfl, ?_, ?_⟩, fun _ _ => rfl, fun hl f hd => ?_⟩
        · intro hl sc hh e
          rw [hmk, (hdn hl).2.symm, h1, lastJob_encode]
          split
          · next hee =>
            subst hee
            refine ⟨nofun, fun i hi => ?_⟩
            cases hi
            show ∃ before, sc.of en = before ++ m.made j.id ∧ _
            rcases hen'.chain s.log [] en j f q h1 with hc | hc
            · rw [(hdn hl).2, crew_made s.log hc]
              refine ⟨sc.of en, (List.append_nil _).symm, fun hkk => ?_⟩
              cases hj : lastJob en s.log with
              | none => exact (hh en).1 hj
              | some i =>
                obtain ⟨j', p', q', b1, b2⟩ := lastJob_some hj
                have k1 := hen'.keep en j' p' q' (by rw [h1]; simp [b1]) (isKept_or.2 hkk)
                have k2 := hen'.keep en j f q (by rw [h1]; simp) (isKept_or.2 hkk)
                rw [k1] at k2
                injection k2 with k2
                exact absurd k2 (hc _ _ _ _ b1)
            · exact (hh en).2 _ hc
          · exact hh e
        · exact (hdn hl).1
        · refine ⟨en, j.id, f, by rw [hmk]; rfl, ?_⟩
          rw [h1, air_append]
          exact List.mem_append_right _ (List.mem_singleton.2 rfl)
        · rw [h1, List.getLast?_concat] at hd
          cases hd
      | done f h1 h2 h3 =>
        have : [.encodeDone f] = es := List.append_cancel_left (h1.symm.trans he)
        subst this
        have hlj : ∀ e, lastJob e s'.log = lastJob e s.log := fun e => by
          rw [h1, lastJob_calm (by simp [Eff.calm])]
        refine ⟨m, fun hr => ⟨(h.early (hst hr)).1, fun e => by rw [hlj]; exact (h.early (hst hr)).2 e⟩,
          sync_adds hn h.sync hall hfl rfl hlost fun _ sc hh e => by rw [hlj]; exact hh e, nofun,
          fun hl he => (by rw [h3] at he; cases he), fun hl _ => ?_, fun hl g hd => ⟨h3, ?_⟩⟩
        · show (v.frame.map _).isSome = true
          rw [Option.isSome_map]
          exact (h.busy hl h2).1
        rw [h1, List.getLast?_concat] at hd
        cases hd
        obtain ⟨hb, hd, e, i, p, hcur, hfly⟩ := h.busy hl h2
        have hmk := h.calm hl hd
        refine ⟨by rw [h1, crew_append, ← hmk]; rfl, ?_⟩
        obtain ⟨⟨r, k⟩, hv⟩ := Option.isSome_iff_exists.1 hb
        refine ⟨r ++ v.wide f, k, e, i, p, ?_, hcur, ?_, ?_, fun before hbf => ?_⟩
        · show v.frame.map _ = _
          rw [hv]; rfl
        · rw [hlj]
          rw [hmk] at hcur
          exact crew_cur _ hcur
        · rw [h1, air_append]
          exact hfly
        · rw [hmk] at hcur ⊢
          exact hf.1 f r k e i _ before rfl hv hcur hbf
      | frame f hr h1 h2 =>
        subst h2
        exact match_frame hr h1 hen hn h he
    · obtain ⟨z, hz⟩ := Classical.not_forall.1 hall
      rcases micro_adds (z := z) hm ht.lit.kept with ha | ⟨f, hd, hr, rfl⟩ | ⟨h1, h2⟩
      · exact absurd ha hz
      · exact match_frame hr hd hen hn h he
      · exact hhs h1 h2
  · exact match_frame hr hd hen hn h he
  · exact hhs h1 h2
  · obtain ⟨k1, k2, fs, k3, k4⟩ := sync_format h1 h.sync
    exact hsoft fs k3 k4 k2 k1

/-! ## Runs -/

theorem Match.settle {v : Viewer α} {m : Crew} {s : St} (h : Match sizes dec v m s) : Match sizes dec v.settle m s := by
  have hl : v.settle.lost = false → v.lost = false ∧ v.done = false := by
    show (v.lost || v.done) = false → _
    simp only [Bool.or_eq_false_iff]
    exact id
  refine ⟨h.early, fun g1 g2 t ht => ?_, fun h1 _ => h.calm (hl h1).1 (hl h1).2, fun h1 => h.busy (hl h1).1,
    fun h1 => h.idle (hl h1).1, fun h1 => h.last (hl h1).1⟩
  obtain ⟨qs, ms, a1, a2, a3⟩ := h.sync g1 g2 t ht
  exact ⟨qs, ms, a1, a2, fun h1 => a3 (hl h1).1⟩

theorem step_match {v : Viewer α} {o : Op} {env : Env} {net : List Read} {s s' : St} {m : Crew} (hb : Base s)
    (ht : Told sizes s.cl s.log) (hk : EncOk s) (h : Match sizes dec v m s) (e : step table o env net s = .ok s')
    (hf : Faith sizes dec c v (crew sizes s.log) (s'.log.drop s.log.length)) :
    Base s' ∧ Told sizes s'.cl s'.log ∧ EncOk s' ∧
      ∃ m', Match sizes dec ((s'.log.drop s.log.length).foldl (Viewer.see c) v) m' s' := by
  have key : ∀ t t', Micro true table t t' → Base t →
      (Told sizes t.cl t.log ∧ EncOk t ∧ ∃ es, t.log = s.log ++ es ∧
        (Faith sizes dec c v (crew sizes s.log) es → ∃ m, Match sizes dec (es.foldl (Viewer.see c) v) m t)) →
      (Told sizes t'.cl t'.log ∧ EncOk t' ∧ ∃ es, t'.log = s.log ++ es ∧
        (Faith sizes dec c v (crew sizes s.log) es → ∃ m, Match sizes dec (es.foldl (Viewer.see c) v) m t')) := by
    rintro t t' hm - ⟨h1, hk, es, h2, h3⟩
    refine ⟨micro_told hm h1, micro_enc hm hk, ?_⟩
    have hg : ∃ fs, t'.log = t.log ++ fs := by
      cases micro_seen hm with
      | soft fs h => exact ⟨fs, h⟩
      | encode _ _ _ _ h => exact ⟨_, h⟩
      | done _ h => exact ⟨_, h⟩
      | frame f _ _ h =>
        subst h
        obtain ⟨-, -, -, fs, h5, -⟩ := sendFrame_frame f t
        exact ⟨fs, h5⟩
    obtain ⟨fs, hg⟩ := hg
    refine ⟨es ++ fs, by rw [hg, h2, List.append_assoc], fun hf => ?_⟩
    obtain ⟨f1, f2⟩ := faith_append hf
    rw [List.foldl_append]
    obtain ⟨m, h3⟩ := h3 f1
    rw [← crew_append, ← h2] at f2
    exact match_step hm h1 hk h3 hg f2
  obtain ⟨g1, g2, g5, es, g3, g4⟩ := step_inv key hb ⟨ht, hk, [], by simp, fun _ => ⟨m, h⟩⟩ e
  refine ⟨g1, g2, g5, ?_⟩
  rw [g3, List.drop_left] at hf ⊢
  exact g4 hf

theorem watch_match : ∀ (ops : List ((Server.Op × Env × List Read) × Pic α)) {s s' : St} {v v' : Viewer α} {m : Crew},
    Base s → Told sizes s.cl s.log → EncOk s → Match sizes dec v m s → Faithful sizes dec table ops s v →
    watch table ops s v = .ok (s', v') → Told sizes s'.cl s'.log ∧ ∃ m', Match sizes dec v' m' s'
  | [], s, s', v, v', m, _, ht, _, h, _, e => by
    cases e; exact ⟨ht, m, h⟩
  | ((o, env, net), c) :: ops, s, s', v, v', m, hb, hl, hk, h, hf, e => by
    obtain ⟨t, ht, e'⟩ := Outcome.bind_eq_ok.1 e
    obtain ⟨f1, f2⟩ := hf t ht
    obtain ⟨g1, g2, g4, m', g3⟩ := step_match hb hl hk h ht f1
    exact watch_match ops g1 g2 g4 g3.settle f2 e'

theorem start_match (srv : Srv) (w : Frame → Region) : Match sizes dec { wide := w } {} (start srv) :=
  ⟨fun _ => ⟨rfl, fun _ => rfl⟩, (fun _ _ _ ht => nomatch ht), (fun _ _ => rfl), (fun _ he => nomatch he),
    (fun _ h => nomatch h), (fun _ _ hd => nomatch hd)⟩

/-- **C99**, with changes of the pixel format (part): a client that knows nothing but the bytes it is sent, reads each
part of them with the sizes of the format that the server was using, and decodes its rectangles in that format, has the
same pixels on its screen as the viewer of C97 that looks into the server.

What is missing: `Faithful` asks of encoders that a frame draws what was handed to them, in the format they were given
for it; `Fair` and `Timely` are as in C98; frames must not be lost. -/
theorem c99_formats_partial {srv : Srv} {ops : List ((Server.Op × Env × List Read) × Pic α)} {s : St} {v : Viewer α}
    {w : Frame → Region} (e : watch table ops (start srv) { wide := w } = .ok (s, v))
    (hf : Faithful sizes dec table ops (start srv) { wide := w })
    (h1 : Fair sizes s.log) (h2 : Timely s.log) (hl : v.lost = false) {b : Bytes} (hb : session s.log = some b) :
    ∃ t i ps, talkOf s.log = some t ∧ t.all = b ∧ readInit t.init = some (i, []) ∧
      (t.parts.head?.map Part.fmt) = some i.fmt ∧ readParts sizes t.parts = some ps ∧
      ∀ px py, (repaint dec ps).pix px py = v.screen px py := by
  have ht0 : Told sizes (start srv).cl (start srv).log := ⟨lit_start srv, fun _ => rfl, fun _ _ t ht => nomatch ht⟩
  obtain ⟨ht, m, h⟩ := watch_match ops (start_base srv) ht0 (start_enc srv) (start_match srv w) hf e
  rw [session_talk] at hb
  obtain ⟨t, k1, k2⟩ := Option.map_eq_some_iff.1 hb
  obtain ⟨qs, ms, a1, a2, a3⟩ := h.sync h1 h2 t k1
  obtain ⟨i, i1, i2⟩ := (ht.ok h1 h2 t k1).init
  exact ⟨t, i, _, k1, k2, i1, i2, readParts_snoc a1 a2, (a3 hl).1⟩

/-- **C99**, with changes of the pixel format (part): every pixel the client has decoded has the colour that the
application displays, unless it is in damage that is still to be sent; and every pixel that it has asked for is there. -/
theorem c99_formats_shown_partial {srv : Srv} {ops : List ((Server.Op × Env × List Read) × Pic α)} {c₀ : Pic α} {s : St}
    {v : Viewer α} {px py : Nat} {w : Frame → Region}
    (e : watch table ops (start srv) { wide := w } = .ok (s, v)) (hh : Honest c₀ ops)
    (hfa : Faithful sizes dec table ops (start srv) { wide := w }) (h1 : Fair sizes s.log) (h2 : Timely s.log)
    (hc : s.cl.closed = false) (hf : s.cl.freed = false) (hl : v.lost = false) (hok : .encodeFail ∉ s.log)
    (hin : Fits s.log px py) (he : s.cl.encoding = false) (hd : ¬ s.cl.damage.Has px py) {b : Bytes}
    (hb : session s.log = some b) :
    ∃ t i ps, talkOf s.log = some t ∧ t.all = b ∧ readInit t.init = some (i, []) ∧
      (t.parts.head?.map Part.fmt) = some i.fmt ∧ readParts sizes t.parts = some ps ∧
      (∀ a, (repaint dec ps).pix px py = some a → a = final c₀ ops px py) ∧
      (Asked s.log px py → (repaint dec ps).pix px py = some (final c₀ ops px py)) := by
  obtain ⟨t, i, ps, k1, k2, k3, k4, k5, k6⟩ := c99_formats_partial e hfa h1 h2 hl hb
  obtain ⟨h3, h4⟩ := c97_shown_partial e hh hc hf hl hok hin he hd
  refine ⟨t, i, ps, k1, k2, k3, k4, k5, fun a ha => ?_, fun ha => ?_⟩
  · rw [k6] at ha
    exact h3 _ ha
  · rw [k6]; exact h4 ha

/-- **C99**, with changes of the pixel format (part), for clients that lose no frames (C97) and do not ask for fences:
one that is connected and waits for an update, while the server is not busy with one, has decoded the application's
picture out of the bytes it was sent, wherever it asked for it, in whatever formats it got it.

Missing: as for `c97_calm_partial`; encoders whose frames draw something else, or cannot be read. -/
theorem c99_formats_calm_partial {srv : Srv} {ops : List ((Server.Op × Env × List Read) × Pic α)} {c₀ : Pic α} {s : St}
    {v : Viewer α} {w : Frame → Region}
    (e : watch table ops (start srv) { wide := w } = .ok (s, v)) (hh : Honest c₀ ops)
    (hq : ∀ o ∈ ops, o.1.2.2 = [] ∧ Ample o.1.2.1) (hd : Shown (ops.map (·.1)))
    (hfa : Faithful sizes dec table ops (start srv) { wide := w }) (h1 : Fair sizes s.log)
    (hu : ∀ es, .encodings es ∈ s.log → -312 ∉ es)
    (hc : s.cl.closed = false) (hf : s.cl.freed = false) (hcalm : Calm s.log) (hok : .encodeFail ∉ s.log)
    (hfb : s.srv.fb ≠ none) (hwait : s.cl.nPending ≠ 0) (hcont : s.cl.cont = false)
    (hoff : ¬ TurnedOff s.log) (hidle : s.cl.isUpdating = false) {b : Bytes} (hb : session s.log = some b) :
    ∃ t i ps, talkOf s.log = some t ∧ t.all = b ∧ readInit t.init = some (i, []) ∧
      (t.parts.head?.map Part.fmt) = some i.fmt ∧ readParts sizes t.parts = some ps ∧
      ∀ px py, Fits s.log px py → Server.Asked s.log px py → (repaint dec ps).pix px py = some (final c₀ ops px py) := by
  have hq' : ∀ o ∈ ops, o.1.2.2 = [] := fun o ho => (hq o ho).1
  have hl := c97_kept e hq' hc hcalm
  have hs : Single s.log := c106_single (fun o ho => by
    obtain ⟨x, hx, rfl⟩ := List.mem_map.1 ho
    exact hq' x hx) (watch_run ops e)
  have ht : Single s.log → Tuned s.cl s.log :=
    (run_inv (I := fun s => Single s.log → Tuned s.cl s.log) (fun _ _ hm _ h => micro_tuned hm h)
      _ (start_base srv) (fun _ => start_tuned srv) (watch_run ops e)).2
  obtain ⟨t, i, ps, k1, k2, k3, k4, k5, k6⟩ :=
    c99_formats_partial e hfa h1 (timely_unfenced (ht hs).ok hu) hl hb
  refine ⟨t, i, ps, k1, k2, k3, k4, k5, fun px py hin ha => ?_⟩
  rw [k6]
  exact c97_current_partial e hh hq hd hc hf hl hok hfb hwait hcont hoff hidle hin ha

/-! ## A session in two formats -/

/-- decoders of raw pixels, for each format -/
def rawDecs (val : Bytes → α) (g : Bytes) : Decoder α := rawDec (rawSizes g).pixel val

def faithB [DecidableEq α] (val : Bytes → α) (c : Pic α) : Viewer α → Crew → List Eff → Bool
  | _, _, [] => true
  | v, m, e :: es => (match e, v.frame, m.cur with
      | .encodeDone f, some (r, k), some (e, _, g) => e == 0 && drawsB (rawSizes g) val f (r ++ v.wide f) k
      | _, _, _ => true) && faithB val c (v.see c e) (m.see rawSizes e) es

theorem faith_check [DecidableEq α] {val : Bytes → α} : ∀ {v : Viewer α} {m : Crew} {es : List Eff},
    faithB val c v m es = true → Faith rawSizes (rawDecs val) c v m es
  | _, _, [], _ => trivial
  | v, m, e :: es, h => by
    unfold faithB at h
    simp only [Bool.and_eq_true] at h
    refine ⟨fun f r k en i g before he hv hc _ => ?_, faith_check h.2⟩
    have := h.1
    rw [he, hv, hc] at this
    simp only [Bool.and_eq_true, beq_iff_eq] at this
    rw [this.1]
    exact draws_check this.2

def faithfulB [DecidableEq α] (val : Bytes → α) (table : List Nat) :
    List ((Server.Op × Env × List Read) × Pic α) → St → Viewer α → Bool
  | [], _, _ => true
  | ((o, env, net), c) :: ops, s, v =>
    match step table o env net s with
    | .ok s' => faithB val c v (crew rawSizes s.log) (s'.log.drop s.log.length) &&
      faithfulB val table ops s' ((s'.log.drop s.log.length).foldl (Viewer.see c) v).settle
    | _ => true

theorem faithful_check [DecidableEq α] {val : Bytes → α} :
    ∀ {ops : List ((Server.Op × Env × List Read) × Pic α)} {s : St} {v : Viewer α},
    faithfulB val table ops s v = true → Faithful rawSizes (rawDecs val) table ops s v
  | [], _, _, _ => trivial
  | ((o, env, net), c) :: ops, s, v, h => by
    intro s' hs
    unfold faithfulB at h
    rw [hs] at h
    simp only [Bool.and_eq_true] at h
    exact ⟨faith_check h.1, faithful_check h.2⟩

/-- `Timely`, checked: `pre` is what came before -/
def timelyB : List Eff → List Eff → Bool
  | _, [] => true
  | pre, x :: l =>
    (match x with
      | .send _ .frame _ => (air pre).done.all fun j => decide ((asked pre).fmt = some (describe j.2))
      | _ => true) && timelyB (pre ++ [x]) l

theorem timely_of {l : List Eff} (h : timelyB [] l = true) : Timely l := by
  have key : ∀ (l pre : List Eff), timelyB pre l = true → ∀ a x b, l = a ++ x :: b →
      timelyB (pre ++ a) (x :: b) = true := by
    intro l
    induction l with
    | nil => intro pre _ a x b h; simp at h
    | cons y l ih =>
      intro pre h a x b hl
      cases a with
      | nil => rw [List.append_nil]; rw [List.nil_append] at hl; exact hl ▸ h
      | cons y' a =>
        rw [List.cons_append, List.cons.injEq] at hl
        obtain ⟨rfl, hl⟩ := hl
        have := ih (pre ++ [y]) (by unfold timelyB at h; exact (Bool.and_eq_true _ _ ▸ h).2) a x b hl
        rwa [List.append_assoc] at this
  intro pre ch b post hl j hj
  have := (Bool.and_eq_true _ _ ▸ (key l [] h pre _ post hl)).1
  simp only [List.nil_append, List.all_eq_true, decide_eq_true_eq] at this
  exact this j hj

/-- pixels that are lit -/
def lit (b : Bytes) : Bool := b.any (· != 0)

def dark : Pic Bool := fun _ _ => false
def spot : Pic Bool := fun px py => px == 1 && py == 2

/-- A client asks for the screen, which is dark, in 32 bits for a pixel, and when it is there for 16 bits; the application
puts a dot in it, and the client asks for more, twice. -/
def twoSession : List ((Server.Op × Env × List Read) × Pic Bool) :=
  (enter [0] ++ [reads fullReq, (.encoded blackFrame, cursorEnv, []), (.written, cursorEnv, []),
    reads (Msg.setPixelFormat 0 sixteen).wire]).map (·, dark) ++
  [((.damage [⟨1, 2, 1, 1⟩], cursorEnv, []), spot), (reads (Msg.fbRequest 1 ⟨0, 0, 4, 3⟩).wire, spot),
    ((.encoded dot16, cursorEnv, []), spot), ((.written, cursorEnv, []), spot),
    (reads (Msg.fbRequest 1 ⟨0, 0, 4, 3⟩).wire, spot)]

theorem two_faithful : Faithful rawSizes (rawDecs lit) [] twoSession (start demoSrv) {} :=
  faithful_check (by decide +kernel)

theorem two_honest : Honest dark twoSession := by
  unfold twoSession
  refine honest_same ⟨fun px py hn => ?_, ?_⟩
  · refine ⟨_, rfl, _, List.mem_singleton.2 rfl, ?_⟩
    unfold spot dark at hn
    simp only [ne_eq, Bool.and_eq_false_imp, beq_iff_eq, beq_eq_false_iff_ne] at hn
    dsimp only
    omega
  · exact honest_same (ops := [reads (Msg.fbRequest 1 ⟨0, 0, 4, 3⟩).wire, (.encoded dot16, cursorEnv, []),
      (.written, cursorEnv, []), reads (Msg.fbRequest 1 ⟨0, 0, 4, 3⟩).wire]) (rest := []) trivial

/-- what the client has at the place of the dot, which it was sent in 16 bits, and at a place that it was sent in 32, by
the theorem -/
example {s : St} {v : Viewer Bool} (e : watch [] twoSession (start demoSrv) {} = .ok (s, v)) :
    ∃ t ps, talkOf s.log = some t ∧ t.parts.map (·.fmt.headD 0) = [32, 16] ∧ readParts rawSizes t.parts = some ps ∧
      (repaint (rawDecs lit) ps).pix 1 2 = some true ∧ (repaint (rawDecs lit) ps).pix 3 0 = some false := by
  have h : (match watch [] twoSession (start demoSrv) {} with
    | .ok (s, v) => fairB rawSizes [] s.log && timelyB [] s.log && !s.cl.closed && !s.cl.freed && !v.lost &&
      !s.log.contains .encodeFail && !s.cl.encoding && (session s.log).isSome && decide (¬ s.cl.damage.Has 1 2) &&
      decide (Fits s.log 1 2) && decide (Asked s.log 1 2) && decide (¬ s.cl.damage.Has 3 0) && decide (Fits s.log 3 0) &&
      decide (Asked s.log 3 0) && decide ((talkOf s.log).map (fun t => t.parts.map (·.fmt.headD 0)) = some [32, 16])
    | _ => false) = true := by decide +kernel
  rw [e] at h
  simp only [Bool.and_eq_true, Bool.not_eq_true', decide_eq_true_eq] at h
  obtain ⟨⟨⟨⟨⟨⟨⟨⟨⟨⟨⟨⟨⟨⟨h1, h0⟩, h2⟩, h3⟩, h4⟩, h5⟩, h6⟩, h7⟩, h8⟩, h9⟩, h10⟩, h11⟩, h12⟩, h13⟩, h14⟩ := h
  obtain ⟨b, hb⟩ := Option.isSome_iff_exists.1 h7
  have h5 : Eff.encodeFail ∉ s.log := fun hm => by simp [hm] at h5
  obtain ⟨t, i, ps, g1, -, -, -, g2, -, g3⟩ := c99_formats_shown_partial e two_honest two_faithful (fair_of h1)
    (timely_of h0) h2 h3 h4 h5 h9 h6 h8 hb
  obtain ⟨t', i', ps', g1', -, -, -, g2', -, g3'⟩ := c99_formats_shown_partial e two_honest two_faithful (fair_of h1)
    (timely_of h0) h2 h3 h4 h5 h12 h6 h11 hb
  cases g1.symm.trans g1'
  cases g2.symm.trans g2'
  rw [g1] at h14
  exact ⟨t, ps, g1, Option.some.inj h14, g2, g3 h10, g3' h13⟩

/-- the same by the other theorem, as the client waits for an update -/
example {s : St} {v : Viewer Bool} (e : watch [] twoSession (start demoSrv) {} = .ok (s, v)) :
    ∃ t ps, talkOf s.log = some t ∧ t.parts.map (·.fmt.headD 0) = [32, 16] ∧ readParts rawSizes t.parts = some ps ∧
      (repaint (rawDecs lit) ps).pix 1 2 = some true ∧ (repaint (rawDecs lit) ps).pix 3 0 = some false := by
  have h : (match watch [] twoSession (start demoSrv) {} with
    | .ok (s, _) => fairB rawSizes [] s.log && !s.cl.closed && !s.cl.freed && calmB {} ⟨none, []⟩ s.log &&
      !s.log.contains .encodeFail && s.srv.fb.isSome && s.cl.nPending == 1 && !s.cl.cont &&
      (s.log.all fun | .msg .ready _ (150 :: 0 :: _) _ => false | .encodings es => !es.contains (-312) | _ => true) &&
      !s.cl.isUpdating && (session s.log).isSome &&
      decide (Fits s.log 1 2) && decide (Server.Asked s.log 1 2) && decide (Fits s.log 3 0) &&
      decide (Server.Asked s.log 3 0) && decide ((talkOf s.log).map (fun t => t.parts.map (·.fmt.headD 0)) = some [32, 16])
    | _ => false) = true := by decide +kernel
  rw [e] at h
  simp only [Bool.and_eq_true, Bool.not_eq_true', decide_eq_true_eq] at h
  obtain ⟨⟨⟨⟨⟨⟨⟨⟨⟨⟨⟨⟨⟨⟨⟨h0, h1⟩, h2⟩, h3⟩, h4⟩, h5⟩, h6⟩, h7⟩, h8⟩, h9⟩, hb⟩, h10⟩, h11⟩, h12⟩, h13⟩, h14⟩ := h
  have hq : ∀ o ∈ twoSession, o.1.2.2 = [] ∧ o.1.2.1 = cursorEnv := by
    simp [twoSession, enter, reads]
  obtain ⟨b, hb⟩ := Option.isSome_iff_exists.1 hb
  obtain ⟨t, i, ps, g1, -, -, -, g2, g3⟩ := c99_formats_calm_partial e two_honest
    (fun o ho => ⟨(hq o ho).1, (hq o ho).2 ▸ cursorEnv_ample⟩) trivial two_faithful (fair_of h0)
    (fun es hm hf => by have := List.all_eq_true.1 h8 _ hm; simp [hf] at this) h1 h2
    (calm_of h3) (fun hm => by simp [hm] at h4) (fun hn => by rw [hn] at h5; cases h5) (fun hn => by rw [hn] at h6; cases h6)
    h7 (fun ⟨ch, b, pl, hm⟩ => by cases List.all_eq_true.1 h8 _ hm) h9 hb
  rw [g1] at h14
  exact ⟨t, ps, g1, Option.some.inj h14, g2, g3 _ _ h10 h11, g3 _ _ h12 h13⟩

end Verif.Repaint
