import Verif.Spec.Screen
import Verif.Props.Damage
import Verif.Props.Owed

/-!
# C97: the client's screen shows what the application displays
-/

namespace Verif.Server

variable {table : List Nat} {α : Type}

/-- effects the viewer does not look at, and that do not change what was asked for -/
def Eff.plain : Eff → Bool
  | .send _ .resizeRect _ | .send _ .frame _ | .encode .. | .encodeDone _ | .encodeFail | .fbReq .. => false
  | _ => true

theorem see_plain {c : Pic α} {e : Eff} (h : e.plain = true) (v : Viewer α) : v.see c e = v := by
  cases e with
  | send ch k b => cases k <;> first | rfl | cases h
  | encode => cases h
  | encodeDone => cases h
  | _ => rfl

theorem see_all {c : Pic α} {es : List Eff} (h : ∀ e ∈ es, e.plain = true) (v : Viewer α) :
    es.foldl (Viewer.see c) v = v := by
  induction es generalizing v with
  | nil => rfl
  | cons e es ih =>
    rw [List.foldl_cons, see_plain (h e (by simp))]
    exact ih (fun e he => h e (by simp [he])) v

theorem asked_append {l es : List Eff} (h : ∀ e ∈ es, e.plain = true) {px py} :
    Asked (l ++ es) px py → Asked l px py := by
  rintro ⟨x, y, w, k, hm, hh⟩
  rcases List.mem_append.1 hm with hm | hm
  · exact ⟨x, y, w, k, hm, hh⟩
  · cases h _ hm

/-- nobody can be shown anything any more -/
def Out (s : St) : Prop := s.cl.closed = true ∨ s.cl.freed = true

/-- the frame that is not painted yet has the pixel -/
def Viewer.Covers (v : Viewer α) (px py : Nat) : Prop := ∃ r k, v.frame = some (r, k) ∧ r.Has px py

/-- a pixel that is on the screen, or that was asked for, is right or will be -/
structure Right (c : Pic α) (px py : Nat) (v : Viewer α) (s : St) : Prop where
  shown : ∀ a, v.screen px py = some a → a = c px py ∨ s.cl.damage.Has px py ∨ v.Covers px py
  fresh : ∀ r k, v.frame = some (r, k) → k px py = c px py ∨ s.cl.damage.Has px py
  going : v.frame.isSome = true → s.cl.encoding = true ∨ v.done = true
  asked : Asked s.log px py → v.screen px py ≠ none ∨ s.cl.damage.Has px py ∨ v.Covers px py

/-- the invariant -/
structure Good (c : Pic α) (px py : Nat) (v : Viewer α) (s : St) : Prop where
  early : s.cl.st ≠ .ready → v.frame = none ∧ v.screen px py = none ∧ ¬ Asked s.log px py
  right : Out s ∨ v.lost = true ∨ .encodeFail ∈ s.log ∨ ¬ Fits s.log px py ∨ Right c px py v s

variable {c : Pic α} {px py : Nat}

theorem fits_of_append {l es : List Eff} (h : Fits (l ++ es) px py) : Fits l px py :=
  ⟨fun e j f q hm => h.1 e j f q (List.mem_append_left _ hm), fun f hm => h.2 f (List.mem_append_left _ hm)⟩

theorem Right.early {v : Viewer α} {s : St} (h : v.frame = none ∧ v.screen px py = none ∧ ¬ Asked s.log px py) :
    Right c px py v s :=
  ⟨fun a ha => (by rw [h.2.1] at ha; cases ha), fun r k hf => (by rw [h.1] at hf; cases hf),
    fun hf => (by rw [h.1] at hf; cases hf), fun ha => absurd ha h.2.2⟩

/-- a step that neither paints nor asks -/
theorem Good.keep {v : Viewer α} {s s' : St} (h : Good c px py v s)
    (hst : s'.cl.st = s.cl.st) (hout : Out s → Out s')
    (hl : ∃ es, s'.log = s.log ++ es ∧ ∀ e ∈ es, e.plain = true)
    (hd : ∃ q, s'.cl.damage = s.cl.damage ++ q) (he : s'.cl.encoding = s.cl.encoding) :
    Good c px py v s' := by
  obtain ⟨es, h1, h2⟩ := hl
  obtain ⟨q, h3⟩ := hd
  refine ⟨fun hn => ?_, ?_⟩
  · obtain ⟨a1, a2, a3⟩ := h.early (by rwa [← hst])
    exact ⟨a1, a2, fun ha => a3 (asked_append h2 (by rwa [← h1]))⟩
  rcases h.right with hr | hr | hr | hr | hr
  · exact .inl (hout hr)
  · exact .inr (.inl hr)
  · exact .inr (.inr (.inl (by rw [h1]; exact List.mem_append_left _ hr)))
  · exact .inr (.inr (.inr (.inl fun hf => hr (fits_of_append (by rwa [← h1])))))
  · refine .inr (.inr (.inr (.inr ⟨fun a ha => ?_, fun r k hf => ?_, fun hf => ?_, fun ha => ?_⟩)))
    · rcases hr.shown a ha with g | g | g
      · exact .inl g
      · exact .inr (.inl (by rw [h3]; exact Has.append g))
      · exact .inr (.inr g)
    · rcases hr.fresh r k hf with g | g
      · exact .inl g
      · exact .inr (by rw [h3]; exact Has.append g)
    · rw [he]; exact hr.going hf
    · rcases hr.asked (asked_append h2 (by rwa [← h1])) with g | g | g
      · exact .inl g
      · exact .inr (.inl (by rw [h3]; exact Has.append g))
      · exact .inr (.inr g)

/-- what is seen since the log was `l` by a viewer that was `v₀` then -/
def Sees (c : Pic α) (px py : Nat) (l : List Eff) (v₀ : Viewer α) (s : St) : Prop :=
  ∃ es, s.log = l ++ es ∧ Good c px py (es.foldl (Viewer.see c) v₀) s

variable {l : List Eff} {v₀ : Viewer α}

theorem Sees.keep {s s' : St} (h : Sees c px py l v₀ s)
    (hst : s'.cl.st = s.cl.st) (hout : Out s → Out s')
    (hl : ∃ es, s'.log = s.log ++ es ∧ ∀ e ∈ es, e.plain = true)
    (hd : ∃ q, s'.cl.damage = s.cl.damage ++ q) (he : s'.cl.encoding = s.cl.encoding) :
    Sees c px py l v₀ s' := by
  obtain ⟨es, h1, h2⟩ := h
  obtain ⟨fs, g1, g2⟩ := hl
  refine ⟨es ++ fs, by rw [g1, h1, List.append_assoc], ?_⟩
  rw [List.foldl_append, see_all g2]
  exact h2.keep hst hout ⟨fs, g1, g2⟩ hd he

/-- a frame takes the whole damage along -/
theorem stageFrame_sees {env fb s s'} (h : Sees c px py l v₀ s) (hr : s.cl.st = .ready)
    (e : stageFrame env fb s = .ok s') : Sees c px py l v₀ s' := by
  unfold stageFrame at e
  rcases ite_cases e with ⟨-, e⟩ | ⟨-, e⟩
  · cases e; exact h
  rcases ite_cases e with ⟨-, e⟩ | ⟨-, e⟩
  · cases e; exact h
  obtain ⟨n, en, ni, nk, nm, hf⟩ := ensureEncoder_frame env fb s
  generalize ensureEncoder env fb s = res at e hf
  obtain ⟨t, b⟩ := res
  dsimp only at hf
  have h0 : Sees c px py l v₀ t ∧ t.cl.st = .ready := by
    subst hf
    exact ⟨h.keep rfl id ⟨[], by simp, by simp⟩ ⟨[], by simp⟩ rfl, hr⟩
  clear h hf hr
  obtain ⟨h, hr⟩ := h0
  cases b
  · dsimp only at e
    rcases ite_cases e with ⟨-, e⟩ | ⟨-, e⟩
    · cases e
    cases e; exact h
  · dsimp only at e
    rcases ite_cases e with ⟨-, e⟩ | ⟨-, e⟩
    · cases e
    obtain ⟨es, h1, h2⟩ := h
    rcases ite_cases e with ⟨-, e⟩ | ⟨-, e⟩
    · injection e with e
      have hl : ∃ en f q, s'.log = t.log ++
          [.encode en ⟨fb, t.cl.damage.clip { x := 0, y := 0, w := fb.w, h := fb.h }, t.cl.encId⟩ f q] := by
        rw [← e]
        split
        · exact ⟨_, _, _, rfl⟩
        · exact ⟨_, _, _, rfl⟩
      have hc : s'.cl.st = t.cl.st ∧ s'.cl.encoding = true ∧ s'.cl.closed = t.cl.closed ∧
          s'.cl.freed = t.cl.freed := by
        rw [← e]
        split <;> exact ⟨rfl, rfl, rfl, rfl⟩
      clear e
      obtain ⟨en, f, q, hl⟩ := hl
      obtain ⟨c1, c2, c3, c4⟩ := hc
      refine ⟨_, by rw [hl, h1, List.append_assoc], ?_⟩
      rw [List.foldl_append]
      generalize es.foldl (Viewer.see c) v₀ = v at h2
      refine ⟨fun hn => absurd (c1.trans hr) hn, ?_⟩
      rcases h2.right with g | g | g | g | g
      · exact .inl (by unfold Out; rw [c3, c4]; exact g)
      · refine .inr (.inl ?_)
        show (v.lost || _) = true
        rw [g]; rfl
      · exact .inr (.inr (.inl (by rw [hl]; exact List.mem_append_left _ g)))
      · exact .inr (.inr (.inr (.inl fun hf => g (fits_of_append (by rwa [← hl])))))
      · by_cases hfr : v.frame.isSome = true
        · refine .inr (.inl ?_)
          show (v.lost || v.frame.isSome) = true
          rw [hfr, Bool.or_true]
        have hno : ¬ v.Covers px py := by
          rintro ⟨r, k, hk, -⟩
          rw [hk] at hfr; exact hfr rfl
        by_cases hin : px < fb.w ∧ py < fb.h
        · have cover : t.cl.damage.Has px py → Viewer.Covers (v.see c (.encode en ⟨fb,
              t.cl.damage.clip { x := 0, y := 0, w := fb.w, h := fb.h }, t.cl.encId⟩ f q)) px py :=
            fun hd => ⟨_, _, rfl, Has.clip hd hin.1 hin.2⟩
          refine .inr (.inr (.inr (.inr ⟨fun a ha => ?_, fun r k hf => ?_, fun _ => .inl c2, fun ha => ?_⟩)))
          · rcases g.shown a ha with g | g | g
            · exact .inl g
            · exact .inr (.inr (cover g))
            · exact absurd g hno
          · injection hf with hf
            injection hf with _ hf
            exact .inl (by rw [← hf])
          · have ha : Asked t.log px py := by
              rw [hl] at ha
              obtain ⟨x, y, w, k, hm, hh⟩ := ha
              refine ⟨x, y, w, k, ?_, hh⟩
              rcases List.mem_append.1 hm with hm | hm
              · exact hm
              · simp at hm
            rcases g.asked ha with g | g | g
            · exact .inl g
            · exact .inr (.inr (cover g))
            · exact absurd g hno
        · refine .inr (.inr (.inr (.inl fun hf => hin ?_)))
          exact hf.1 _ _ _ _ (by rw [hl]; exact List.mem_append_right _ (List.mem_singleton.2 rfl))
    · cases e
      refine ⟨es ++ [.encodeFail], by show t.log ++ _ = _; rw [h1, List.append_assoc], ?_⟩
      rw [List.foldl_append]
      exact ⟨fun hn => absurd hr hn, .inr (.inr (.inl (by show _ ∈ t.log ++ _; simp)))⟩

/-- what goes out with a frame -/
theorem sendFrame_parts (f : Frame) {s : St} (hc : s.cl.closed = false) : ∃ pre : List Eff,
    (sendFrame f s).log = s.log ++ (pre ++ [.send s.cl.chan .frame f.payload]) ∧
    (∀ e ∈ pre, e.plain = true ∨ ∃ ch m, e = .send ch .resizeRect m) ∧
    ((∃ ch m, .send ch .resizeRect m ∈ pre) →
      (sendFrame f s).cl.damage = s.cl.damage ++ [⟨0, 0, f.w % 65536, f.h % 65536⟩]) := by
  have hp : ∀ t : St, t.cl.closed = false → ∃ mid, (sendPts f.pts t).log = t.log ++ mid ∧
      (∀ e ∈ mid, e.plain = true) ∧ (sendPts f.pts t).cl = t.cl := by
    intro t ht
    refine (fun ⟨mid, h1, h2⟩ => ⟨mid, h1, h2, (sendPts_frame f.pts t).2.2.1⟩ :
      (∃ mid, (sendPts f.pts t).log = t.log ++ mid ∧ ∀ e ∈ mid, e.plain = true) → _) ?_
    unfold sendPts
    split
    · exact ⟨[], by simp, by simp⟩
    · split
      · rw [send_log, if_neg (by exact Bool.eq_false_iff.1 ht)]
        exact ⟨_, rfl, by simp [Eff.plain]⟩
      · exact ⟨[], by simp, by simp⟩
  unfold sendFrame
  dsimp only
  generalize hu : send .updateHead (updateHead (nRectsSent f s.cl % 65536)) s = u
  have u1 : u.cl = s.cl := by rw [← hu]; simp
  have u2 : u.log = s.log ++ [.send s.cl.chan .updateHead (updateHead (nRectsSent f s.cl % 65536))] := by
    rw [← hu, send_log, if_neg (by exact Bool.eq_false_iff.1 hc)]
  clear hu
  generalize updateHead (nRectsSent f s.cl % 65536) = hd at u2
  by_cases hz : resized f s.cl = true
  · rw [if_pos hz]
    obtain ⟨-, -, g3, -⟩ := sendResizeRect_frame f.w f.h u
    have g4 : ∃ m, (sendResizeRect f.w f.h u).log = u.log ++ [.send s.cl.chan .resizeRect m] := by
      unfold sendResizeRect
      dsimp only
      rw [send_log, if_neg (by
        show ¬ u.cl.closed = true
        rw [u1]; exact Bool.eq_false_iff.1 hc)]
      exact ⟨_, by rw [← u1]; rfl⟩
    obtain ⟨m, g4⟩ := g4
    generalize sendResizeRect f.w f.h u = t at g3 g4 ⊢
    have c1 : t.cl.closed = false := by rw [g3, u1]; exact hc
    have c2 : t.cl.chan = s.cl.chan := by rw [g3, u1]
    obtain ⟨mid, m1, m2, m3⟩ := hp t c1
    generalize sendPts f.pts t = w at m1 m3 ⊢
    refine ⟨.send s.cl.chan .updateHead hd :: .send s.cl.chan .resizeRect m :: mid, ?_, ?_, fun _ => ?_⟩
    · rw [send_log, if_neg (by rw [m3]; exact Bool.eq_false_iff.1 c1), m1, g4, u2, m3, c2]
      simp
    · intro e he
      rcases List.mem_cons.1 he with rfl | he
      · exact .inl rfl
      rcases List.mem_cons.1 he with rfl | he
      · exact .inr ⟨_, _, rfl⟩
      · exact .inl (m2 e he)
    · rw [send_cl, m3, g3, u1]
  · rw [if_neg hz]
    obtain ⟨mid, m1, m2, m3⟩ := hp u (by rw [u1]; exact hc)
    generalize sendPts f.pts u = w at m1 m3 ⊢
    refine ⟨.send s.cl.chan .updateHead hd :: mid, ?_, ?_, ?_⟩
    · rw [send_log, if_neg (by rw [m3, u1]; exact Bool.eq_false_iff.1 hc), m1, u2, m3, u1]
      simp
    · intro e he
      rcases List.mem_cons.1 he with rfl | he
      · exact .inl rfl
      · exact .inl (m2 e he)
    · rintro ⟨ch, k, hk⟩
      rcases List.mem_cons.1 hk with hk | hk
      · cases hk
      · cases m2 _ hk

/-- messages around a frame at most clear the screen -/
theorem see_around {pre : List Eff} (h : ∀ e ∈ pre, e.plain = true ∨ ∃ ch m, e = .send ch .resizeRect m)
    (v : Viewer α) : pre.foldl (Viewer.see c) v = v ∨
      ((∃ ch m, .send ch .resizeRect m ∈ pre) ∧
        pre.foldl (Viewer.see c) v = { v with screen := fun _ _ => none }) := by
  induction pre generalizing v with
  | nil => exact .inl rfl
  | cons e pre ih =>
    rw [List.foldl_cons]
    have ih' := ih (fun e he => h e (by simp [he]))
    rcases h e (by simp) with hp | ⟨ch, m, rfl⟩
    · rw [see_plain hp]
      rcases ih' v with g | ⟨⟨ch, m, g⟩, g'⟩
      · exact .inl g
      · exact .inr ⟨⟨ch, m, by simp [g]⟩, g'⟩
    · refine .inr ⟨⟨ch, m, by simp⟩, ?_⟩
      rcases ih' (v.see c (.send ch .resizeRect m)) with g | ⟨-, g⟩
      · rw [g]; rfl
      · rw [g]; rfl

/-- a frame is painted -/
theorem sendFrame_sees {f : Frame} {s : St} (h : Sees c px py l v₀ s) (hr : s.cl.st = .ready)
    (hd : .encodeDone f ∈ s.log) : Sees c px py l v₀ (sendFrame f s) := by
  obtain ⟨-, -, ⟨kw, kh, dm, h3, h4⟩, es', h5, h5'⟩ := sendFrame_frame f s
  have hgrow : ∃ q, (sendFrame f s).cl.damage = s.cl.damage ++ q := by
    rw [h3]
    rcases h4 with h4 | ⟨q, h4⟩
    · exact ⟨[], by simp [h4]⟩
    · exact ⟨_, h4⟩
  have hst : (sendFrame f s).cl.st = s.cl.st := by rw [h3]
  have hclosed : (sendFrame f s).cl.closed = s.cl.closed := by rw [h3]
  have hfreed : (sendFrame f s).cl.freed = s.cl.freed := by rw [h3]
  have henc : (sendFrame f s).cl.encoding = s.cl.encoding := by rw [h3]
  have hout : Out s → Out (sendFrame f s) := by unfold Out; rw [hclosed, hfreed]; exact id
  by_cases hc : s.cl.closed = true
  · refine h.keep hst hout ⟨[], ?_, by simp⟩ hgrow henc
    cases es' with
    | nil => exact h5
    | cons e es =>
      have := (h5' e (by simp)).1
      rw [hc] at this; cases this
  · have hc : s.cl.closed = false := by simpa using hc
    clear h3 h4 h5 h5'
    obtain ⟨pre, p1, p2, p3⟩ := sendFrame_parts f hc
    obtain ⟨es, h1, h2⟩ := h
    refine ⟨_, by rw [p1, h1, List.append_assoc], ?_⟩
    rw [List.foldl_append, List.foldl_append]
    generalize es.foldl (Viewer.see c) v₀ = v at h2
    refine ⟨fun hn => absurd (hst.trans hr) hn, ?_⟩
    have hsee := see_around (c := c) p2 v
    have hlost : (pre.foldl (Viewer.see c) v).lost = v.lost := by
      rcases hsee with g | ⟨-, g⟩ <;> rw [g]
    have hfr : (pre.foldl (Viewer.see c) v).frame = v.frame := by
      rcases hsee with g | ⟨-, g⟩ <;> rw [g]
    have hsc : (pre.foldl (Viewer.see c) v).screen = v.screen ∨
        ((pre.foldl (Viewer.see c) v).screen = (fun _ _ => none) ∧
          (sendFrame f s).cl.damage = s.cl.damage ++ [⟨0, 0, f.w % 65536, f.h % 65536⟩]) := by
      rcases hsee with g | ⟨g', g⟩
      · exact .inl (by rw [g])
      · exact .inr ⟨by rw [g], p3 g'⟩
    generalize pre.foldl (Viewer.see c) v = v1 at hlost hfr hsc
    rcases h2.right with g | g | g | g | g
    · exact .inl (hout g)
    · exact .inr (.inl (by show v1.lost = true; rw [hlost]; exact g))
    · exact .inr (.inr (.inl (by rw [p1]; exact List.mem_append_left _ g)))
    · exact .inr (.inr (.inr (.inl fun hf => g (fits_of_append (by rwa [← p1])))))
    obtain ⟨q, hq⟩ := hgrow
    have grow : s.cl.damage.Has px py → (sendFrame f s).cl.damage.Has px py := fun g => by
      rw [hq]; exact Has.append g
    by_cases hfit : Fits (sendFrame f s).log px py
    · refine .inr (.inr (.inr (.inr ⟨fun a ha => ?_, (fun r k hf => nomatch hf), nofun, fun ha => ?_⟩)))
      · have ha : paint v1.frame v1.screen px py = some a := ha
        rw [hfr] at ha
        unfold paint at ha
        have old : v1.screen px py = some a → ¬ v.Covers px py → a = c px py ∨
            (sendFrame f s).cl.damage.Has px py := by
          intro h hn
          rcases hsc with hsc | ⟨hsc, -⟩
          · rw [hsc] at h
            rcases g.shown a h with g | g | g
            · exact .inl g
            · exact .inr (grow g)
            · exact absurd g hn
          · rw [hsc] at h; cases h
        split at ha
        · rename_i hn
          rcases old ha (by rintro ⟨r, k, h, -⟩; rw [hn] at h; cases h) with o | o
          · exact .inl o
          · exact .inr (.inl o)
        · rename_i r k hn
          rcases ite_cases ha with ⟨hh, ha⟩ | ⟨hh, ha⟩
          · injection ha with ha
            rcases g.fresh r k hn with o | o
            · exact .inl (ha ▸ o)
            · exact .inr (.inl (grow o))
          · rcases old ha (by
                rintro ⟨r', k', h, hh'⟩; rw [hn] at h
                injection h with h; injection h with h _; subst h; exact hh hh') with o | o
            · exact .inl o
            · exact .inr (.inl o)
      · have ha : Asked s.log px py := by
          rw [p1] at ha
          obtain ⟨x, y, w, k, hm, hh⟩ := ha
          refine ⟨x, y, w, k, ?_, hh⟩
          rcases List.mem_append.1 hm with hm | hm
          · exact hm
          rcases List.mem_append.1 hm with hm | hm
          · rcases p2 _ hm with h | ⟨_, _, h⟩ <;> cases h
          · simp at hm
        by_cases hcov : v.Covers px py
        · refine .inl ?_
          show paint v1.frame v1.screen px py ≠ none
          obtain ⟨r, k, hk, hh⟩ := hcov
          rw [hfr, hk]
          unfold paint
          dsimp only
          rw [if_pos hh]
          exact nofun
        · rcases g.asked ha with o | o | o
          · rcases hsc with hsc | ⟨-, hsc⟩
            · refine .inl ?_
              show paint v1.frame v1.screen px py ≠ none
              rw [hsc]
              unfold paint
              split
              · exact o
              · split
                · exact nofun
                · exact o
            · refine .inr (.inl ?_)
              rw [hsc]
              obtain ⟨b1, b2⟩ := hfit.2 f (by rw [p1]; exact List.mem_append_left _ hd)
              exact ⟨_, List.mem_append_right _ (List.mem_singleton.2 rfl), Nat.zero_le _, by simpa using b1,
                Nat.zero_le _, by simpa using b2⟩
          · exact .inr (.inl (grow o))
          · exact absurd o hcov
    · exact .inr (.inr (.inr (.inl hfit)))

/-! ## Micro steps -/

theorem SimpleEff.plain {s e} (h : SimpleEff s e) : e.plain = true := by
  cases h with
  | send k b _ hk => cases k <;> first | rfl | cases hk
  | _ => rfl

theorem HsEff.plain {b e} (h : HsEff b e) : e.plain = true := by
  cases h with
  | send ch k m hk => cases b <;> cases k <;> first | rfl | cases hk
  | _ => rfl

theorem streamClose_sees {s : St} (h : Sees c px py l v₀ s) : Sees c px py l v₀ (streamClose s) := by
  obtain ⟨-, -, -, es, h4, h5⟩ := streamClose_frame (b := .error) s
  have hk : (streamClose s).cl.st = s.cl.st ∧ (streamClose s).cl.damage = s.cl.damage ∧
      (streamClose s).cl.encoding = s.cl.encoding := by
    unfold streamClose
    split
    · exact ⟨rfl, rfl, rfl⟩
    · dsimp only; split <;> exact ⟨rfl, rfl, rfl⟩
  exact h.keep hk.1 (fun _ => .inl (streamClose_closed s)) ⟨es, h4, fun e he => (h5 e he).plain⟩
    ⟨[], by rw [hk.2.1, List.append_nil]⟩ hk.2.2

theorem micro_sees {lp s s'} (hm : Micro lp table s s') (h : Sees c px py l v₀ s) :
    Sees c px py l v₀ s' := by
  have same : ∀ {t u : St}, Sees c px py l v₀ t → u.cl.st = t.cl.st → u.cl.closed = t.cl.closed →
      u.cl.freed = t.cl.freed → u.cl.damage = t.cl.damage → u.cl.encoding = t.cl.encoding →
      (∃ es, u.log = t.log ++ es ∧ ∀ e ∈ es, e.plain = true) → Sees c px py l v₀ u := by
    intro t u ht h1 h2 h3 h4 h5 h6
    exact ht.keep h1 (by unfold Out; rw [h2, h3]; exact id) h6 ⟨[], by rw [h4, List.append_nil]⟩ h5
  have hs : ∀ (k b) (t : St), Sees c px py l v₀ t → (∀ ch, (Eff.send ch k b).plain = true) →
      Sees c px py l v₀ (send k b t) := by
    intro k b t ht hk
    refine same ht (by simp) (by simp) (by simp) (by simp) (by simp) ?_
    rw [send_log]
    split
    · exact ⟨[], by simp, by simp⟩
    · exact ⟨_, rfl, by simpa using hk _⟩
  have one : ∀ {l' : List Eff} {e : Eff}, e.plain = true → ∃ es, l' ++ [e] = l' ++ es ∧ ∀ e ∈ es, e.plain = true :=
    fun he => ⟨_, rfl, by simpa using he⟩
  have none : ∀ {l' : List Eff}, ∃ es, l' = l' ++ es ∧ ∀ e ∈ es, e.plain = true := ⟨[], by simp, by simp⟩
  have free : ∀ t : St, Sees c px py l v₀ t → Sees c px py l v₀ (freeClient t) := by
    intro t ht
    obtain ⟨h1, h2, -, -⟩ := freeClient_frame t
    exact (streamClose_sees ht).keep (by rw [h1]) (fun _ => .inr (by rw [h1])) ⟨[], by simp [h2], by simp⟩
      ⟨[], by rw [h1]; simp⟩ (by rw [h1])
  cases hm with
  | fenceOut => exact hs _ _ _ h fun _ => rfl
  | pfFire => exact hs _ _ _ (same h rfl rfl rfl rfl rfl none) fun _ => rfl
  | ext =>
    obtain ⟨-, -, h3, h4⟩ := sendExtSupport_frame (s.upd fun k => { k with extNotified := true })
    refine same h (by rw [h3]; rfl) (by rw [h3]; rfl) (by rw [h3]; rfl) (by rw [h3]; rfl) (by rw [h3]; rfl) ?_
    rcases h4 with h4 | ⟨-, b, h4⟩
    · exact ⟨[], by rw [h4]; simp, by simp⟩
    · exact ⟨_, h4, by simp [Eff.plain]⟩
  | cursor env =>
    obtain ⟨-, -, ⟨_, h3⟩, h4⟩ := sendCursor_frame env s
    refine same h (by rw [h3]) (by rw [h3]) (by rw [h3]) (by rw [h3]) (by rw [h3]) ?_
    rcases h4 with h4 | ⟨-, b, h4⟩
    · exact ⟨[], by rw [h4]; simp, by simp⟩
    · exact ⟨_, h4, by simp [Eff.plain]⟩
  | led =>
    obtain ⟨-, -, ⟨_, h3⟩, h4⟩ := sendLed_frame s
    refine same h (by rw [h3]) (by rw [h3]) (by rw [h3]) (by rw [h3]) (by rw [h3]) ?_
    rcases h4 with h4 | ⟨-, b, h4⟩
    · exact ⟨[], by rw [h4]; simp, by simp⟩
    · exact ⟨_, h4, by simp [Eff.plain]⟩
  | frame env fb hr e => exact stageFrame_sees h hr e
  | sendFrame f hr hd => exact sendFrame_sees h hr (List.mem_of_getLast? hd)
  | hs env r a h1 h2 =>
    obtain ⟨-, -, ⟨_, _, _, _, _, _, _, _, _, _, _, h3⟩, es, h4, h5⟩ := hs_frame h1 h2
    have h5 : ∀ e ∈ es, e.plain = true := fun e he => (h5 e he).plain
    obtain ⟨fs, g1, g2⟩ := h
    have early := g2.early h1
    refine ⟨fs ++ es, by rw [h4, g1, List.append_assoc], ?_⟩
    rw [List.foldl_append, see_all h5]
    have : _ ∧ _ ∧ ¬ Asked s'.log px py :=
      ⟨early.1, early.2.1, fun ha => early.2.2 (asked_append h5 (by rwa [← h4]))⟩
    exact ⟨fun _ => this, .inr (.inr (.inr (.inr (.early this))))⟩
  | simple env a h1 h2 =>
    obtain ⟨-, -, ⟨_, _, _, _, _, _, _, _, _, h3⟩, es, h4, h5⟩ := h2.frame
    exact same h (by rw [h3]) (by rw [h3]) (by rw [h3]) (by rw [h3]) (by rw [h3])
      ⟨es, h4, fun e he => (h5 e he).plain⟩
  | fbReq inc r hr =>
    obtain ⟨-, -, ⟨kw, kh, h3⟩, h4⟩ := fbReqPre_frame inc r s
    obtain ⟨fs, g1, g2⟩ := h
    have c1 : (fbReqPre inc r s).cl.st = .ready := by rw [h3]; exact hr
    have c2 : (fbReqPre inc r s).cl.closed = s.cl.closed := by rw [h3]
    have c3 : (fbReqPre inc r s).cl.freed = s.cl.freed := by rw [h3]
    have c4 : (fbReqPre inc r s).cl.damage = if inc then s.cl.damage else s.cl.damage ++ [r] := by rw [h3]
    have c5 : (fbReqPre inc r s).cl.encoding = s.cl.encoding := by rw [h3]
    have grow : s.cl.damage.Has px py → (fbReqPre inc r s).cl.damage.Has px py := fun g => by
      rw [c4]
      split
      · exact g
      · exact Has.append g
    refine ⟨_, by rw [h4, g1, List.append_assoc], ?_⟩
    rw [List.foldl_append]
    generalize fs.foldl (Viewer.see c) v₀ = v at g2
    refine ⟨fun hn => absurd c1 hn, ?_⟩
    rcases g2.right with g | g | g | g | g
    · exact .inl (by unfold Out; rw [c2, c3]; exact g)
    · exact .inr (.inl g)
    · exact .inr (.inr (.inl (by rw [h4]; exact List.mem_append_left _ g)))
    · exact .inr (.inr (.inr (.inl fun hf => g (fits_of_append (by rwa [← h4])))))
    · refine .inr (.inr (.inr (.inr ⟨fun a ha => ?_, fun r k hf => ?_, fun hf => ?_, fun ha => ?_⟩)))
      · rcases g.shown a ha with g | g | g
        · exact .inl g
        · exact .inr (.inl (grow g))
        · exact .inr (.inr g)
      · rcases g.fresh r k hf with g | g
        · exact .inl g
        · exact .inr (grow g)
      · rw [c5]; exact g.going hf
      · rw [h4] at ha
        obtain ⟨x, y, w, k, hm, hh⟩ := ha
        rcases List.mem_append.1 hm with hm | hm
        · rcases g.asked ⟨x, y, w, k, hm, hh⟩ with g | g | g
          · exact .inl g
          · exact .inr (.inl (grow g))
          · exact .inr (.inr g)
        · rw [List.mem_singleton] at hm
          injection hm with a0 a1 a2 a3 a4
          refine .inr (.inl ?_)
          rw [c4, ← a0]
          obtain ⟨q, hq, hh⟩ := hh
          rw [List.mem_singleton] at hq
          subst hq
          refine ⟨r, by simp, ?_⟩
          rw [← a1, ← a2, ← a3, ← a4]
          exact hh
  | contOn => exact same h rfl rfl rfl rfl rfl (one rfl)
  | contOff =>
    exact hs _ _ _ (same h rfl rfl rfl rfl rfl none) fun _ => rfl
  | fenceReq flags payload h1 hp h2 =>
    obtain ⟨-, -, ⟨_, _, _, _, _, h3⟩, h4⟩ := fenceSeen_frame h2
    refine same h (by rw [h3]) (by rw [h3]) (by rw [h3]) (by rw [h3]) (by rw [h3]) ?_
    rcases h4 with h4 | h4 | ⟨-, b, h4⟩ <;> exact ⟨_, h4, by simp [Eff.plain]⟩
  | consume => exact same h rfl rfl rfl rfl rfl (one rfl)
  | bigCut env c d hr hc h1 h2 =>
    obtain ⟨-, -, ⟨_, _, _, _, _, _, _, _, _, h3⟩, es, h4, h5⟩ := bigCutText_frame h2
    exact same h (by rw [h3]) (by rw [h3]) (by rw [h3]) (by rw [h3]) (by rw [h3])
      ⟨es, h4, fun e he => (h5 e he).plain⟩
  | remoteClosed =>
    unfold remoteClosed deferClose
    exact same (streamClose_sees h) rfl rfl rfl rfl rfl (one rfl)
  | flushed => exact streamClose_sees h
  | free hl h1 => exact free s h
  | idle hl h1 h2 => exact free _ (same h rfl rfl rfl rfl rfl none)
  | encoded f hr he =>
    obtain ⟨fs, g1, g2⟩ := h
    refine ⟨fs ++ [.encodeDone f], by show s.log ++ _ = _; rw [g1, List.append_assoc], ?_⟩
    rw [List.foldl_append]
    generalize fs.foldl (Viewer.see c) v₀ = v at g2
    refine ⟨fun hn => absurd hr hn, ?_⟩
    rcases g2.right with g | g | g | g | g
    · exact .inl g
    · exact .inr (.inl g)
    · exact .inr (.inr (.inl (List.mem_append_left _ g)))
    · exact .inr (.inr (.inr (.inl fun hf => g (fits_of_append hf))))
    · have cover : v.Covers px py → (v.see c (.encodeDone f)).Covers px py := by
        rintro ⟨r, k, a1, a2⟩
        refine ⟨r ++ v.wide f, k, ?_, Has.append a2⟩
        show v.frame.map _ = _
        rw [a1]; rfl
      refine .inr (.inr (.inr (.inr ⟨fun a ha => ?_, fun r k hf => ?_, fun _ => .inr rfl, fun ha => ?_⟩)))
      · rcases g.shown a ha with g | g | g
        · exact .inl g
        · exact .inr (.inl g)
        · exact .inr (.inr (cover g))
      · obtain ⟨q, a1, a2⟩ := Option.map_eq_some_iff.1 (show v.frame.map _ = _ from hf)
        cases a2
        exact g.fresh _ _ a1
      · obtain ⟨x, y, w, k, hm, hh⟩ := ha
        rcases g.asked ⟨x, y, w, k, by
          rcases List.mem_append.1 hm with hm | hm
          · exact hm
          · simp at hm, hh⟩ with g | g | g
        · exact .inl g
        · exact .inr (.inl g)
        · exact .inr (.inr (cover g))
  | setLed => exact same h rfl rfl rfl rfl rfl (one rfl)
  | damage r =>
    exact h.keep rfl id (one rfl) ⟨r, rfl⟩ rfl
  | _ => exact same h rfl rfl rfl rfl rfl none

/-! ## Events -/

theorem Good.recolour {c' : Pic α} {v : Viewer α} {s : St} (h : Good c px py v s)
    (hc : c' px py = c px py) : Good c' px py v s := by
  refine ⟨h.early, ?_⟩
  rcases h.right with g | g | g | g | g
  · exact .inl g
  · exact .inr (.inl g)
  · exact .inr (.inr (.inl g))
  · exact .inr (.inr (.inr (.inl g)))
  · exact .inr (.inr (.inr (.inr ⟨by rw [hc]; exact g.shown, by rw [hc]; exact g.fresh, g.going, g.asked⟩)))

theorem sees_start {v : Viewer α} {s : St} (h : Good c px py v s) : Sees c px py s.log v s :=
  ⟨[], by simp, h⟩

theorem Sees.good {s s' : St} {v : Viewer α} (h : Sees c px py s.log v s') :
    Good c px py ((s'.log.drop s.log.length).foldl (Viewer.see c) v) s' := by
  obtain ⟨es, h1, h2⟩ := h
  rw [h1, List.drop_left]
  exact h2

/-- one event -/
theorem step_good {c' : Pic α} {v : Viewer α} {o : Op} {env : Env} {net : List Read} {s s' : St}
    (hb : Base s) (h : Good c px py v s)
    (hh : c' px py ≠ c px py → ∃ r, o = .damage r ∧ r.Has px py)
    (e : step table o env net s = .ok s') :
    Base s' ∧ Good c' px py ((s'.log.drop s.log.length).foldl (Viewer.see c') v) s' := by
  have key : ∀ t t', Micro true table t t' → Base t → Sees c' px py s.log v t → Sees c' px py s.log v t' :=
    fun _ _ hm _ h => micro_sees hm h
  have fin : Base s' ∧ Sees c' px py s.log v s' → Base s' ∧
      Good c' px py ((s'.log.drop s.log.length).foldl (Viewer.see c') v) s' := fun h => ⟨h.1, h.2.good⟩
  -- with nothing to be shown, or with the colour unchanged, the event is like any other
  have plain : Good c' px py v s → Base s' ∧
      Good c' px py ((s'.log.drop s.log.length).foldl (Viewer.see c') v) s' :=
    fun h => fin (step_inv key hb (sees_start h) e)
  by_cases hc : c' px py = c px py
  · exact plain (h.recolour hc)
  obtain ⟨r, rfl, hp⟩ := hh hc
  by_cases hst : ¬ s.cl.st = .ready
  · exact plain ⟨h.early, .inr (.inr (.inr (.inr (.early (h.early hst)))))⟩
  have hst : s.cl.st = .ready := Classical.not_not.1 hst
  by_cases hcl : s.cl.closed = true
  · exact plain ⟨h.early, .inl (.inl hcl)⟩
  by_cases hf : s.cl.freed = true
  · exact plain ⟨h.early, .inl (.inr hf)⟩
  have hcl : s.cl.closed = false := by simpa using hcl
  have hf : s.cl.freed = false := by simpa using hf
  have hk : ∀ t t', Micro true table t t' → (Base t ∧ Sees c' px py s.log v t) →
      (Base t' ∧ Sees c' px py s.log v t') := fun _ _ hm ht => ⟨micro_base hm ht.1, key _ _ hm ht.1 ht.2⟩
  refine fin ?_
  unfold step event at e
  rw [if_neg (by show ¬ s.cl.freed = true; rw [hf]; decide)] at e
  dsimp only at e
  rw [if_neg (by show ¬ s.cl.closed = true; rw [hcl]; decide)] at e
  have hu : Base (emit (.damaged r) (St.upd { s with net := net } fun k =>
      { k with damage := k.damage ++ r })) ∧ Sees c' px py s.log v (emit (.damaged r)
        (St.upd { s with net := net } fun k => { k with damage := k.damage ++ r })) := by
    refine ⟨micro_base (wd := true) (table := table) (.damage (lp := true) { s with net := net } r hcl)
      (micro_base (wd := true) (table := table) (.net (lp := true) s net) hb), [.damaged r], rfl, ?_⟩
    have hd : Region.Has (s.cl.damage ++ r) px py := by
      obtain ⟨q, hq, hp⟩ := hp
      exact ⟨q, List.mem_append_right _ hq, hp⟩
    refine ⟨fun hn => absurd hst hn, ?_⟩
    rcases h.right with g | g | g | g | g
    · exact .inl g
    · exact .inr (.inl g)
    · exact .inr (.inr (.inl (List.mem_append_left _ g)))
    · exact .inr (.inr (.inr (.inl fun hf => g (fits_of_append hf))))
    · exact .inr (.inr (.inr (.inr ⟨fun a _ => .inr (.inl hd), fun _ _ _ => .inr hd, g.going,
        fun _ => .inr (.inl hd)⟩)))
  have hfu : (emit (.damaged r) (St.upd { s with net := net } fun k =>
      { k with damage := k.damage ++ r })).cl.freed = false := hf
  have hsu : (emit (.damaged r) (St.upd { s with net := net } fun k =>
      { k with damage := k.damage ++ r })).cl.st = .ready := hst
  generalize emit (.damaged r) (St.upd { s with net := net } fun k =>
    { k with damage := k.damage ++ r }) = u at e hu hfu hsu
  exact (processFb_inv (fun _ h => h.2.2) (micro_alive hk) (reenterTop_keeps hk) ⟨hu, hfu, hsu⟩ e).1

/-! ## Runs -/

theorem Good.settle {v : Viewer α} {s : St} (h : Good c px py v s) : Good c px py v.settle s := by
  refine ⟨h.early, ?_⟩
  rcases h.right with g | g | g | g | g
  · exact .inl g
  · refine .inr (.inl ?_)
    show (v.lost || v.done) = true
    rw [g]; rfl
  · exact .inr (.inr (.inl g))
  · exact .inr (.inr (.inr (.inl g)))
  · exact .inr (.inr (.inr (.inr ⟨g.shown, g.fresh, g.going, g.asked⟩)))

theorem watch_run : ∀ (ops : List ((Op × Env × List Read) × Pic α)) {s : St} {v : Viewer α} {r},
    watch table ops s v = .ok r → run table (ops.map (·.1)) s = .ok r.1
  | [], s, v, r, e => by cases e; rfl
  | ((o, env, net), c) :: ops, s, v, r, e => by
    obtain ⟨t, ht, e'⟩ := Outcome.bind_eq_ok.1 e
    exact Outcome.bind_eq_ok.2 ⟨t, ht, watch_run ops e'⟩

theorem watch_good : ∀ (ops : List ((Op × Env × List Read) × Pic α)) {c : Pic α} {s s' : St} {v v' : Viewer α},
    Honest c ops → Base s → Good c px py v s → (v.done = true → v.lost = true) →
    watch table ops s v = .ok (s', v') → Good (final c ops) px py v' s' ∧ (v'.done = true → v'.lost = true)
  | [], c, s, s', v, v', _, _, h, hd, e => by
    cases e; exact ⟨h, hd⟩
  | ((o, env, net), c') :: ops, c, s, s', v, v', hh, hb, h, hd, e => by
    obtain ⟨t, ht, e'⟩ := Outcome.bind_eq_ok.1 e
    obtain ⟨g1, g2⟩ := step_good hb h (hh.1 px py) ht
    refine watch_good ops hh.2 g1 g2.settle ?_ e'
    generalize List.foldl (Viewer.see c') v _ = w
    intro hw
    have hw : w.done = true := hw
    show (w.lost || w.done) = true
    rw [hw, Bool.or_true]

theorem start_good (srv : Srv) (c : Pic α) (w : Frame → Region) : Good c px py { wide := w } (start srv) := by
  have : ({ wide := w } : Viewer α).frame = none ∧ ({ wide := w } : Viewer α).screen px py = none ∧ ¬ Asked (start srv).log px py :=
    ⟨rfl, rfl, by rintro ⟨_, _, _, _, hm, -⟩; simp [start] at hm⟩
  exact ⟨fun _ => this, .inr (.inr (.inr (.inr (.early this))))⟩

/-- C97: whatever happens, a pixel on the screen of a connected client has the colour that the application
displays there, unless the pixel is in the damage that is still to be sent or a frame is in the encoder.
Moreover, a pixel the client asked for is then on the screen.

Missing: frames that get lost (see `c97_lost_violated` and `c23_one_frame_violated`), encoders that refuse
a frame (`c24_damage_violated`), buffers that do not have the pixel. -/
theorem c97_shown_partial {srv : Srv} {ops : List ((Op × Env × List Read) × Pic α)} {c₀ : Pic α} {s : St}
    {v : Viewer α} {w : Frame → Region} (e : watch table ops (start srv) { wide := w } = .ok (s, v)) (hh : Honest c₀ ops)
    (hc : s.cl.closed = false) (hf : s.cl.freed = false) (hl : v.lost = false) (hok : .encodeFail ∉ s.log)
    (hin : Fits s.log px py) (he : s.cl.encoding = false) (hd : ¬ s.cl.damage.Has px py) :
    (∀ a, v.screen px py = some a → a = final c₀ ops px py) ∧
    (Asked s.log px py → v.screen px py = some (final c₀ ops px py)) := by
  obtain ⟨h1, h2⟩ := watch_good (px := px) (py := py) ops hh (start_base srv) (start_good srv c₀ w)
    nofun e
  have hdone : v.done = false := by
    cases h : v.done with
    | false => rfl
    | true => rw [h2 h] at hl; cases hl
  have g : Right (final c₀ ops) px py v s := by
    rcases h1.right with g | g | g | g | g
    · rcases g with g | g
      · rw [hc] at g; cases g
      · rw [hf] at g; cases g
    · rw [hl] at g; cases g
    · exact absurd g hok
    · exact absurd hin g
    · exact g
  have hno : ¬ v.Covers px py := by
    rintro ⟨r, k, hk, -⟩
    rcases g.going (by rw [hk]; rfl) with h | h
    · rw [he] at h; cases h
    · rw [hdone] at h; cases h
  have shown : ∀ a, v.screen px py = some a → a = final c₀ ops px py := by
    intro a ha
    rcases g.shown a ha with g | g | g
    · exact g
    · exact absurd g hd
    · exact absurd g hno
  refine ⟨shown, fun ha => ?_⟩
  rcases g.asked ha with g | g | g
  · cases hs : v.screen px py with
    | none => exact absurd hs g
    | some a => rw [shown a hs]
  · exact absurd g hd
  · exact absurd g hno

/-- C97, the whole screen: when a connected client waits for an update and the server is not busy with one,
every pixel the client has asked for shows what the application displays.  There is nothing left to send.

Missing: as for `c97_shown_partial`; nested reads that find more messages, continuous updates that are
turned on or off (see `c77_off_violated` and `c77_outside_violated`). -/
theorem c97_current_partial {srv : Srv} {ops : List ((Op × Env × List Read) × Pic α)} {c₀ : Pic α} {s : St}
    {v : Viewer α} {w : Frame → Region} (e : watch table ops (start srv) { wide := w } = .ok (s, v)) (hh : Honest c₀ ops)
    (hq : ∀ o ∈ ops, o.1.2.2 = [] ∧ Ample o.1.2.1) (hd : Shown (ops.map (·.1)))
    (hc : s.cl.closed = false) (hf : s.cl.freed = false) (hl : v.lost = false) (hok : .encodeFail ∉ s.log)
    (hfb : s.srv.fb ≠ none) (hwait : s.cl.nPending ≠ 0) (hcont : s.cl.cont = false)
    (hoff : ¬ TurnedOff s.log) (hidle : s.cl.isUpdating = false)
    (hin : Fits s.log px py) (ha : Asked s.log px py) :
    v.screen px py = some (final c₀ ops px py) := by
  have hr := watch_run ops e
  have hq1 : ∀ o ∈ ops.map (·.1), o.2.2 = [] := by
    intro o ho
    obtain ⟨x, hx, rfl⟩ := List.mem_map.1 ho
    exact (hq x hx).1
  have hq2 : ∀ o ∈ ops.map (·.1), Ample o.2.1 := by
    intro o ho
    obtain ⟨x, hx, rfl⟩ := List.mem_map.1 ho
    exact (hq x hx).2
  have hbal := run_balanced _ hq1 (start_balanced srv) hr
  have henc : s.cl.encoding = false := by
    cases h : s.cl.encoding with
    | false => rfl
    | true => have := (hbal.enc h).1; rw [hidle] at this; cases this
  refine (c97_shown_partial e hh hc hf hl hok hin henc fun hdm => ?_).2 ha
  have : s.cl.isUpdating = true := c77_served_partial hq1 hq2 hd hr
    ⟨hc, hfb, hf, .inr hwait, px, py, hdm, fun h => by rw [hcont] at h; cases h⟩ hoff
  rw [hidle] at this; cases this

/-! ## Runs -/

/-- a blank picture, and the same with something in one place -/
def blank : Pic Nat := fun _ _ => 0

def dotted : Pic Nat := fun px py => if px = 1 ∧ py = 2 then 1 else 0

/-- a client enters and asks for the screen; while the frame is in the encoder, the application puts a dot
in it; the client asks for more -/
def dotOps : List ((Op × Env × List Read) × Pic Nat) :=
  (enter [0] ++ [reads fullReq]).map (·, blank) ++
  [((.damage [⟨1, 2, 1, 1⟩], cursorEnv, []), dotted), ((.encoded demoFrame, cursorEnv, []), dotted),
   (reads (Msg.fbRequest 1 ⟨0, 0, 4, 3⟩).wire, dotted), ((.written, cursorEnv, []), dotted)]

/-- the second frame is sent, and the client asks once more -/
def dotOps' : List ((Op × Env × List Read) × Pic Nat) :=
  [((.encoded demoFrame, cursorEnv, []), dotted), ((.written, cursorEnv, []), dotted),
   (reads (Msg.fbRequest 1 ⟨0, 0, 4, 3⟩).wire, dotted)]

theorem honest_same {c : Pic α} {ops : List (Op × Env × List Read)} {rest} (h : Honest c rest) :
    Honest c (ops.map (·, c) ++ rest) := by
  induction ops with
  | nil => exact h
  | cons o ops ih => exact ⟨fun _ _ hn => absurd rfl hn, ih⟩

theorem dot_honest : Honest blank (dotOps ++ dotOps') := by
  unfold dotOps
  rw [List.append_assoc]
  refine honest_same ⟨fun px py hn => ?_, ?_⟩
  · refine ⟨_, rfl, _, List.mem_singleton.2 rfl, ?_⟩
    unfold dotted blank at hn
    split at hn
    · dsimp only; omega
    · exact absurd rfl hn
  · exact honest_same (ops := [(.encoded demoFrame, cursorEnv, []), reads (Msg.fbRequest 1 ⟨0, 0, 4, 3⟩).wire,
      (.written, cursorEnv, []), (.encoded demoFrame, cursorEnv, []), (.written, cursorEnv, []),
      reads (Msg.fbRequest 1 ⟨0, 0, 4, 3⟩).wire]) (rest := []) trivial

def watchCheck (ops : List ((Op × Env × List Read) × Pic Nat)) (f : St → Viewer Nat → Bool) : Bool :=
  match watch [] ops (start demoSrv) {} with
  | .ok (s, v) => f s v
  | _ => false

theorem watchCheck_iff {ops f} : watchCheck ops f = true ↔
    ∃ s v, watch [] ops (start demoSrv) {} = .ok (s, v) ∧ f s v = true := by
  unfold watchCheck
  constructor
  · intro h
    split at h
    · rename_i s v he; exact ⟨s, v, he, h⟩
    · cases h
  · rintro ⟨s, v, h, hf⟩
    rw [h]; exact hf

instance (log : List Eff) (px py : Nat) : Decidable (Asked log px py) :=
  decidable_of_iff (log.any (fun
      | .fbReq false x y w h => decide (Region.Has [⟨x, y, w, h⟩] px py)
      | _ => false) = true) <| by
    rw [List.any_eq_true]
    constructor
    · rintro ⟨e, he, h⟩
      split at h
      · exact ⟨_, _, _, _, he, of_decide_eq_true h⟩
      · cases h
    · rintro ⟨x, y, w, h, he, hh⟩
      exact ⟨_, he, decide_eq_true hh⟩

instance (log : List Eff) (px py : Nat) : Decidable (Fits log px py) :=
  decidable_of_iff (log.all (fun
      | .encode _ j _ _ => decide (px < j.fb.w ∧ py < j.fb.h)
      | .encodeDone f => decide (px < f.w % 65536 ∧ py < f.h % 65536)
      | _ => true) = true) <| by
    rw [List.all_eq_true]
    constructor
    · intro h
      exact ⟨fun e j f q he => of_decide_eq_true (h _ he), fun f he => of_decide_eq_true (h _ he)⟩
    · rintro ⟨h1, h2⟩ e he
      split
      · exact decide_eq_true (h1 _ _ _ _ he)
      · exact decide_eq_true (h2 _ he)
      · rfl

/-- in the run above the client sees the old picture first: the dot is in the next frame, which is in the
encoder; and then the new one, with the dot -/
example : watchCheck dotOps (fun s v => s.cl.encoding && decide (Asked s.log 1 2) &&
      v.screen 1 2 == some 0) = true ∧
    watchCheck (dotOps ++ dotOps') (fun s v => !s.cl.closed && !s.cl.freed && !v.lost &&
      !s.log.contains .encodeFail && !s.cl.encoding && !s.cl.isUpdating && s.cl.nPending == 1 && !s.cl.cont &&
      decide (¬ s.cl.damage.Has 1 2) && decide (Fits s.log 1 2) && decide (Asked s.log 1 2) &&
      v.screen 1 2 == some 1 && v.screen 3 0 == some 0) = true := by decide +kernel

/-- the conditions of `c97_current_partial` on the run, which is `c97_current_partial`'s as a whole -/
example : (∀ o ∈ dotOps ++ dotOps', o.1.2.2 = [] ∧ Ample o.1.2.1) ∧ Shown ((dotOps ++ dotOps').map (·.1)) ∧
    Honest blank (dotOps ++ dotOps') ∧ final blank (dotOps ++ dotOps') 1 2 = 1 := by
  refine ⟨?_, trivial, dot_honest, rfl⟩
  have h : ∀ o ∈ dotOps ++ dotOps', o.1.2.2 = [] ∧ o.1.2.1 = cursorEnv := by
    simp [dotOps, dotOps', enter, reads]
  intro o ho
  rw [(h o ho).2]
  exact ⟨(h o ho).1, cursorEnv_ample⟩

/-- C97 is false: when a client that does not know fences selects its encodings while a frame is in the
encoder, the frame is thrown away with its damage (server.c 2521-2529).  The client asked for the whole
screen and waits for it; the server is not busy, has nothing left to send, and the screen is empty. -/
theorem c97_lost_violated : ∃ s v, watch [] ((enter [0] ++ [reads fullReq,
      reads (Msg.setEncodings 0 [0, -223]).wire, (.encoded demoFrame, cursorEnv, [])]).map (·, blank))
      (start demoSrv) {} = .ok (s, v) ∧
    s.cl.closed = false ∧ s.cl.freed = false ∧ s.cl.encoding = false ∧ s.cl.isUpdating = false ∧
    s.cl.nPending = 1 ∧ s.cl.damage = [] ∧ .encodeFail ∉ s.log ∧ Fits s.log 1 2 ∧ Asked s.log 1 2 ∧
    v.screen 1 2 = none := by
  obtain ⟨s, v, h1, h2⟩ := watchCheck_iff.1 (show watchCheck ((enter [0] ++ [reads fullReq,
      reads (Msg.setEncodings 0 [0, -223]).wire, (.encoded demoFrame, cursorEnv, [])]).map (·, blank))
      (fun s v => decide (s.cl.closed = false ∧ s.cl.freed = false ∧ s.cl.encoding = false ∧
        s.cl.isUpdating = false ∧ s.cl.nPending = 1 ∧ s.cl.damage = [] ∧ .encodeFail ∉ s.log ∧
        Fits s.log 1 2 ∧ Asked s.log 1 2 ∧ v.screen 1 2 = none)) = true from by decide +kernel)
  exact ⟨s, v, h1, of_decide_eq_true h2⟩

/-- Nor does a change of the picture get to the screen that an encoder refused to encode: the client keeps
the old picture, waits, and there is nothing left to send. -/
theorem c97_refused_violated : ∃ s v, watch [] (dotOps.take 7 ++
      [((.readable (.data (Msg.fbRequest 1 ⟨0, 0, 4, 3⟩).wire), cursorEnv, []), dotted),
       ((.written, { cursorEnv with encodeOk := false }, []), dotted)])
      (start demoSrv) {} = .ok (s, v) ∧
    Honest blank (dotOps.take 7 ++
      [((.readable (.data (Msg.fbRequest 1 ⟨0, 0, 4, 3⟩).wire), cursorEnv, []), dotted),
       ((.written, { cursorEnv with encodeOk := false }, []), dotted)]) ∧
    s.cl.closed = false ∧ s.cl.freed = false ∧ s.cl.encoding = false ∧ s.cl.isUpdating = false ∧
    s.cl.nPending = 1 ∧ s.cl.damage = [] ∧ v.lost = false ∧ v.screen 1 2 = some 0 ∧ dotted 1 2 = 1 := by
  obtain ⟨s, v, h1, h2⟩ := watchCheck_iff.1 (show watchCheck (dotOps.take 7 ++
      [((.readable (.data (Msg.fbRequest 1 ⟨0, 0, 4, 3⟩).wire), cursorEnv, []), dotted),
       ((.written, { cursorEnv with encodeOk := false }, []), dotted)])
      (fun s v => decide (s.cl.closed = false ∧ s.cl.freed = false ∧ s.cl.encoding = false ∧
        s.cl.isUpdating = false ∧ s.cl.nPending = 1 ∧ s.cl.damage = [] ∧ v.lost = false ∧
        v.screen 1 2 = some 0 ∧ dotted 1 2 = 1)) = true from by decide +kernel)
  refine ⟨s, v, h1, ?_, of_decide_eq_true h2⟩
  have : dotOps.take 7 = (enter [0] ++ [reads fullReq]).map (·, blank) ++
      [((.damage [⟨1, 2, 1, 1⟩], cursorEnv, []), dotted), ((.encoded demoFrame, cursorEnv, []), dotted)] := rfl
  rw [this, List.append_assoc]
  refine honest_same ⟨fun px py hn => ?_, ?_⟩
  · refine ⟨_, rfl, _, List.mem_singleton.2 rfl, ?_⟩
    unfold dotted blank at hn
    split at hn
    · dsimp only; omega
    · exact absurd rfl hn
  · exact ⟨fun _ _ hn => absurd rfl hn, fun _ _ hn => absurd rfl hn, fun _ _ hn => absurd rfl hn, trivial⟩

end Verif.Server
