import Verif.Lemmas.Encoders
import Verif.Props.Screen

/-!
# C100: the compressed streams of a connection
-/

namespace Verif.Server

variable {table : List Nat}

theorem calm_plain {e : Eff} (h : e.plain = true) : e.calm := by
  rintro a b c d rfl
  cases h

theorem streamClose_enc (s : St) : (streamClose s).cl.encoder = s.cl.encoder ∧
    (streamClose s).cl.encId = s.cl.encId ∧ (streamClose s).cl.kept = s.cl.kept ∧
    (streamClose s).cl.nEncs = s.cl.nEncs ∧
    ∃ es, (streamClose s).log = s.log ++ es ∧ ∀ x ∈ es, x.calm := by
  unfold streamClose deferClose
  split
  · exact ⟨rfl, rfl, rfl, rfl, [], by simp, by simp⟩
  · dsimp only
    split
    · exact ⟨rfl, rfl, rfl, rfl, [.deferClose], rfl, by simp [Eff.calm]⟩
    · exact ⟨rfl, rfl, rfl, rfl, [], by simp [St.upd], by simp⟩

/-- the encoders are the same -/
def SameEnc (c d : Client) : Prop :=
  d.encoder = c.encoder ∧ d.encId = c.encId ∧ d.kept = c.kept ∧ d.nEncs = c.nEncs

theorem micro_enc {lp s s'} (hm : Micro lp table s s') (hk : EncOk s) : EncOk s' := by
  have calm : ∀ {u : St}, (∃ es, u.log = s.log ++ es ∧ ∀ e ∈ es, e.calm) → SameEnc s.cl u.cl → EncOk u :=
    fun h ⟨h1, h2, h3, h4⟩ => hk.mono (.inl h1) h2 h3 h4 h
  have one : ∀ {u : St} {e : Eff}, u.log = s.log ++ [e] → (∀ a b c d, e ≠ .encode a b c d) → SameEnc s.cl u.cl →
      EncOk u := fun h he => calm ⟨_, h, fun x hx => by rw [List.mem_singleton.1 hx]; exact he⟩
  have plain : ∀ {u : St}, (∃ es, u.log = s.log ++ es ∧ ∀ e ∈ es, e.plain = true) → SameEnc s.cl u.cl → EncOk u :=
    fun ⟨es, h, he⟩ => calm ⟨es, h, fun x hx => calm_plain (he x hx)⟩
  have send : ∀ (k b) {u : St}, u.log = s.log → SameEnc s.cl u.cl → EncOk (Server.send k b u) := by
    intro k b u h1 h2
    by_cases hc : u.cl.closed = true
    · exact plain ⟨[], by rw [send_log, if_pos hc, List.append_nil, h1, List.append_nil], by simp⟩ (by simpa using h2)
    · exact one (e := .send u.cl.chan k b) (by rw [send_log, if_neg hc, h1]) (by simp) (by simpa using h2)
  have free : ∀ {u : St}, u.log = s.log → SameEnc s.cl u.cl → EncOk (freeClient u) := by
    intro u h1 h2
    obtain ⟨h3, h4, -, -⟩ := freeClient_frame u
    obtain ⟨g1, g2, g3, g4, es, g5, g6⟩ := streamClose_enc u
    exact hk.mono (.inr (by rw [h3])) (by rw [h3]; exact g2.trans h2.2.1) (by rw [h3]; exact g3.trans h2.2.2.1)
      (by rw [h3]; exact g4.trans h2.2.2.2) ⟨es, by rw [h4, g5, h1], g6⟩
  cases hm with
  | fenceOut => exact send _ _ rfl ⟨rfl, rfl, rfl, rfl⟩
  | pfFire => exact send _ _ rfl ⟨rfl, rfl, rfl, rfl⟩
  | ext =>
    obtain ⟨-, -, h3, h4⟩ := sendExtSupport_frame (s.upd fun k => { k with extNotified := true })
    rcases h4 with h4 | ⟨-, b, h4⟩
    · exact plain ⟨[], by rw [h4]; simp, by simp⟩ (by rw [h3]; exact ⟨rfl, rfl, rfl, rfl⟩)
    · exact one h4 (by simp) (by rw [h3]; exact ⟨rfl, rfl, rfl, rfl⟩)
  | cursor env =>
    obtain ⟨-, -, ⟨_, h3⟩, h4⟩ := sendCursor_frame env s
    rcases h4 with h4 | ⟨-, b, h4⟩
    · exact plain ⟨[], by rw [h4]; simp, by simp⟩ (by rw [h3]; exact ⟨rfl, rfl, rfl, rfl⟩)
    · exact one h4 (by simp) (by rw [h3]; exact ⟨rfl, rfl, rfl, rfl⟩)
  | led =>
    obtain ⟨-, -, ⟨_, h3⟩, h4⟩ := sendLed_frame s
    rcases h4 with h4 | ⟨-, b, h4⟩
    · exact plain ⟨[], by rw [h4]; simp, by simp⟩ (by rw [h3]; exact ⟨rfl, rfl, rfl, rfl⟩)
    · exact one h4 (by simp) (by rw [h3]; exact ⟨rfl, rfl, rfl, rfl⟩)
  | frame env fb hr e => exact stageFrame_ok hk e
  | sendFrame f hr hd =>
    obtain ⟨-, -, ⟨_, _, _, h3, -⟩, es, h4, h5⟩ := sendFrame_frame f s
    refine calm ⟨es, h4, fun x hx => ?_⟩ (by rw [h3]; exact ⟨rfl, rfl, rfl, rfl⟩)
    obtain ⟨-, k, b, -, rfl⟩ := h5 _ hx
    exact nofun
  | hs env r a h1 h2 =>
    obtain ⟨-, -, ⟨_, _, _, _, _, _, _, _, _, _, _, h3⟩, es, h4, h5⟩ := hs_frame h1 h2
    exact plain ⟨es, h4, fun e he => (h5 e he).plain⟩ (by rw [h3]; exact ⟨rfl, rfl, rfl, rfl⟩)
  | simple env a h1 h2 =>
    obtain ⟨-, -, ⟨_, _, _, _, _, _, _, _, _, h3⟩, es, h4, h5⟩ := h2.frame
    exact plain ⟨es, h4, fun e he => (h5 e he).plain⟩ (by rw [h3]; exact ⟨rfl, rfl, rfl, rfl⟩)
  | fbReq inc r hr =>
    obtain ⟨-, -, ⟨kw, kh, h3⟩, h4⟩ := fbReqPre_frame inc r s
    exact one h4 (by simp) (by rw [h3]; exact ⟨rfl, rfl, rfl, rfl⟩)
  | contOn => exact one rfl (by simp) ⟨rfl, rfl, rfl, rfl⟩
  | contOff => exact send _ _ rfl ⟨rfl, rfl, rfl, rfl⟩
  | fenceReq flags payload h1 hp h2 =>
    obtain ⟨-, -, ⟨_, _, _, _, _, h3⟩, h4⟩ := fenceSeen_frame h2
    rcases h4 with h4 | h4 | ⟨-, b, h4⟩ <;>
      exact plain ⟨_, h4, by simp [Eff.plain]⟩ (by rw [h3]; exact ⟨rfl, rfl, rfl, rfl⟩)
  | consume => exact one rfl (by simp) ⟨rfl, rfl, rfl, rfl⟩
  | bigCut env c d hr hc h1 h2 =>
    obtain ⟨-, -, ⟨_, _, _, _, _, _, _, _, _, h3⟩, es, h4, h5⟩ := bigCutText_frame h2
    exact plain ⟨es, h4, fun e he => (h5 e he).plain⟩ (by rw [h3]; exact ⟨rfl, rfl, rfl, rfl⟩)
  | remoteClosed =>
    unfold remoteClosed deferClose
    obtain ⟨g1, g2, g3, g4, es, g5, g6⟩ := streamClose_enc s
    refine hk.mono (.inl g1) g2 g3 g4 ⟨es ++ [.deferClose], ?_, ?_⟩
    · show (streamClose s).log ++ _ = _
      rw [g5, List.append_assoc]
    · intro x hx
      rcases List.mem_append.1 hx with hx | hx
      · exact g6 x hx
      · rw [List.mem_singleton.1 hx]; exact nofun
  | flushed =>
    obtain ⟨g1, g2, g3, g4, g5⟩ := streamClose_enc s
    exact hk.mono (.inl g1) g2 g3 g4 g5
  | free hl h1 => exact free rfl ⟨rfl, rfl, rfl, rfl⟩
  | idle hl h1 h2 => exact free rfl ⟨rfl, rfl, rfl, rfl⟩
  | encoded f hr he => exact one rfl (by simp) ⟨rfl, rfl, rfl, rfl⟩
  | setLed => exact one rfl (by simp) ⟨rfl, rfl, rfl, rfl⟩
  | damage r => exact one rfl (by simp) ⟨rfl, rfl, rfl, rfl⟩
  | _ => exact plain ⟨[], by simp [St.upd], by simp⟩ ⟨rfl, rfl, rfl, rfl⟩

theorem start_enc (srv : Srv) : EncOk (start srv) := by
  have : ∀ a b c d, Eff.encode a b c d ∉ (start srv).log := by
    intro a b c d h
    simp [start, newClient] at h
  refine ⟨fun a b c d h => absurd h (this _ _ _ _), fun a b c d h => absurd h (this _ _ _ _),
    fun a b c d _ _ _ _ h => absurd h (this _ _ _ _), ?_, ?_, ?_, ?_⟩
  · intro e i h; cases h
  · intro e i h; cases h
  · intro e h; cases h
  · intro a b e j p q h
    exact absurd (by rw [h]; simp) (this e j p q)

/-- C100: in every session all ZRLE frames are made by the same encoder, and so are all Tight frames; their
compressed streams go on from one frame to the next.  And no encoder is used for two encodings: what a
ZRLE encoder compresses is seen by nobody else. -/
theorem c100_one_stream {srv : Srv} {evs : List (Op × Env × List Read)} {s : St}
    (hr : run table evs (start srv) = .ok s) {e e' : Int} {j j' : Job} {p p' q q'}
    (h : .encode e j p q ∈ s.log) (h' : .encode e' j' p' q' ∈ s.log) :
    (j.id = j'.id → e = e') ∧ (e = e' → e = 16 ∨ e = 7 → j.id = j'.id) := by
  have hk := (run_inv (fun _ _ hm _ => micro_enc hm) evs (start_base srv) (start_enc srv) hr).2
  refine ⟨hk.one _ _ _ _ _ _ _ _ h h', ?_⟩
  rintro rfl he
  have hke : isKept e = true := by rcases he with rfl | rfl <;> rfl
  have h1 := hk.keep _ _ _ _ h hke
  rw [hk.keep _ _ _ _ h' hke] at h1
  injection h1 with h1
  exact h1.symm

/-- C100: nor does an encoder come back after another one was used for its encoding: an encoder is new, or it is the
one that made the last frame in its encoding.  (An H.264 encoder can rely on its earlier frames.) -/
theorem c100_unbroken {srv : Srv} {evs : List (Op × Env × List Read)} {s : St}
    (hr : run table evs (start srv) = .ok s) {a b c : List Eff} {e : Int} {j j' : Job} {p p' q q'}
    (h : s.log = a ++ .encode e j' p' q' :: b ++ .encode e j p q :: c)
    (hb : ∀ j'' p'' q'', .encode e j'' p'' q'' ∉ b) :
    j'.id = j.id ∨ ∀ e'' j'' p'' q'', .encode e'' j'' p'' q'' ∈ a ++ .encode e j' p' q' :: b → j''.id ≠ j.id := by
  have hk := (run_inv (fun _ _ hm _ => micro_enc hm) evs (start_base srv) (start_enc srv) hr).2
  rcases hk.chain _ _ _ _ _ _ h with h1 | h1
  · exact .inr h1
  · refine .inl ?_
    have : a ++ .encode e j' p' q' :: b = (a ++ [.encode e j' p' q']) ++ b := by simp
    rw [this] at h1
    have key : ∀ (b l : List Eff), (∀ j'' p'' q'', .encode e j'' p'' q'' ∉ b) → lastJob e (l ++ b) = lastJob e l := by
      intro b
      induction b with
      | nil => simp
      | cons x b ih =>
        intro l hb
        have : l ++ x :: b = (l ++ [x]) ++ b := by simp
        rw [this, ih _ fun j p q hm => hb j p q (by simp [hm])]
        by_cases hx : ∃ a b c d, x = .encode a b c d
        · obtain ⟨a, b', c, d, rfl⟩ := hx
          rw [lastJob_encode, if_neg]
          rintro rfl
          exact hb b' c d (by simp)
        · have hc : x.calm := fun a b c d h => hx ⟨a, b, c, d, h⟩
          exact lastJob_calm (by simpa using hc)
    rw [key b _ hb, lastJob_encode, if_pos rfl] at h1
    injection h1

/-- a client that goes from ZRLE to raw and back, twice: ZRLE frames always come from the same encoder -/
example : runCheck (enter [16] ++ [reads fullReq, (.encoded demoFrame, cursorEnv, []), (.written, cursorEnv, []),
      reads (Msg.setEncodings 0 [0]).wire, reads fullReq, (.encoded demoFrame, cursorEnv, []), (.written, cursorEnv, []),
      reads (Msg.setEncodings 0 [16]).wire, reads fullReq, (.encoded demoFrame, cursorEnv, []), (.written, cursorEnv, []),
      reads (Msg.setEncodings 0 [0]).wire, reads fullReq])
    (fun s => (s.log.filterMap fun x => match x with | .encode e j _ _ => some (e, j.id) | _ => none) ==
      [(16, 0), (0, 1), (16, 0), (0, 2)]) = true := by decide +kernel

end Verif.Server
