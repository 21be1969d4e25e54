import Verif.Lemmas.ServerAuth
import Verif.Model.System

/-!
# From one client to the whole server
-/

namespace Verif.System

open Verif.Server

variable {table : List Nat}

/-- a property of a client, its log and the server's state -/
abbrev PInv := Srv → Client → List Eff → Prop

/-- the API calls that change the server's configuration only -/
inductive Api : SysOp → (Srv → Srv) → Prop
  | display (fb) : Api (.display fb) fun s => { s with fb := fb }
  | enableAuth (a e f) : Api (.enableAuth a e f) fun s =>
      { s with requireAuth := a, requireEnc := e, hasAuthFn := f }
  | tlsCreds : Api .tlsCreds fun s => { s with hasTls := true }
  | setName (n) : Api (.setName n) (Verif.System.setName n)
  | cursor (w) : Api (.cursor w) fun s => { s with cursorSeq := s.cursorSeq + 1 }
  | sendCutText (zip t m) : Api (.sendCutText zip t) fun s => { s with provideMsg := m }

/-- what an invariant must satisfy to hold for every client of every reachable server: `S` is about
the server's state, `I` about each client -/
structure Lifts (table : List Nat) (ok : SysOp → Prop) (S : Srv → Prop) (I : PInv) : Prop where
  start : ∀ srv, S srv → I srv (Server.start srv).cl (Server.start srv).log
  self : ∀ s s', Micro true table s s' → Base s → S s.srv → I s.srv s.cl s.log →
    S s'.srv ∧ I s'.srv s'.cl s'.log
  other : ∀ s s' c l, Micro true table s s' → Base s → S s.srv → I s.srv c l → I s'.srv c l
  api : ∀ o f srv, ok o → Api o f → S srv → S (f srv) ∧ ∀ c l, I srv c l → I (f srv) c l
  cut : ∀ s zip text, ok (.sendCutText zip text) → Base s → S s.srv → I s.srv s.cl s.log →
    I s.srv s.cl (cutTextTo text s).log

theorem cutTextTo_srv (text s) : (cutTextTo text s).srv = s.srv := by
  unfold cutTextTo cutTextSend
  repeat' split
  all_goals simp [sendClipProvide, sendClipNotify]

theorem cutTextTo_cl (text s) : (cutTextTo text s).cl = s.cl := by
  unfold cutTextTo cutTextSend
  repeat' split
  all_goals simp [sendClipProvide, sendClipNotify]

variable {ok : SysOp → Prop} {S : Srv → Prop} {I : PInv}

/-- one client together with some others -/
def Loc (S : Srv → Prop) (I : PInv) (qs : List Peer) (s : St) : Prop :=
  Base s ∧ S s.srv ∧ I s.srv s.cl s.log ∧ ∀ q ∈ qs, I s.srv q.cl q.log

theorem Lifts.micro (L : Lifts table ok S I) (qs) {s s'} (h : Micro true table s s')
    (hs : Loc S I qs s) : Loc S I qs s' := by
  obtain ⟨h1, h2, h3, h4⟩ := hs
  obtain ⟨g1, g2⟩ := L.self _ _ h h1 h2 h3
  exact ⟨micro_base h h1, g1, g2, fun q hq => L.other _ _ _ _ h h1 h2 (h4 q hq)⟩

theorem Lifts.step (L : Lifts table ok S I) (qs) {o env net s s'}
    (hs : Loc S I qs s) (e : Server.step table o env net s = .ok s') : Loc S I qs s' :=
  (step_inv (I := Loc S I qs) (fun _ _ hm _ h => L.micro qs hm h) hs.1 hs e).2

/-- the invariant of the whole server -/
def Inv (S : Srv → Prop) (I : PInv) (s : Sys) : Prop :=
  S s.srv ∧ ∀ p ∈ s.peers, Base (p.at s.srv) ∧ I s.srv p.cl p.log

theorem each_inv {f : Nat → St → Outcome St}
    (hf : ∀ qs j s s', Loc S I qs s → f j s = .ok s' → Loc S I qs s') :
    ∀ (ps : List Peer) (qs : List Peer) (i : Nat) (srv srv' : Srv) (ps' : List Peer),
    S srv → (∀ p ∈ ps, Base (p.at srv) ∧ I srv p.cl p.log) → (∀ q ∈ qs, I srv q.cl q.log) →
    each f i ps srv = .ok (srv', ps') →
    S srv' ∧ (∀ p ∈ ps', Base (p.at srv') ∧ I srv' p.cl p.log) ∧
      ∀ q ∈ qs, I srv' q.cl q.log := by
  intro ps
  induction ps with
  | nil =>
    intro qs i srv srv' ps' h1 _ h3 e
    cases e
    exact ⟨h1, by simp, h3⟩
  | cons p ps ih =>
    intro qs i srv srv' ps' h1 h2 h3 e
    unfold each at e
    obtain ⟨t, ht, e⟩ := Outcome.bind_eq_ok.1 e
    obtain ⟨⟨srv2, ps2⟩, he, e⟩ := Outcome.bind_eq_ok.1 e
    cases e
    have hp := h2 p (by simp)
    have hl : Loc S I (ps ++ qs) t := by
      refine hf _ _ _ _ ⟨hp.1, h1, hp.2, ?_⟩ ht
      intro q hq
      rcases List.mem_append.1 hq with hq | hq
      · exact (h2 q (by simp [hq])).2
      · exact h3 q hq
    obtain ⟨g1, g2, g3, g4⟩ := hl
    obtain ⟨k1, k2, k3⟩ := ih (Peer.of t :: qs) (i + 1) t.srv _ _ g2
      (fun q hq => ⟨(h2 q (by simp [hq])).1, g4 q (by simp [hq])⟩) (by
        intro q hq
        rcases List.mem_cons.1 hq with rfl | hq
        · exact g3
        · exact g4 q (by simp [hq])) he
    refine ⟨k1, ?_, fun q hq => k3 q (by simp [hq])⟩
    intro q hq
    rcases List.mem_cons.1 hq with rfl | hq
    · exact ⟨g1, k3 _ (by simp)⟩
    · exact k2 q hq

/-- what `each` does to each client -/
theorem each_get {f : Nat → St → Outcome St} : ∀ (ps : List Peer) (k : Nat) (srv srv' : Srv)
    (ps' : List Peer), each f k ps srv = .ok (srv', ps') → ps'.length = ps.length ∧
    ∀ (i : Nat) (p p' : Peer), ps[i]? = some p → ps'[i]? = some p' →
      ∃ sv t, f (k + i) (p.at sv) = .ok t ∧ p' = Peer.of t := by
  intro ps
  induction ps with
  | nil =>
    intro k srv srv' ps' e
    cases e
    exact ⟨rfl, by intro i p p' h; simp at h⟩
  | cons q ps ih =>
    intro k srv srv' ps' e
    unfold each at e
    obtain ⟨t, ht, e⟩ := Outcome.bind_eq_ok.1 e
    obtain ⟨⟨srv2, ps2⟩, he, e⟩ := Outcome.bind_eq_ok.1 e
    cases e
    obtain ⟨h1, h2⟩ := ih _ _ _ _ he
    refine ⟨by simp [h1], ?_⟩
    intro i p p' hp hp'
    cases i with
    | zero =>
      simp at hp hp'
      subst hp; subst hp'
      exact ⟨srv, t, ht, rfl⟩
    | succ i =>
      simp at hp hp'
      obtain ⟨sv, u, h3, h4⟩ := h2 i p p' hp hp'
      exact ⟨sv, u, by rw [← h3]; congr 1; omega, h4⟩

theorem Lifts.sysStep (L : Lifts table ok S I) {o s s'} (ho : ok o) (hs : Inv S I s)
    (e : sysStep table o s = .ok s') : Inv S I s' := by
  obtain ⟨h1, h2⟩ := hs
  have api : ∀ {o f}, ok o → Api o f → Inv S I { s with srv := f s.srv } := by
    intro o f ho ha
    obtain ⟨g1, g2⟩ := L.api _ _ s.srv ho ha h1
    exact ⟨g1, fun p hp => ⟨(h2 p hp).1, g2 _ _ (h2 p hp).2⟩⟩
  unfold Verif.System.sysStep at e
  split at e
  · split at e <;> cases e
    · exact ⟨h1, h2⟩
    · refine ⟨h1, fun p hp => ?_⟩
      rcases List.mem_append.1 hp with hp | hp
      · exact h2 p hp
      · rw [List.mem_singleton] at hp
        subst hp
        exact ⟨start_base _, L.start _ h1⟩
  · rename_i i o env net
    unfold clientStep at e
    split at e
    · cases e; exact ⟨h1, h2⟩
    · rename_i p hp
      have hp := List.mem_of_getElem? hp
      split at e
      · cases e; exact ⟨h1, h2⟩
      · obtain ⟨t, ht, e⟩ := Outcome.bind_eq_ok.1 e
        obtain ⟨g1, g2, g3, g4⟩ := L.step s.peers
          ⟨(h2 p hp).1, h1, (h2 p hp).2, fun q hq => (h2 q hq).2⟩ ht
        have g5 : ∀ q ∈ s.peers.set i (Peer.of t), Base (q.at t.srv) ∧ I t.srv q.cl q.log := by
          intro q hq
          rcases List.mem_or_eq_of_mem_set hq with hq | rfl
          · exact ⟨(h2 q hq).1, g4 q hq⟩
          · exact ⟨g1, g3⟩
        dsimp only at e
        split at e
        · obtain ⟨⟨srv2, ps2⟩, he, e⟩ := Outcome.bind_eq_ok.1 e
          cases e
          obtain ⟨k1, k2, -⟩ := each_inv (S := S) (I := I) (f := closeOther i) (by
            intro qs j u u' hu hc
            unfold closeOther at hc
            cases hc
            split
            · exact hu
            · rename_i hn
              exact L.micro qs (.free _ rfl (by
                cases hf : u.cl.freed
                · rfl
                · exact absurd (.inr hf) hn)) hu) _ [] _ _ _ _ g2 g5 (by simp) he
          exact ⟨k1, k2⟩
        · cases e; exact ⟨g2, g5⟩
  · obtain ⟨⟨srv2, ps2⟩, he, e⟩ := Outcome.bind_eq_ok.1 e
    cases e
    obtain ⟨k1, k2, -⟩ := each_inv (S := S) (I := I) (fun qs j u u' hu hc => L.step qs hu hc)
      _ [] _ _ _ _ h1 h2 (by simp) he
    exact ⟨k1, k2⟩
  · rename_i w
    obtain ⟨⟨srv2, ps2⟩, he, e⟩ := Outcome.bind_eq_ok.1 e
    cases e
    obtain ⟨g1, g2⟩ := api ho (.cursor w)
    obtain ⟨k1, k2, -⟩ := each_inv (S := S) (I := I) (fun qs j u u' hu hc => L.step qs hu hc)
      _ [] _ _ _ _ g1 g2 (by simp) he
    exact ⟨k1, k2⟩
  · cases e; exact api ho (.display _)
  · cases e; exact api ho (.enableAuth _ _ _)
  · cases e; exact api ho .tlsCreds
  · cases e; exact api ho (.setName _)
  · rename_i zip text
    obtain ⟨⟨srv2, ps2⟩, he, e⟩ := Outcome.bind_eq_ok.1 e
    cases e
    have hsv : ∃ m, cutTextSave zip text s = { s.srv with provideMsg := m } := by
      unfold cutTextSave saveProvide
      split
      · exact ⟨_, rfl⟩
      · exact ⟨_, rfl⟩
    obtain ⟨m, hm⟩ := hsv
    obtain ⟨g1, g2⟩ := api ho (.sendCutText zip text m)
    rw [hm] at he
    obtain ⟨k1, k2, -⟩ := each_inv (S := S) (I := I) (by
      intro qs j u u' hu hc
      cases hc
      obtain ⟨a1, a2, a3, a4⟩ := hu
      have := L.cut u zip text ho a1 a2 a3
      refine ⟨?_, ?_, ?_, ?_⟩
      · unfold Base; rw [cutTextTo_cl]; exact a1
      · rw [cutTextTo_srv]; exact a2
      · rw [cutTextTo_srv, cutTextTo_cl]; exact this
      · rw [cutTextTo_srv]; exact a4) _ [] _ _ _ _ g1 g2 (by simp) he
    exact ⟨k1, k2⟩

theorem Lifts.sysRun (L : Lifts table ok S I) (os : List SysOp) :
    ∀ {s s'}, (∀ o ∈ os, ok o) → Inv S I s → sysRun table os s = .ok s' → Inv S I s' := by
  induction os with
  | nil => intro s s' _ h e; cases e; exact h
  | cons o os ih =>
    intro s s' ho h e
    obtain ⟨t, ht, e⟩ := Outcome.bind_eq_ok.1 e
    exact ih (fun o h => ho o (by simp [h])) (L.sysStep (ho o (by simp)) h ht) e

end Verif.System
