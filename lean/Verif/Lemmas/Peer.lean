import Verif.Lemmas.System

/-!
# Following one client through a run of the server
-/

namespace Verif.System

open Verif.Server

variable {table : List Nat}

theorem base_lifts : Lifts table (fun _ => True) (fun _ => True) (fun _ _ _ => True) :=
  ⟨fun _ _ => trivial, fun _ _ _ _ _ _ => ⟨trivial, trivial⟩, fun _ _ _ _ _ _ _ _ => trivial,
    fun _ _ _ _ _ _ => ⟨trivial, fun _ _ _ => trivial⟩, fun _ _ _ _ _ _ _ => trivial⟩

/-- every client has a state that a client can have -/
def Based (s : Sys) : Prop := ∀ p ∈ s.peers, ∀ srv, Base (p.at srv)

theorem based_run {s0 s : Sys} {ops : List SysOp} (h0 : Based s0)
    (hr : sysRun table ops s0 = .ok s) : Based s := fun p hp _ =>
  ((base_lifts.sysRun ops (fun _ _ => trivial) (show Inv _ _ s0 from
    ⟨trivial, fun p hp => ⟨h0 p hp _, trivial⟩⟩) hr).2 p hp).1

theorem based_nil {s0 : Sys} (h : s0.peers = []) : Based s0 := by
  intro p hp; rw [h] at hp; cases hp

theorem based_step {s s' : Sys} {o : SysOp} (h0 : Based s) (e : sysStep table o s = .ok s') :
    Based s' := fun p hp _ =>
  ((base_lifts.sysStep trivial (show Inv _ _ s from
    ⟨trivial, fun p hp => ⟨h0 p hp _, trivial⟩⟩) e).2 p hp).1

/-- a property of one client and its log that nothing destroys -/
structure Stays (table : List Nat) (J : Client → List Eff → Prop) : Prop where
  micro : ∀ s s', Micro true table s s' → Base s → J s.cl s.log → J s'.cl s'.log
  cut : ∀ s text, Base s → J s.cl s.log → J s.cl (cutTextTo text s).log

variable {J : Client → List Eff → Prop}

theorem Stays.step (L : Stays table J) {o env net s s'} (hb : Base s) (hs : J s.cl s.log)
    (e : Server.step table o env net s = .ok s') : J s'.cl s'.log :=
  (step_inv (I := fun s => J s.cl s.log) (fun _ _ hm hb h => L.micro _ _ hm hb h) hb hs e).2

theorem each_peer {f : Nat → St → Outcome St}
    (hf : ∀ j s s', Base s → J s.cl s.log → f j s = .ok s' → J s'.cl s'.log)
    {ps k srv srv' ps'} (e : each f k ps srv = .ok (srv', ps')) {i : Nat} {p : Peer}
    (hb : ∀ srv, Base (p.at srv)) (hp : ps[i]? = some p) (hj : J p.cl p.log) :
    ∃ p', ps'[i]? = some p' ∧ J p'.cl p'.log := by
  obtain ⟨h1, h2⟩ := each_get _ _ _ _ _ e
  have hi : i < ps'.length := by rw [h1]; exact (List.getElem?_eq_some_iff.1 hp).1
  obtain ⟨sv, t, h3, h4⟩ := h2 i p _ hp (List.getElem?_eq_getElem hi)
  exact ⟨_, List.getElem?_eq_getElem hi, by rw [h4]; exact hf _ _ _ (hb sv) hj h3⟩

theorem Stays.sysStep (L : Stays table J) {o : SysOp} {s s' : Sys} (hb : Based s) {i : Nat}
    {p : Peer} (hp : s.peers[i]? = some p) (hj : J p.cl p.log)
    (e : sysStep table o s = .ok s') : ∃ p', s'.peers[i]? = some p' ∧ J p'.cl p'.log := by
  have hpm := List.mem_of_getElem? hp
  have hkick : ∀ r w j t t', Base t → J t.cl t.log → kick table r w j t = .ok t' →
      J t'.cl t'.log := fun _ _ _ _ _ hb hj h => L.step hb hj h
  unfold Verif.System.sysStep at e
  split at e
  · split at e <;> cases e
    · exact ⟨p, hp, hj⟩
    · exact ⟨p, by rw [List.getElem?_append_left (List.getElem?_eq_some_iff.1 hp).1]; exact hp, hj⟩
  · rename_i k o env net
    unfold clientStep at e
    split at e
    · cases e; exact ⟨p, hp, hj⟩
    · rename_i q hq
      split at e
      · cases e; exact ⟨p, hp, hj⟩
      · obtain ⟨t, ht, e⟩ := Outcome.bind_eq_ok.1 e
        have hk : k < s.peers.length := (List.getElem?_eq_some_iff.1 hq).1
        have h1 : ∃ p1, (s.peers.set k (Peer.of t))[i]? = some p1 ∧ J p1.cl p1.log ∧
            ∀ srv, Base (p1.at srv) := by
          by_cases hik : k = i
          · subst hik
            rw [hp] at hq
            cases hq
            refine ⟨Peer.of t, by rw [List.getElem?_set_self hk], L.step (hb p hpm _) hj ht, ?_⟩
            exact fun _ => (step_inv (I := fun _ => True) (fun _ _ _ _ _ => trivial)
              (hb p hpm _) trivial ht).1
          · exact ⟨p, by rw [List.getElem?_set_ne hik]; exact hp, hj, hb p hpm⟩
        obtain ⟨p1, h1, h2, h3⟩ := h1
        dsimp only at e
        split at e
        · obtain ⟨⟨srv2, ps2⟩, he, e⟩ := Outcome.bind_eq_ok.1 e
          cases e
          refine each_peer (f := closeOther k) ?_ he h3 h1 h2
          intro j u u' hbu hju hc
          unfold closeOther at hc
          cases hc
          split
          · exact hju
          · rename_i hn
            exact L.micro _ _ (.free _ rfl (by
              cases hf : u.cl.freed
              · rfl
              · exact absurd (.inr hf) hn)) hbu hju
        · cases e; exact ⟨p1, h1, h2⟩
  · obtain ⟨⟨srv2, ps2⟩, he, e⟩ := Outcome.bind_eq_ok.1 e
    cases e
    exact each_peer (hkick _ _) he (hb p hpm) hp hj
  · obtain ⟨⟨srv2, ps2⟩, he, e⟩ := Outcome.bind_eq_ok.1 e
    cases e
    exact each_peer (hkick _ _) he (hb p hpm) hp hj
  · cases e; exact ⟨p, hp, hj⟩
  · cases e; exact ⟨p, hp, hj⟩
  · cases e; exact ⟨p, hp, hj⟩
  · cases e; exact ⟨p, hp, hj⟩
  · obtain ⟨⟨srv2, ps2⟩, he, e⟩ := Outcome.bind_eq_ok.1 e
    cases e
    refine each_peer ?_ he (hb p hpm) hp hj
    intro j u u' hbu hju hc
    cases hc
    rw [cutTextTo_cl]
    exact L.cut _ _ hbu hju

theorem Stays.sysRun (L : Stays table J) (os : List SysOp) : ∀ {s s' : Sys} {i : Nat} {p : Peer},
    Based s → s.peers[i]? = some p → J p.cl p.log → sysRun table os s = .ok s' →
    ∃ p', s'.peers[i]? = some p' ∧ J p'.cl p'.log := by
  induction os with
  | nil => intro s s' i p _ hp hj e; cases e; exact ⟨p, hp, hj⟩
  | cons o os ih =>
    intro s s' i p hb hp hj e
    obtain ⟨t, ht, e⟩ := Outcome.bind_eq_ok.1 e
    obtain ⟨p1, h1, h2⟩ := L.sysStep hb hp hj ht
    exact ih (based_step hb ht) h1 h2 e

/-- what every client satisfies that has just connected, and nothing destroys, all clients satisfy -/
theorem Stays.all (L : Stays table J) (hs : ∀ srv, J (start srv).cl (start srv).log)
    {s0 s : Sys} {ops : List SysOp} (h0 : s0.peers = []) (e : Verif.System.sysRun table ops s0 = .ok s)
    {p : Peer} (hp : p ∈ s.peers) : J p.cl p.log := by
  have hL : Lifts table (fun _ => True) (fun _ => True) (fun _ c l => J c l) :=
    ⟨fun srv _ => hs srv, fun _ _ hm hb _ hj => ⟨trivial, L.micro _ _ hm hb hj⟩,
      fun _ _ _ _ _ _ _ h => h, fun _ _ _ _ _ _ => ⟨trivial, fun _ _ h => h⟩,
      fun s _ text _ hb _ hj => L.cut s text hb hj⟩
  exact ((hL.sysRun ops (fun _ _ => trivial) (show Inv _ _ s0 from
    ⟨trivial, by rw [h0]; intro p hp; cases hp⟩) e).2 p hp).2

end Verif.System
