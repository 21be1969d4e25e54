import Verif.Lemmas.Exclusive
import Verif.Lemmas.Peer
import Verif.Spec.Server

/-!
# Exclusive clients
-/

namespace Verif.System

open Verif.Server

variable {table : List Nat}

/-- C06.  Whatever happens to client `i` of a reachable server, one of two things is the case.
Either its ClientInit message with shared-flag 0 was among what was processed, and then every other
connected client was disconnected, with nothing more written to it and no callback made for it.  Or
there was no such message, and then no other client was touched at all.  Client `i` itself is
what the event made it; its own demand does not disconnect it. -/
theorem c06_exclusive {s0 s s' : Sys} {ops : List SysOp} {i : Nat} {o env net} {p p' : Peer}
    (h0 : s0.peers = []) (hr : sysRun table ops s0 = .ok s)
    (e : sysStep table (.client i o env net) s = .ok s') (hp : s.peers[i]? = some p)
    (hp' : s'.peers[i]? = some p') (ho : Op.own o = true) :
    ∃ es, p'.log = p.log ++ es ∧
      ((∃ ch pl, .msg .init ch [0] pl ∈ es) →
        ∀ (j : Nat) (q q' : Peer), j ≠ i → s.peers[j]? = some q → s'.peers[j]? = some q' →
          q'.cl.freed = true ∧ ∀ e ∈ q'.log, e ∈ q.log ∨ e = .deferClose) ∧
      ((¬ ∃ ch pl, .msg .init ch [0] pl ∈ es) → ∀ j, j ≠ i → s'.peers[j]? = s.peers[j]?) ∧
      ∃ t, step table o env net (p.at s.srv) = .ok t ∧ p' = Peer.of t := by
  have hb : Base (p.at s.srv) :=
    ((base_lifts.sysRun ops (fun _ _ => trivial) (show Inv _ _ s0 from
      ⟨trivial, by rw [h0]; intro p hp; cases hp⟩) hr).2 p (List.mem_of_getElem? hp)).1
  have hi : i < s.peers.length := (List.getElem?_eq_some_iff.1 hp).1
  unfold sysStep clientStep at e
  dsimp only at e
  rw [hp] at e
  dsimp only at e
  rw [if_neg (by simp [ho])] at e
  obtain ⟨t, ht, e⟩ := Outcome.bind_eq_ok.1 e
  obtain ⟨es, h1, h2⟩ := step_excl hb ht
  have h1 : t.log = p.log ++ es := h1
  rw [h1, List.drop_left] at e
  by_cases hx : .disconnectOthers ∈ es
  · rw [if_pos (by simpa using hx)] at e
    obtain ⟨⟨srv2, ps2⟩, he, e⟩ := Outcome.bind_eq_ok.1 e
    cases e
    have hg := (each_get _ _ _ _ _ he).2
    obtain ⟨sv, u, k1, k2⟩ := hg i (Peer.of t) p' (by rw [List.getElem?_set_self hi]) hp'
    have hu : p' = Peer.of t := by
      unfold closeOther at k1
      rw [if_pos (by simp)] at k1
      cases k1
      exact k2
    refine ⟨es, by rw [hu]; exact h1, ?_, fun hn => absurd (h2.1 hx) hn, ⟨t, ht, hu⟩⟩
    intro _ j q q' hj hq hq'
    obtain ⟨sv, u, k1, k2⟩ := hg j q q' (by rw [List.getElem?_set_ne (Ne.symm hj)]; exact hq) hq'
    unfold closeOther at k1
    rcases ite_cases (x := q.at sv) (y := freeClient (q.at sv)) (z := u) (by simpa using k1) with
      ⟨hf, k1⟩ | ⟨-, k1⟩
    · subst k1
      subst k2
      refine ⟨hf.resolve_left (by simpa using hj), fun e he => .inl he⟩
    · subst k1
      subst k2
      refine ⟨rfl, fun e he => ?_⟩
      obtain ⟨fs, g1, g2⟩ := streamClose_log (q.at sv)
      have he : e ∈ (streamClose (q.at sv)).log := by rw [← (freeClient_frame _).2.1]; exact he
      rw [g1] at he
      exact (List.mem_append.1 he).imp (fun h => h) (g2 e)
  · rw [if_neg (by simpa using hx)] at e
    cases e
    have hu : p' = Peer.of t := by
      rw [List.getElem?_set_self hi] at hp'
      exact (Option.some.inj hp').symm
    refine ⟨es, by rw [hu]; exact h1, fun hn => absurd (h2.2 hn) hx, ?_, ⟨t, ht, hu⟩⟩
    intro _ j hj
    exact List.getElem?_set_ne (Ne.symm hj)

/-- three clients in the session, then a fourth asks for exclusive access (top) or to share -/
example : (demoRun [.connect, says 0 (hello ++ [1, 1]), .connect, says 1 (hello ++ [1, 1]), .connect,
    says 2 hello, .connect, says 3 (hello ++ [1, 0])]).map
      (fun s => s.peers.map fun p => (p.cl.freed, p.cl.st)) =
    some [(true, .ready), (true, .ready), (true, .security), (false, .ready)] := by decide +kernel

example : (demoRun [.connect, says 0 (hello ++ [1, 1]), .connect, says 1 (hello ++ [1, 1]), .connect,
    says 2 hello, .connect, says 3 (hello ++ [1, 1])]).map
      (fun s => s.peers.map fun p => (p.cl.freed, p.cl.st)) =
    some [(false, .ready), (false, .ready), (false, .security), (false, .ready)] := by decide +kernel

end Verif.System
