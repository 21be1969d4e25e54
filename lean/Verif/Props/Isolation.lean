import Verif.Lemmas.Honest
import Verif.Lemmas.Exclusive
import Verif.Lemmas.Peer
import Verif.Props.Frames
import Verif.Props.Clipboard
import Verif.Spec.Server

/-!
# Clients are isolated from each other
-/

namespace Verif.System

open Verif.Server

variable {table : List Nat} {A : Nat → Prop}

/-- Two histories of a server that are the same except for what happens to the clients in `A`: these
may receive, send, close, or be closed by the application, at any times and in any way, and their
sockets may behave in any way. -/
inductive Weave (A : Nat → Prop) : List SysOp → List SysOp → Prop
  | nil : Weave A [] []
  | left {i a b} (o env net) (h : A i) : Weave A a b → Weave A (.client i o env net :: a) b
  | right {i a b} (o env net) (h : A i) : Weave A a b → Weave A a (.client i o env net :: b)
  | same {a b} (o) : Weave A a b → Weave A (o :: a) (o :: b)
  | damage {a b} (r) {w w'} (h : ∀ j, ¬A j → w j = w' j) : Weave A a b →
      Weave A (.damage r w :: a) (.damage r w' :: b)
  | cursor {a b} {w w'} (h : ∀ j, ¬A j → w j = w' j) : Weave A a b →
      Weave A (.cursor w :: a) (.cursor w' :: b)

/-- a client outside `A` is there that supports the extended clipboard -/
def clipShared (A : Nat → Prop) (s : Sys) : Prop :=
  ∃ j p, ¬A j ∧ s.peers[j]? = some p ∧ p.cl.freed = false ∧ hasEnc p.cl encExtClipboard = true

theorem excl_stays (n : Nat) : Stays table (fun _ l => n ≤ l.countP isExcl) :=
  ⟨fun s s' hm _ h => by
    obtain ⟨es, h1⟩ := log_grows hm
    rw [h1, List.countP_append]
    exact Nat.le_trans h (Nat.le_add_right _ _), fun s text hb h => by
    obtain ⟨es, h1, -⟩ := cutTextTo_log text s hb
    rw [h1, List.countP_append]
    exact Nat.le_trans h (Nat.le_add_right _ _)⟩

theorem exclAsked_step {s s' : Sys} {o : SysOp} (hb : Based s) (e : sysStep table o s = .ok s') (i : Nat) :
    exclAsked s i ≤ exclAsked s' i := by
  unfold exclAsked
  cases hp : s.peers[i]? with
  | none => exact Nat.zero_le _
  | some p =>
    obtain ⟨p', h1, h2⟩ := (excl_stays (p.log.countP isExcl)).sysStep hb hp (Nat.le_refl _) e
    rw [h1]
    exact h2

theorem exclAsked_run {ops : List SysOp} : ∀ {s s' : Sys}, Based s → sysRun table ops s = .ok s' →
    ∀ i, exclAsked s i ≤ exclAsked s' i := by
  induction ops with
  | nil => intro s s' _ e i; cases e; exact Nat.le_refl _
  | cons o ops ih =>
    intro s s' hb e i
    obtain ⟨t, ht, e⟩ := Outcome.bind_eq_ok.1 e
    exact Nat.le_trans (exclAsked_step hb ht i) (ih (based_step hb ht) e i)

/-- an event of a client in `A` -/
theorem own_apart {s s' : Sys} {i : Nat} {o env net} (hb : Based s) (hs : s.srv.secTypes ≠ [])
    (hA : A i) (e : sysStep table (.client i o env net) s = .ok s')
    (hx : exclAsked s' i ≤ exclAsked s i) : Apart A s s' := by
  unfold sysStep clientStep at e
  dsimp only at e
  split at e
  · cases e; exact .refl _
  · rename_i p hp
    have hi : i < s.peers.length := (List.getElem?_eq_some_iff.1 hp).1
    have hbp := hb p (List.mem_of_getElem? hp) s.srv
    rcases ite_cases e with ⟨-, e⟩ | ⟨ho, e⟩
    · cases e; exact .refl _
    · obtain ⟨t, ht, e⟩ := Outcome.bind_eq_ok.1 e
      have ho : Op.own o = true := by simpa using ho
      have hn : Near s.srv t.srv := step_near hbp (own_calm ho) hs ht
      obtain ⟨es, h1, h2⟩ := step_excl hbp ht
      have h1 : t.log = p.log ++ es := h1
      have fin : ∀ {srv ps}, s' = { srv := srv, peers := ps } → ps[i]? = some (Peer.of t) →
          es.countP isExcl = 0 := by
        intro srv ps he hq
        subst he
        unfold exclAsked at hx
        dsimp only at hx
        rw [hp, hq] at hx
        have hx : t.log.countP isExcl ≤ p.log.countP isExcl := hx
        rw [h1, List.countP_append] at hx
        omega
      have hne : .disconnectOthers ∉ es := by
        intro hm
        obtain ⟨ch, pl, hm2⟩ := h2.1 hm
        rw [h1, List.drop_left, if_pos (by simpa using hm)] at e
        obtain ⟨⟨srv2, ps2⟩, he, e⟩ := Outcome.bind_eq_ok.1 e
        cases e
        have hg := each_get _ _ _ _ _ he
        have hi2 : i < ps2.length := by rw [hg.1, List.length_set]; exact hi
        obtain ⟨sv, u, k1, k2⟩ := hg.2 i (Peer.of t) ps2[i] (by rw [List.getElem?_set_self hi])
          (List.getElem?_eq_getElem hi2)
        unfold closeOther at k1
        rw [if_pos (by simp)] at k1
        cases k1
        have h0 := fin rfl (by rw [List.getElem?_eq_getElem hi2, k2]; rfl)
        rw [List.countP_eq_zero] at h0
        exact h0 _ hm2 rfl
      rw [h1, List.drop_left, if_neg (by simpa using hne)] at e
      cases e
      refine ⟨hn, by simp, fun j hj => ?_⟩
      rw [List.getElem?_set_ne (fun h : i = j => hj (h ▸ hA))]

theorem kick_near {r w} (j : Nat) (s t : St) (hb : Base s) (hs : s.srv.secTypes ≠ [])
    (e : kick table r w j s = .ok t) : Near s.srv t.srv := step_near hb rfl hs e

theorem closeOther_near {i : Nat} (j : Nat) (s t : St) (_ : Base s) (_ : s.srv.secTypes ≠ [])
    (e : closeOther i j s = .ok t) : Near s.srv t.srv := by
  unfold closeOther at e
  cases e
  split
  · exact .refl _
  · exact freeClient_near s

/-- the same operation in two servers that are the same but for the clients in `A` -/
theorem same_apart {a b a' b' : Sys} {o o' : SysOp} (hab : Apart A a b) (ha : Based a) (hb : Based b)
    (hs : a.srv.secTypes ≠ [])
    (hw : (o = o' ∧ ∀ i o1 env net, o = .client i o1 env net → ¬A i) ∨
      (∃ r w w', o = .damage r w ∧ o' = .damage r w' ∧ ∀ j, ¬A j → w j = w' j) ∨
      ∃ w w', o = .cursor w ∧ o' = .cursor w' ∧ ∀ j, ¬A j → w j = w' j)
    (hc : ∀ z t, o = .sendCutText z t → clipShared A a)
    (e1 : sysStep table o a = .ok a') (e2 : sysStep table o' b = .ok b') :
    Apart A a' b' ∧ a'.srv.secTypes ≠ [] := by
  have loop : ∀ {f g : Nat → St → Outcome St} {x y : Srv},
      (∀ j, ¬A j → ∀ n s, g j (s.damp n) = (f j s).map (St.damp n)) →
      (∀ j s t, Base s → s.srv.secTypes ≠ [] → f j s = .ok t → Near s.srv t.srv) →
      (∀ j s t, Base s → s.srv.secTypes ≠ [] → g j s = .ok t → Near s.srv t.srv) →
      Near x y → x.secTypes ≠ [] →
      ∀ {ps qs : List Peer}, ps.length = qs.length → (∀ j, ¬A j → ps[j]? = qs[j]?) →
      (∀ p ∈ ps, ∀ srv, Base (p.at srv)) → (∀ p ∈ qs, ∀ srv, Base (p.at srv)) →
      ∀ {x' y' ps' qs'}, each f 0 ps x = .ok (x', ps') → each g 0 qs y = .ok (y', qs') →
      Apart A { srv := x', peers := ps' } { srv := y', peers := qs' } ∧ x'.secTypes ≠ [] := by
    intro f g x y h1 h2 h3 h4 h5 ps qs h6 h7 h8 h9 x' y' ps' qs' k1 k2
    obtain ⟨g1, g2, g3, g4⟩ := each_apart (A := A) h1 h2 h3 ps qs 0 x y x' y' ps' qs' h6
      (fun m hm => h7 m (by simpa using hm)) h4 h5 h8 h9 k1 k2
    exact ⟨⟨g2, g3, fun j hj => g4 j (by simpa using hj)⟩, by rw [g1.sec]; exact h5⟩
  have hkick : ∀ r (w w' : Nat → Env × List Read), (∀ j, ¬A j → w j = w' j) → ∀ j, ¬A j → ∀ n s,
      kick table r w' j (s.damp n) = (kick table r w j s).map (St.damp n) := by
    intro r w w' h j hj n s
    unfold kick
    rw [← h j hj]
    exact step_damp _ _ _ _ (.inr ⟨_, rfl⟩) s
  obtain ⟨d, hd⟩ := hab.srv
  rcases hw with ⟨rfl, hw⟩ | ⟨r, w, w', rfl, rfl, hw⟩ | ⟨w, w', rfl, rfl, hw⟩
  · unfold sysStep at e1 e2
    split at e1
    · -- connect
      dsimp only at e2
      have hf : b.srv.fb = a.srv.fb := by rw [hd]
      rw [hf] at e2
      rcases ite_cases e1 with ⟨h1, e1⟩ | ⟨h1, e1⟩
      · rw [if_pos h1] at e2
        cases e1; cases e2
        exact ⟨hab, hs⟩
      · rw [if_neg h1] at e2
        cases e1; cases e2
        refine ⟨⟨hab.srv, by simp [hab.len], fun j hj => ?_⟩, hs⟩
        have hst : Peer.of (start b.srv) = Peer.of (start a.srv) := by rw [hd]; rfl
        show (a.peers ++ _)[j]? = (b.peers ++ _)[j]?
        rw [hst, List.getElem?_append, List.getElem?_append, hab.len, hab.peers j hj]
    · -- client
      rename_i i o env net
      dsimp only at e2
      have hA := hw _ _ _ _ rfl
      unfold clientStep at e1 e2
      rw [← hab.peers i hA] at e2
      split at e1
      · rename_i hp
        rw [hp] at e2
        cases e1; cases e2
        exact ⟨hab, hs⟩
      · rename_i p hp
        rw [hp] at e2
        dsimp only at e2
        have hi : i < a.peers.length := (List.getElem?_eq_some_iff.1 hp).1
        have hbp := ha p (List.mem_of_getElem? hp) a.srv
        rcases ite_cases e1 with ⟨h1, e1⟩ | ⟨h1, e1⟩
        · rw [if_pos h1] at e2
          cases e1; cases e2
          exact ⟨hab, hs⟩
        · rw [if_neg h1] at e2
          have ho : Op.own o = true := by simpa using h1
          obtain ⟨t, ht, e1⟩ := Outcome.bind_eq_ok.1 e1
          obtain ⟨u, hu, e2⟩ := Outcome.bind_eq_ok.1 e2
          obtain ⟨n, hn⟩ := near_damp hab.srv
          rw [hn, step_damp _ _ _ _ (.inl ho), ht] at hu
          cases hu
          have hbt : ∀ srv, Base ((Peer.of t).at srv) := fun _ =>
            (step_inv (I := fun _ => True) (fun _ _ _ _ _ => trivial) hbp trivial ht).1
          have hn : Near a.srv t.srv := step_near hbp (own_calm ho) hs ht
          have hl : (a.peers.set i (Peer.of t)).length = (b.peers.set i (Peer.of (t.damp n))).length := by
            simp [hab.len]
          have hpe : ∀ j, ¬A j →
              (a.peers.set i (Peer.of t))[j]? = (b.peers.set i (Peer.of (t.damp n)))[j]? := by
            intro j hj
            show _ = (b.peers.set i (Peer.of t))[j]?
            rw [List.getElem?_set, List.getElem?_set, hab.len, hab.peers j hj]
          have hset : ∀ (c : Sys), Based c → ∀ p ∈ c.peers.set i (Peer.of t), ∀ srv, Base (p.at srv) := by
            intro c hc p hp
            rcases List.mem_or_eq_of_mem_set hp with hp | rfl
            · exact hc p hp
            · exact hbt
          dsimp only at e1 e2
          rw [damp_log] at e2
          rcases ite_cases e1 with ⟨h2, e1⟩ | ⟨h2, e1⟩
          · rw [if_pos h2] at e2
            obtain ⟨⟨x1, ps1⟩, k1, e1⟩ := Outcome.bind_eq_ok.1 e1
            obtain ⟨⟨x2, ps2⟩, k2, e2⟩ := Outcome.bind_eq_ok.1 e2
            cases e1; cases e2
            refine loop (f := closeOther i) (g := closeOther i) (fun j _ n s => ?_) closeOther_near
              closeOther_near damp_near (by rw [hn.sec]; exact hs) hl hpe (hset a ha) (hset b hb) k1 k2
            unfold closeOther
            rw [damp_cl, Outcome.map_ok]
            congr 1
            exact ite_through (fun _ => rfl) (fun _ => freeClient_damp _)
          · rw [if_neg h2] at e2
            cases e1; cases e2
            exact ⟨⟨damp_near, hl, hpe⟩, by rw [hn.sec]; exact hs⟩
    · -- damage
      obtain ⟨⟨x1, ps1⟩, k1, e1⟩ := Outcome.bind_eq_ok.1 e1
      obtain ⟨⟨x2, ps2⟩, k2, e2⟩ := Outcome.bind_eq_ok.1 e2
      cases e1; cases e2
      exact loop (hkick _ _ _ fun _ _ => rfl) kick_near kick_near hab.srv hs hab.len hab.peers ha hb k1 k2
    · obtain ⟨⟨x1, ps1⟩, k1, e1⟩ := Outcome.bind_eq_ok.1 e1
      obtain ⟨⟨x2, ps2⟩, k2, e2⟩ := Outcome.bind_eq_ok.1 e2
      cases e1; cases e2
      exact loop (x := { a.srv with cursorSeq := a.srv.cursorSeq + 1 }) (hkick _ _ _ fun _ _ => rfl) kick_near
        kick_near ⟨d, by rw [hd]⟩ hs hab.len hab.peers ha hb k1 k2
    · cases e1; cases e2; exact ⟨⟨⟨d, by dsimp only; rw [hd]⟩, hab.len, hab.peers⟩, hs⟩
    · cases e1; cases e2; exact ⟨⟨⟨d, by dsimp only; rw [hd]⟩, hab.len, hab.peers⟩, hs⟩
    · cases e1; cases e2; exact ⟨⟨⟨d, by dsimp only; rw [hd]⟩, hab.len, hab.peers⟩, hs⟩
    · cases e1; cases e2
      exact ⟨⟨⟨d, by dsimp only; rw [hd]; rfl⟩, hab.len, hab.peers⟩, hs⟩
    · -- clipboard
      rename_i zip text
      obtain ⟨⟨x1, ps1⟩, k1, e1⟩ := Outcome.bind_eq_ok.1 e1
      obtain ⟨⟨x2, ps2⟩, k2, e2⟩ := Outcome.bind_eq_ok.1 e2
      cases e1; cases e2
      obtain ⟨j, p, h1, h2, h3, h4⟩ := hc _ _ rfl
      have save : ∀ c : Sys, c.peers[j]? = some p → cutTextSave zip text c = saveProvide zip text c.srv := by
        intro c hcp
        unfold cutTextSave
        rw [if_pos]
        rw [List.any_eq_true]
        exact ⟨p, List.mem_of_getElem? hcp, by rw [h3, h4]; rfl⟩
      rw [save a h2] at k1
      rw [save b (by rw [← hab.peers j h1]; exact h2)] at k2
      have hcut : ∀ (j : Nat) (s t : St), Base s → s.srv.secTypes ≠ [] →
          (Outcome.ok (cutTextTo text s)) = .ok t → Near s.srv t.srv := by
        intro j s t _ _ e
        cases e
        exact .of_eq (cutTextTo_srv text s)
      exact loop (x := saveProvide zip text a.srv) (f := fun _ s => .ok (cutTextTo text s)) (g := fun _ s => .ok (cutTextTo text s))
        (fun j _ n s => by rw [Outcome.map_ok, cutTextTo_damp]) hcut hcut ⟨d, by rw [hd]; rfl⟩ hs
        hab.len hab.peers ha hb k1 k2
  · obtain ⟨⟨x1, ps1⟩, k1, e1⟩ := Outcome.bind_eq_ok.1 e1
    obtain ⟨⟨x2, ps2⟩, k2, e2⟩ := Outcome.bind_eq_ok.1 e2
    cases e1; cases e2
    exact loop (hkick _ _ _ hw) kick_near kick_near hab.srv hs hab.len hab.peers ha hb k1 k2
  · obtain ⟨⟨x1, ps1⟩, k1, e1⟩ := Outcome.bind_eq_ok.1 e1
    obtain ⟨⟨x2, ps2⟩, k2, e2⟩ := Outcome.bind_eq_ok.1 e2
    cases e1; cases e2
    exact loop (x := { a.srv with cursorSeq := a.srv.cursorSeq + 1 }) (hkick _ _ _ hw) kick_near kick_near
      ⟨d, by rw [hd]⟩ hs hab.len hab.peers ha hb k1 k2

theorem weave_apart {xs ys : List SysOp} (hw : Weave A xs ys) : ∀ {a b a' b' : Sys},
    Apart A a b → Based a → Based b → a.srv.secTypes ≠ [] →
    sysRun table xs a = .ok a' → sysRun table ys b = .ok b' →
    (∀ i, A i → exclAsked a' i ≤ exclAsked a i ∧ exclAsked b' i ≤ exclAsked b i) →
    (∀ us z t vs u, xs = us ++ .sendCutText z t :: vs → sysRun table us a = .ok u → clipShared A u) →
    Apart A a' b' := by
  induction hw with
  | nil =>
    intro a b a' b' hab _ _ _ e1 e2 _ _
    cases e1; cases e2
    exact hab
  | @left i xs ys o env net hA hw ih =>
    intro a b a' b' hab ha hb hs e1 e2 hx hc
    obtain ⟨t, ht, e1⟩ := Outcome.bind_eq_ok.1 e1
    have hbt := based_step ha ht
    have h1 := own_apart ha hs hA ht (Nat.le_trans (exclAsked_run hbt e1 i) (hx i hA).1)
    refine ih (h1.symm.trans hab) hbt hb (by rw [h1.srv.sec]; exact hs) e1 e2 (fun k hk => ?_) ?_
    · exact ⟨Nat.le_trans (hx k hk).1 (exclAsked_step ha ht k), (hx k hk).2⟩
    · intro us z tx vs u h2 h3
      exact hc (.client i o env net :: us) z tx vs u (by rw [h2]; rfl) (Outcome.bind_eq_ok.2 ⟨t, ht, h3⟩)
  | @right i xs ys o env net hA hw ih =>
    intro a b a' b' hab ha hb hs e1 e2 hx hc
    obtain ⟨t, ht, e2⟩ := Outcome.bind_eq_ok.1 e2
    have hbt := based_step hb ht
    have h1 := own_apart hb (by rw [hab.srv.sec]; exact hs) hA ht
      (Nat.le_trans (exclAsked_run hbt e2 i) (hx i hA).2)
    exact ih (hab.trans h1) ha hbt hs e1 e2 (fun k hk =>
      ⟨(hx k hk).1, Nat.le_trans (hx k hk).2 (exclAsked_step hb ht k)⟩) hc
  | @same xs ys o hw ih =>
    intro a b a' b' hab ha hb hs e1 e2 hx hc
    obtain ⟨t, ht, r1⟩ := Outcome.bind_eq_ok.1 e1
    obtain ⟨u, hu, r2⟩ := Outcome.bind_eq_ok.1 e2
    have hbt := based_step ha ht
    have hbu := based_step hb hu
    have key : Apart A t u ∧ t.srv.secTypes ≠ [] := by
      by_cases hi : ∃ i o1 env net, o = .client i o1 env net ∧ A i
      · obtain ⟨i, o1, env, net, rfl, hA⟩ := hi
        have h1 := own_apart ha hs hA ht (Nat.le_trans (exclAsked_run hbt r1 i) (hx i hA).1)
        have h2 := own_apart hb (by rw [hab.srv.sec]; exact hs) hA hu
          (Nat.le_trans (exclAsked_run hbu r2 i) (hx i hA).2)
        exact ⟨h1.symm.trans (hab.trans h2), by rw [h1.srv.sec]; exact hs⟩
      · exact same_apart hab ha hb hs (.inl ⟨rfl, fun i o1 env net h hA => hi ⟨i, o1, env, net, h, hA⟩⟩)
          (fun z tx h => hc [] z tx xs a (by rw [h]; rfl) rfl) ht hu
    refine ih key.1 hbt hbu key.2 r1 r2 (fun k hk => ⟨Nat.le_trans (hx k hk).1 (exclAsked_step ha ht k),
      Nat.le_trans (hx k hk).2 (exclAsked_step hb hu k)⟩) ?_
    intro us z tx vs v h2 h3
    exact hc (o :: us) z tx vs v (by rw [h2]; rfl) (Outcome.bind_eq_ok.2 ⟨t, ht, h3⟩)
  | @damage xs ys r w w' h hw ih =>
    intro a b a' b' hab ha hb hs e1 e2 hx hc
    obtain ⟨t, ht, e1⟩ := Outcome.bind_eq_ok.1 e1
    obtain ⟨u, hu, e2⟩ := Outcome.bind_eq_ok.1 e2
    have key := same_apart hab ha hb hs (.inr (.inl ⟨r, w, w', rfl, rfl, h⟩)) nofun ht hu
    refine ih key.1 (based_step ha ht) (based_step hb hu) key.2 e1 e2 (fun k hk =>
      ⟨Nat.le_trans (hx k hk).1 (exclAsked_step ha ht k),
        Nat.le_trans (hx k hk).2 (exclAsked_step hb hu k)⟩) ?_
    intro us z tx vs v h2 h3
    exact hc (.damage r w :: us) z tx vs v (by rw [h2]; rfl) (Outcome.bind_eq_ok.2 ⟨t, ht, h3⟩)
  | @cursor xs ys w w' h hw ih =>
    intro a b a' b' hab ha hb hs e1 e2 hx hc
    obtain ⟨t, ht, e1⟩ := Outcome.bind_eq_ok.1 e1
    obtain ⟨u, hu, e2⟩ := Outcome.bind_eq_ok.1 e2
    have key := same_apart hab ha hb hs (.inr (.inr ⟨w, w', rfl, rfl, h⟩)) nofun ht hu
    refine ih key.1 (based_step ha ht) (based_step hb hu) key.2 e1 e2 (fun k hk =>
      ⟨Nat.le_trans (hx k hk).1 (exclAsked_step ha ht k),
        Nat.le_trans (hx k hk).2 (exclAsked_step hb hu k)⟩) ?_
    intro us z tx vs v h2 h3
    exact hc (.cursor w :: us) z tx vs v (by rw [h2]; rfl) (Outcome.bind_eq_ok.2 ⟨t, ht, h3⟩)

/-- C101, the part that holds.  Let a server have come, in any way, to a state in which its list of
security types is fixed.  From there on let two histories be given that differ only in what happens to
the clients in `A`: what they send, when, how their sockets behave, and when they go away.  If none of these
clients asks for exclusive access in either history, and the application sets the clipboard only while
some client outside `A` supports the extended clipboard, then all clients outside `A` are in the same
state at the end and saw the same: every message that was written to them, every callback that was made for
them, every frame that was started for them, in the same order.  The server's own state is the same but for
the counter of clients that need damage.  (What is missing is in `c101_clipboard_violated` and
`c101_sectypes_violated`; exclusive access is C06.) -/
theorem c101_isolated_partial {s0 s t1 t2 : Sys} {pre xs ys : List SysOp} (h0 : s0.peers = [])
    (hp : sysRun table pre s0 = .ok s) (hs : s.srv.secTypes ≠ []) (hw : Weave A xs ys)
    (e1 : sysRun table xs s = .ok t1) (e2 : sysRun table ys s = .ok t2)
    (hx : ∀ i, A i → exclAsked t1 i = exclAsked s i ∧ exclAsked t2 i = exclAsked s i)
    (hc : ∀ us z t vs u, xs = us ++ .sendCutText z t :: vs → sysRun table us s = .ok u →
      clipShared A u) :
    (∀ j, ¬A j → t1.peers[j]? = t2.peers[j]?) ∧
      ∃ d, t2.srv = { t1.srv with nDamageClients := d } := by
  have hb := based_run (based_nil h0) hp
  have h := weave_apart hw (.refl s) hb hb hs e1 e2
    (fun i hA => ⟨Nat.le_of_eq (hx i hA).1, Nat.le_of_eq (hx i hA).2⟩) hc
  exact ⟨h.peers, h.srv⟩

/-- two clients in the session, the second with an update requested -/
def duet : List SysOp :=
  [.connect, says 0 (hello ++ [1, 1]), .connect, says 1 (hello ++ [1, 1]),
    says 1 [3, 0, 0, 0, 0, 0, 0, 4, 0, 3]]

/-- client 0 asks for an update too, gets a frame, presses a key and goes away in the middle of a message -/
def noisy : List SysOp :=
  [says 0 [3, 0, 0, 0, 0, 0, 0, 4, 0, 3], .damage [⟨0, 0, 4, 3⟩] fun _ => (demoEnv, []),
    says 0 [4, 1, 0, 0, 0, 0, 0, 65, 4], says 1 [4, 1, 0, 0, 0, 0, 0, 66],
    .client 0 (.readable .closed) demoEnv [], .client 0 .idle demoEnv []]

/-- client 0 does nothing, and its socket does not take anything -/
def quiet : List SysOp :=
  [.damage [⟨0, 0, 4, 3⟩] fun j => if j = 0 then ({ demoEnv with lastWrite := .broken }, []) else (demoEnv, []),
    says 1 [4, 1, 0, 0, 0, 0, 0, 66]]

example : Weave (· = 0) noisy quiet :=
  .left _ _ _ rfl (.damage _ (fun j hj => by simp [show j ≠ 0 from hj]) (.left _ _ _ rfl (.same _
    (.left _ _ _ rfl (.left _ _ _ rfl .nil)))))

/-- two continuations of a run that end well -/
def fork (pre xs ys : List SysOp) (f : Sys → Sys → Sys → Bool) : Bool :=
  match demoRun pre with
  | some s =>
    match sysRun [0, 1, 2] xs s, sysRun [0, 1, 2] ys s with
    | .ok t1, .ok t2 => f s t1 t2
    | _, _ => false
  | none => false

theorem fork_witness {pre xs ys : List SysOp} {f : Sys → Sys → Sys → Bool} (h : fork pre xs ys f = true) :
    ∃ s t1 t2, sysRun [0, 1, 2] pre demo = .ok s ∧ sysRun [0, 1, 2] xs s = .ok t1 ∧
      sysRun [0, 1, 2] ys s = .ok t2 ∧ f s t1 t2 = true := by
  unfold fork demoRun at h
  split at h
  · rename_i s hs
    split at h
    · rename_i t1 t2 h1 h2
      split at hs
      · rename_i s2 hs2
        cases hs
        exact ⟨s, t1, t2, hs2, h1, h2, h⟩
      · cases hs
    · cases h
  · cases h

/-- nobody asked for exclusive access, client 0 fared differently, the other client and the server did not
notice -/
example : fork duet noisy quiet (fun s t u => s.srv.secTypes == [1] && exclAsked t 0 == exclAsked s 0 &&
      exclAsked u 0 == exclAsked s 0 && t.peers[0]? != u.peers[0]? &&
      t.peers[0]?.any (·.cl.freed) && t.peers[1]? == u.peers[1]? &&
      t.peers[1]?.any fun p => p.log.contains (.key 66 true) && p.log.any fun
        | .encode .. => true
        | _ => false) = true := by
  decide +kernel

/-- In the full statement of C101 nothing would be said about the clipboard.  It does not hold: a text that
the application sets is kept for later requests only if some client supports the extended clipboard just then
(server.c 1561-1574).  A client that says that it supports it, and asks, only after the text was set gets it if
another client happened to support it earlier, and gets nothing otherwise. -/
theorem c101_clipboard_violated : ∃ (pre xs ys : List SysOp) (s t1 t2 : Sys) (p1 p2 : Peer),
    Weave (· = 0) xs ys ∧ sysRun [0, 1, 2] pre demo = .ok s ∧
      sysRun [0, 1, 2] xs s = .ok t1 ∧ sysRun [0, 1, 2] ys s = .ok t2 ∧ s.srv.secTypes ≠ [] ∧
      exclAsked t1 0 = exclAsked s 0 ∧ exclAsked t2 0 = exclAsked s 0 ∧
      t1.peers[1]? = some p1 ∧ t2.peers[1]? = some p2 ∧
      .send .plain .clip (extClipOut (fProvide + fText) [0, 0, 0, 2, 104, 105, 0]) ∈ p1.log ∧
      .clipMsg (fRequest + fText) [] ∈ p2.log ∧
      .send .plain .clip (extClipOut (fProvide + fText) [0, 0, 0, 2, 104, 105, 0]) ∉ p2.log := by
  have hw : Weave (· = 0)
      [says 0 (Msg.setEncodings 0 [0, -1063131698]).wire, .sendCutText some [104, 105],
        says 1 (Msg.setEncodings 0 [0, -1063131698]).wire, says 1 (extClip 0 (fRequest + fText) [])]
      [.sendCutText some [104, 105],
        says 1 (Msg.setEncodings 0 [0, -1063131698]).wire, says 1 (extClip 0 (fRequest + fText) [])] :=
    .left _ _ _ rfl (.same _ (.same _ (.same _ .nil)))
  obtain ⟨s, t1, t2, h1, h2, h3, h4⟩ := fork_witness (pre := duet)
    (xs := [says 0 (Msg.setEncodings 0 [0, -1063131698]).wire, .sendCutText some [104, 105],
        says 1 (Msg.setEncodings 0 [0, -1063131698]).wire, says 1 (extClip 0 (fRequest + fText) [])])
    (ys := [.sendCutText some [104, 105],
        says 1 (Msg.setEncodings 0 [0, -1063131698]).wire, says 1 (extClip 0 (fRequest + fText) [])])
    (f := fun s t1 t2 => decide (s.srv.secTypes ≠ []) && exclAsked t1 0 == exclAsked s 0 &&
      exclAsked t2 0 == exclAsked s 0 &&
      (t1.peers[1]?.any fun p => p.log.contains
        (.send .plain .clip (extClipOut (fProvide + fText) [0, 0, 0, 2, 104, 105, 0]))) &&
      t2.peers[1]?.any fun p => p.log.contains (.clipMsg (fRequest + fText) []) && !p.log.contains
        (.send .plain .clip (extClipOut (fProvide + fText) [0, 0, 0, 2, 104, 105, 0]))) (by decide +kernel)
  simp only [Bool.and_eq_true, decide_eq_true_eq, beq_iff_eq, Option.any_eq_true, List.contains_iff_mem,
    Bool.not_eq_true', ← Bool.not_eq_true] at h4
  obtain ⟨⟨⟨⟨g1, g2⟩, g3⟩, p1, g4, g5⟩, p2, g6, g7, g8⟩ := h4
  exact ⟨_, _, _, s, t1, t2, p1, p2, hw, h1, h2, h3, g1, g2, g3, g4, g6, g5, g7, g8⟩

/-- Nor would it be assumed that the list of security types is fixed already.  It is fixed by the first client
that sends its version.  If the application turns on authentication afterwards (server.c 2887-2897), whether the
next client needs a password depends on whether some other client had sent those twelve bytes before. -/
theorem c101_sectypes_violated : ∃ (pre xs ys : List SysOp) (s t1 t2 : Sys) (p1 p2 : Peer),
    Weave (· = 0) xs ys ∧ sysRun [0, 1, 2] pre demo = .ok s ∧
      sysRun [0, 1, 2] xs s = .ok t1 ∧ sysRun [0, 1, 2] ys s = .ok t2 ∧
      exclAsked t1 0 = exclAsked s 0 ∧ exclAsked t2 0 = exclAsked s 0 ∧
      t1.peers[1]? = some p1 ∧ t2.peers[1]? = some p2 ∧
      .send .plain .secTypes [1, 1] ∈ p1.log ∧ .newClient ∈ p1.log ∧
      .send .plain .secTypes [2, 129, 5] ∈ p2.log ∧ .newClient ∉ p2.log := by
  have hw : Weave (· = 0) [says 0 hello, .enableAuth true true true, says 1 (hello ++ [1, 1])]
      [.enableAuth true true true, says 1 (hello ++ [1, 1])] :=
    .left _ _ _ rfl (.same _ (.same _ .nil))
  obtain ⟨s, t1, t2, h1, h2, h3, h4⟩ := fork_witness (pre := [.connect, .connect])
    (xs := [says 0 hello, .enableAuth true true true, says 1 (hello ++ [1, 1])])
    (ys := [.enableAuth true true true, says 1 (hello ++ [1, 1])])
    (f := fun s t1 t2 => exclAsked t1 0 == exclAsked s 0 && exclAsked t2 0 == exclAsked s 0 &&
      (t1.peers[1]?.any fun p => p.log.contains (.send .plain .secTypes [1, 1]) &&
        p.log.contains .newClient) &&
      t2.peers[1]?.any fun p => p.log.contains (.send .plain .secTypes [2, 129, 5]) &&
        !p.log.contains .newClient) (by decide +kernel)
  simp only [Bool.and_eq_true, beq_iff_eq, Option.any_eq_true, List.contains_iff_mem,
    Bool.not_eq_true', ← Bool.not_eq_true] at h4
  obtain ⟨⟨⟨g2, g3⟩, p1, g4, g5, g9⟩, p2, g6, g7, g8⟩ := h4
  exact ⟨_, _, _, s, t1, t2, p1, p2, hw, h1, h2, h3, g2, g3, g4, g6, g5, g9, g7, g8⟩

end Verif.System
