import Verif.Spec.Fb

/-! # Lemmas about framebuffers -/

namespace Verif.Fb

/-- counts -/
structure Cnt (s : State) : Prop where
  hold : s.hold = s.users.length
  ref : s.ref = s.users.length + s.app
  nodup : (s.users.map Prod.fst).Nodup
  freed : s.freed = true ↔ s.ref = 0

theorem setPhase_fst (u : Nat) (p : Phase) (s : State) :
    (setPhase u p s).users.map Prod.fst = s.users.map Prod.fst := by
  simp only [setPhase, List.map_map]
  refine List.map_congr_left ?_
  intro e _
  dsimp only [Function.comp]
  split
  next h => exact h.symm
  · rfl

theorem setPhase_len (u : Nat) (p : Phase) (s : State) : (setPhase u p s).users.length = s.users.length := by
  simp [setPhase]

theorem phase_mem {u : Nat} {s : State} {p : Phase} (h : phase u s = some p) : (u, p) ∈ s.users := by
  rw [phase, Option.map_eq_some_iff] at h
  obtain ⟨e, he, rfl⟩ := h
  have hm := List.mem_of_find?_eq_some he
  have hp := List.find?_some he
  simp only [decide_eq_true_eq] at hp
  obtain ⟨a, b⟩ := e
  dsimp only at hp
  subst hp
  exact hm

theorem phase_some {u : Nat} {s : State} (h : (phase u s).isSome = true) : ∃ p, (u, p) ∈ s.users := by
  obtain ⟨p, hp⟩ := Option.isSome_iff_exists.mp h
  exact ⟨p, phase_mem hp⟩

theorem phase_none {u : Nat} {s : State} (h : ¬ (phase u s).isSome = true) : u ∉ s.users.map Prod.fst := by
  intro hm
  obtain ⟨e, he, rfl⟩ := List.mem_map.mp hm
  apply h
  rw [phase, Option.isSome_map, List.find?_isSome]
  exact ⟨e, he, by simp⟩

theorem filter_len : ∀ (l : List (Nat × Phase)) (u : Nat), (l.map Prod.fst).Nodup → u ∈ l.map Prod.fst →
    (l.filter fun e => e.1 ≠ u).length + 1 = l.length
  | [], _, _, h => by simp at h
  | e :: l, u, hn, h => by
    rw [List.map_cons, List.nodup_cons] at hn
    by_cases he : e.1 = u
    · have hf : l.filter (fun e => decide (e.1 ≠ u)) = l := by
        rw [List.filter_eq_self]
        intro a ha
        rw [decide_eq_true_eq]
        intro e'
        exact hn.1 (he ▸ e' ▸ List.mem_map_of_mem ha)
      rw [List.filter_cons_of_neg (by simp [he]), hf, List.length_cons]
    · have hu : u ∈ l.map Prod.fst := by
        rw [List.map_cons, List.mem_cons] at h
        rcases h with h | h
        · exact absurd h.symm he
        · exact h
      rw [List.filter_cons_of_pos (by simp [he]), List.length_cons, List.length_cons,
        filter_len l u hn.2 hu]

theorem unmap_users (s : State) : (unmap s).users = s.users ∧ (unmap s).hold = s.hold ∧ (unmap s).ref = s.ref ∧
    (unmap s).app = s.app ∧ (unmap s).freed = s.freed ∧ (unmap s).releases = s.releases ∧ (unmap s).gbm = s.gbm := by
  rw [unmap]
  split <;> exact ⟨rfl, rfl, rfl, rfl, rfl, rfl, rfl⟩

theorem release_users (s : State) : (release s).users = s.users ∧ (release s).hold = s.hold - 1 ∧
    (release s).ref = s.ref ∧ (release s).app = s.app ∧ (release s).freed = s.freed ∧ (release s).gbm = s.gbm ∧
    (release s).releases = s.releases + (if s.hold - 1 = 0 then 1 else 0) := by
  rw [release]
  split
  next h => exact ⟨rfl, rfl, rfl, rfl, rfl, rfl, rfl⟩
  next h =>
    obtain ⟨h1, h2, h3, h4, h5, h6, h7⟩ := unmap_users { s with hold := s.hold - 1 }
    have h : s.hold - 1 = 0 := by omega
    rw [if_pos h]
    exact ⟨h1, h2, h3, h4, h5, h7, rfl⟩

theorem unref_users (s : State) : (unref s).users = s.users ∧ (unref s).hold = s.hold ∧
    (unref s).ref = s.ref - 1 ∧ (unref s).app = s.app ∧ (unref s).releases = s.releases ∧
    (unref s).freed = (s.freed || decide (s.ref - 1 = 0)) ∧ (unref s).gbm = s.gbm := by
  rw [unref]
  split
  next h =>
    obtain ⟨h1, h2, h3, h4, h5, h6, h7⟩ := unmap_users { s with ref := s.ref - 1 }
    refine ⟨h1, h2, h3, h4, h6, ?_, h7⟩
    simp [h]
  next h => exact ⟨rfl, rfl, rfl, rfl, rfl, by simp [h], rfl⟩

/-- dropping a user, whether its pixels were unmapped before or not -/
theorem drop_cnt {u : Nat} {s : State} (h : Cnt s) (hf : s.freed = false) (hu : (phase u s).isSome = true) (v : State)
    (hv : v = { s with users := s.users.filter fun e => e.1 ≠ u } ∨
      v = unmap { s with users := s.users.filter fun e => e.1 ≠ u }) :
    Cnt (unref (release v)) ∧
      (unref (release v)).users = s.users.filter (fun e => e.1 ≠ u) ∧
      (unref (release v)).app = s.app ∧
      (unref (release v)).releases = s.releases + if (unref (release v)).users = [] then 1 else 0 := by
  obtain ⟨p, hp⟩ := phase_some hu
  have hlen := filter_len s.users u h.nodup (List.mem_map_of_mem hp)
  have hw : v.users = s.users.filter (fun e => decide (e.1 ≠ u)) ∧ v.hold = s.hold ∧ v.ref = s.ref ∧ v.app = s.app ∧
      v.freed = s.freed ∧ v.releases = s.releases ∧ v.gbm = s.gbm := by
    rcases hv with rfl | rfl
    · exact ⟨rfl, rfl, rfl, rfl, rfl, rfl, rfl⟩
    · exact unmap_users _
  obtain ⟨v1, v2, v3, v4, v5, v6, -⟩ := hw
  obtain ⟨r1, r2, r3, r4, r5, -, r7⟩ := release_users v
  obtain ⟨u1, u2, u3, u4, u5, u6, -⟩ := unref_users (release v)
  have hh := h.hold
  have hr := h.ref
  have eu : (unref (release v)).users = s.users.filter (fun e => decide (e.1 ≠ u)) := by rw [u1, r1, v1]
  have el : (s.users.filter (fun e => decide (e.1 ≠ u))).length = s.users.length - 1 := by
    simp only [ne_eq] at hlen ⊢
    omega
  have hpos : 0 < s.users.length := List.length_pos_of_mem hp
  refine ⟨⟨?_, ?_, ?_, ?_⟩, eu, by rw [u4, r4, v4], ?_⟩
  · rw [u2, r2, v2, eu, el, hh]
  · rw [u3, r3, v3, eu, el, u4, r4, v4, hr]
    omega
  · rw [eu]
    exact h.nodup.sublist ((List.filter_sublist).map _)
  · rw [u6, u3, r5, r3, v5, hf, v3]
    simp
  · rw [u5, r7, v6, v2, eu]
    have : (s.users.filter (fun e => decide (e.1 ≠ u)) = []) ↔ s.hold - 1 = 0 := by
      rw [← List.length_eq_zero_iff, el, hh]
    by_cases hc : s.hold - 1 = 0
    · rw [if_pos hc, if_pos (this.mpr hc)]
    · rw [if_neg hc, if_neg (fun e => hc (this.mp e))]

theorem same_cnt {s t : State} (h : Cnt s) (h1 : t.users.map Prod.fst = s.users.map Prod.fst)
    (h2 : t.users.length = s.users.length) (h3 : t.hold = s.hold) (h4 : t.ref = s.ref) (h5 : t.app = s.app)
    (h6 : t.freed = s.freed) : Cnt t :=
  ⟨by rw [h3, h2]; exact h.hold, by rw [h4, h2, h5]; exact h.ref, by rw [h1]; exact h.nodup,
    by rw [h6, h4]; exact h.freed⟩

theorem check_cnt {u : Nat} {s : State} (h : Cnt s) : Cnt (check u s) := by
  rw [check]
  split <;> exact same_cnt h (setPhase_fst _ _ _) (setPhase_len _ _ _) rfl rfl rfl rfl

theorem commit_cnt {u : Nat} {ok : Bool} {s : State} (h : Cnt s) : Cnt (commit u ok s) := by
  rw [commit]
  split <;> exact same_cnt h (setPhase_fst _ _ _) (setPhase_len _ _ _) rfl rfl rfl rfl

theorem step_cnt {o : Op} {s t : State} (h : Cnt s) (e : step o s = .ok t) : Cnt t := by
  unfold step at e
  split at e
  · cases e
    exact h
  next hf =>
  have hf : s.freed = false := by simpa using hf
  cases o with
  | acquire u =>
    dsimp only at e
    split at e
    · cases e; exact h
    next hp =>
      cases e
      refine ⟨?_, ?_, ?_, ?_⟩
      · have := h.hold
        simp
        omega
      · have := h.ref
        simp
        omega
      · dsimp only
        rw [List.map_append, List.map_singleton, (List.perm_append_singleton _ _).nodup_iff]
        exact List.nodup_cons.mpr ⟨phase_none hp, h.nodup⟩
      · simp [hf]
  | check u =>
    dsimp only at e
    split at e <;> cases e
    · exact check_cnt h
    · exact h
  | commit u ok =>
    dsimp only at e
    split at e <;> cases e
    · exact commit_cnt h
    · exact h
  | map u ok =>
    dsimp only at e
    split at e
    · split at e <;> cases e
      · exact same_cnt h (setPhase_fst _ _ _) (setPhase_len _ _ _) rfl rfl rfl rfl
      · exact commit_cnt h
    · cases e; exact h
  | read u =>
    dsimp only at e
    split at e
    · split at e
      · cases e; exact h
      · cases e
    · cases e; exact h
  | drop u =>
    dsimp only at e
    split at e
    next hp => cases e; exact (drop_cnt h hf hp _ (.inl rfl)).1
    · cases e; exact h
  | dropDevice u =>
    dsimp only at e
    split at e
    next hp => cases e; exact (drop_cnt h hf hp _ (.inr rfl)).1
    · cases e; exact h
  | appRef =>
    dsimp only at e
    split at e <;> cases e
    · exact h
    · refine ⟨h.hold, ?_, h.nodup, ?_⟩
      · have := h.ref
        dsimp only
        omega
      · simp [hf]
  | appUnref =>
    dsimp only at e
    split at e <;> cases e
    · exact h
    · obtain ⟨u1, u2, u3, u4, -, u6, -⟩ := unref_users { s with app := s.app - 1 }
      have hr := h.ref
      refine ⟨by rw [u1, u2]; exact h.hold, ?_, by rw [u1]; exact h.nodup, ?_⟩
      · rw [u1, u3, u4]
        dsimp only
        omega
      · rw [u6, u3]
        simp [hf]

theorem init_cnt (b : Bool) : Cnt (if b then ofBo else simple) := by
  cases b <;> exact ⟨rfl, rfl, List.nodup_nil, by decide⟩

theorem run_cnt : ∀ (os : List Op) (s t : State), Cnt s → run os s = .ok t → Cnt t
  | [], s, t, h, e => by cases e; exact h
  | o :: os, s, t, h, e => by
    rw [run] at e
    cases hs : step o s with
    | ok u => rw [hs] at e; exact run_cnt os u t (step_cnt h hs) e
    | ub w => rw [hs] at e; cases e
    | abort w => rw [hs] at e; cases e

/-- mapping, when it is done in one piece and undone by the last user only -/
structure Mapd (s : State) : Prop where
  simple : s.gbm = false → s.addr.isSome = true
  addr : s.gbm = true → s.addr = s.handle
  maps : s.maps = if s.gbm then s.handle.toList else []
  calm : ∀ e ∈ s.users, e.2 ≠ .mapping
  reads : s.gbm = true → (∃ e ∈ s.users, e.2 = .mapped) → s.handle.isSome = true
  none : s.gbm = true → s.users = [] → s.handle = none

theorem unmap_mapd {s : State} (h : Mapd s) (hr : s.gbm = true → ∀ e ∈ s.users, e.2 ≠ .mapped) : Mapd (unmap s) := by
  rw [unmap]
  split
  next hg =>
    refine ⟨fun h' => ?_, fun _ => rfl, ?_, h.calm, ?_, fun _ _ => rfl⟩
    · exact absurd h' (by simp [hg])
    · have := h.maps
      rw [if_pos hg] at this
      dsimp only
      rw [if_pos hg]
      cases hh : s.handle with
      | none => rw [hh] at this; exact this
      | some m => rw [hh] at this; dsimp only; rw [this]; simp
    · intro _ ⟨e, he, hm⟩
      exact absurd hm (hr hg e he)
  · exact h

theorem drop_mapd {u : Nat} {s : State} (hc : Cnt s) (h : Mapd s) (hf : s.freed = false)
    (hp : (phase u s).isSome = true) :
    Mapd (unref (release { s with users := s.users.filter fun e => e.1 ≠ u })) := by
  obtain ⟨q, hq⟩ := phase_some hp
  have hlen := filter_len s.users u hc.nodup (List.mem_map_of_mem hq)
  have hh := hc.hold
  have h0 : ∀ m n, m ≠ 0 ∨ True →
      (s.gbm = true → s.users.filter (fun e => decide (e.1 ≠ u)) = [] → s.handle = none) →
      Mapd { s with users := s.users.filter fun e => e.1 ≠ u, hold := m, ref := n } := by
    intro m n _ hn
    refine ⟨h.simple, h.addr, h.maps, ?_, ?_, hn⟩
    · intro e he
      exact h.calm e (List.mem_filter.mp he).1
    · rintro hg ⟨e, he, hm⟩
      exact h.reads hg ⟨e, (List.mem_filter.mp he).1, hm⟩
  have hrel : Mapd (release { s with users := s.users.filter fun e => e.1 ≠ u }) := by
    rw [release]
    split
    next hne =>
      refine h0 _ _ (.inr trivial) ?_
      intro _ he
      exfalso
      apply hne
      dsimp only
      simp only [ne_eq] at he hlen
      rw [he] at hlen
      simp at hlen
      omega
    next he =>
      have he : s.hold - 1 = 0 := by
        dsimp only at he
        omega
      have hnil : s.users.filter (fun e => decide (e.1 ≠ u)) = [] := by
        rw [← List.length_eq_zero_iff]
        simp only [ne_eq] at hlen ⊢
        omega
      have hw : ∀ w : State, w.users = [] → Mapd { w with users := [] } → True := fun _ _ _ => trivial
      have hx : Mapd (unmap { s with users := s.users.filter (fun e => e.1 ≠ u), hold := s.hold - 1 }) := by
        rw [unmap]
        split
        next hg =>
          dsimp only at hg
          refine ⟨fun h' => ?_, fun _ => rfl, ?_, ?_, ?_, fun _ _ => rfl⟩
          · exact absurd h' (by simp [hg])
          · have := h.maps
            rw [if_pos hg] at this
            dsimp only
            rw [if_pos hg]
            cases hh : s.handle with
            | none => rw [hh] at this; exact this
            | some m => rw [hh] at this; dsimp only; rw [this]; simp
          · intro e he
            exact h.calm e (List.mem_filter.mp he).1
          · rintro _ ⟨e, he, -⟩
            dsimp only at he
            rw [hnil] at he
            cases he
        next hg => exact h0 _ _ (.inr trivial) (fun h' => absurd h' hg)
      exact ⟨hx.simple, hx.addr, hx.maps, hx.calm, hx.reads, hx.none⟩
  obtain ⟨r1, r2, r3, r4, r5, r6, -⟩ := release_users { s with users := s.users.filter fun e => e.1 ≠ u }
  generalize hw : release { s with users := s.users.filter fun e => e.1 ≠ u } = w at hrel r1 r2 r3 r4 r5 r6
  rw [unref]
  split
  next he =>
    have hm : Mapd { w with ref := w.ref - 1 } :=
      ⟨hrel.simple, hrel.addr, hrel.maps, hrel.calm, hrel.reads, hrel.none⟩
    have hx : Mapd (unmap { w with ref := w.ref - 1 }) := by
      refine unmap_mapd hm ?_
      intro _ e he'
      exfalso
      have hr := hc.ref
      dsimp only at he' he
      rw [r1] at he'
      have := List.length_pos_of_mem he'
      dsimp only at r3
      simp only [ne_eq] at hlen this
      omega
    exact ⟨hx.simple, hx.addr, hx.maps, hx.calm, hx.reads, hx.none⟩
  · exact ⟨hrel.simple, hrel.addr, hrel.maps, hrel.calm, hrel.reads, hrel.none⟩

theorem setPhase_mem {u : Nat} {p : Phase} {s : State} {e : Nat × Phase} (h : e ∈ (setPhase u p s).users) :
    e = (u, p) ∨ e ∈ s.users := by
  rw [setPhase, List.mem_map] at h
  obtain ⟨a, ha, rfl⟩ := h
  split
  · exact .inl rfl
  · exact .inr ha

theorem readable_of {s : State} (h : Mapd s) (hf : s.freed = false) {u : Nat} (hp : phase u s = some .mapped) :
    readable s = true := by
  rw [readable, hf]
  cases hg : s.gbm with
  | false =>
    have := h.simple hg
    cases ha : s.addr with
    | none => rw [ha] at this; cases this
    | some m => simp
  | true =>
    have hm := h.reads hg ⟨_, phase_mem hp, rfl⟩
    obtain ⟨m, hh⟩ := Option.isSome_iff_exists.mp hm
    rw [h.addr hg, hh]
    have := h.maps
    rw [hg, hh] at this
    simp [this]

theorem step_mapd {o : Op} {s : State} (hc : Cnt s) (h : Mapd s) (ho : o.Plain) :
    ∃ t, step o s = .ok t ∧ Mapd t := by
  unfold step
  split
  · exact ⟨s, rfl, h⟩
  next hf =>
  have hf : s.freed = false := by simpa using hf
  cases o with
  | check u => exact ho.elim
  | commit u ok => exact ho.elim
  | dropDevice u => exact ho.elim
  | acquire u =>
    dsimp only
    split
    · exact ⟨s, rfl, h⟩
    · refine ⟨_, rfl, h.simple, h.addr, h.maps, ?_, ?_, ?_⟩
      · intro e he
        rcases List.mem_append.mp he with he | he
        · exact h.calm e he
        · simp only [List.mem_singleton] at he
          subst he
          nofun
      · rintro hg ⟨e, he, hm⟩
        rcases List.mem_append.mp he with he | he
        · exact h.reads hg ⟨e, he, hm⟩
        · simp only [List.mem_singleton] at he
          subst he
          cases hm
      · intro _ he
        simp at he
  | map u ok =>
    dsimp only
    split
    next hp =>
      have hne : s.users ≠ [] := fun e => by
        have := phase_mem hp
        rw [e] at this
        cases this
      have hne' : ∀ (p : Phase) (w : State), w.users = s.users → (setPhase u p w).users ≠ [] := by
        intro p w hw e
        have := setPhase_len u p w
        rw [e, hw] at this
        exact hne (List.length_eq_zero_iff.mp this.symm)
      split
      next hg =>
        refine ⟨_, rfl, h.simple, h.addr, h.maps, ?_, ?_, fun _ e => absurd e (hne' _ _ rfl)⟩
        · intro e he
          rcases setPhase_mem he with rfl | he
          · nofun
          · exact h.calm e he
        · intro hg' _
          have hg'' : s.gbm = true := hg'
          have : s.handle.isSome = true := by simpa [hg''] using hg
          exact this
      next hg =>
        simp only [Bool.or_eq_true, Bool.not_eq_true', not_or, Bool.not_eq_false] at hg
        have hh : s.handle = none := by
          cases hh : s.handle with
          | none => rfl
          | some m => rw [hh] at hg; exact absurd rfl hg.2
        have hmaps := h.maps
        rw [hg.1, hh] at hmaps
        refine ⟨_, rfl, ?_⟩
        rw [commit]
        split
        · refine ⟨fun h' => absurd h' (by simp [setPhase, hg.1]), fun _ => rfl, ?_, ?_, fun _ _ => rfl,
            fun _ e => absurd e (hne' _ _ rfl)⟩
          · simp [setPhase, hg.1, hmaps]
          · intro e he
            rcases setPhase_mem he with rfl | he
            · nofun
            · exact h.calm e he
        · refine ⟨fun h' => absurd h' (by simp [setPhase, hg.1]), fun _ => rfl, ?_, ?_, ?_,
            fun _ _ => rfl⟩
          · simp [setPhase, hg.1, hmaps]
          · intro e he
            rcases setPhase_mem he with rfl | he
            · nofun
            · exact h.calm e he
          · rintro _ ⟨e, he, hm⟩
            rcases setPhase_mem he with rfl | he
            · cases hm
            · have := h.reads hg.1 ⟨e, he, hm⟩
              rw [hh] at this
              cases this
    · exact ⟨s, rfl, h⟩
  | read u =>
    dsimp only
    split
    next hp =>
      rw [if_pos (readable_of h hf hp)]
      exact ⟨s, rfl, h⟩
    · exact ⟨s, rfl, h⟩
  | drop u =>
    dsimp only
    split
    next hp => exact ⟨_, rfl, drop_mapd hc h hf hp⟩
    · exact ⟨s, rfl, h⟩
  | appRef =>
    dsimp only
    split
    · exact ⟨s, rfl, h⟩
    · exact ⟨_, rfl, h.simple, h.addr, h.maps, h.calm, h.reads, h.none⟩
  | appUnref =>
    dsimp only
    split
    · exact ⟨s, rfl, h⟩
    next ha =>
      refine ⟨_, rfl, ?_⟩
      rw [unref]
      split
      next he =>
        have hx : Mapd (unmap { s with app := s.app - 1, ref := s.ref - 1 }) := by
          refine unmap_mapd ⟨h.simple, h.addr, h.maps, h.calm, h.reads, h.none⟩ ?_
          intro _ e he'
          exfalso
          have := List.length_pos_of_mem he'
          have hr := hc.ref
          dsimp only at he this
          omega
        exact ⟨hx.simple, hx.addr, hx.maps, hx.calm, hx.reads, hx.none⟩
      · exact ⟨h.simple, h.addr, h.maps, h.calm, h.reads, h.none⟩

theorem init_mapd (b : Bool) : Mapd (if b then ofBo else simple) := by
  cases b
  · exact ⟨fun _ => rfl, nofun, rfl, nofun, nofun, nofun⟩
  · exact ⟨nofun, fun _ => rfl, rfl, nofun, fun _ h => (by obtain ⟨_, h, _⟩ := h; cases h), fun _ _ => rfl⟩

theorem run_mapd : ∀ (os : List Op) (s : State), Cnt s → Mapd s → (∀ o ∈ os, o.Plain) →
    ∃ t, run os s = .ok t ∧ Cnt t ∧ Mapd t
  | [], s, hc, h, _ => ⟨s, rfl, hc, h⟩
  | o :: os, s, hc, h, ho => by
    obtain ⟨u, e, hu⟩ := step_mapd hc h (ho o (by simp))
    obtain ⟨t, e', hct, ht⟩ := run_mapd os u (step_cnt hc e) hu fun p hp => ho p (by simp [hp])
    exact ⟨t, by rw [run, e]; exact e', hct, ht⟩

end Verif.Fb
