import Verif.Spec.Listen

/-! # Lemmas about sockets -/

namespace Verif.Listen

/-- the descriptors of the server's that are in use -/
def State.live (s : State) : List Nat := s.sockets.map Sock.fd ++ s.clients

structure FdInv (s : State) : Prop where
  all : (s.closes ++ s.live).Perm s.owned
  nodup : s.owned.Nodup
  fresh : ∀ x ∈ s.owned, x < s.nextFd

theorem init_fd : FdInv {} := ⟨List.Perm.refl _, List.nodup_nil, nofun⟩

theorem nodup_fresh {s : State} (h : FdInv s) : (s.owned ++ [s.nextFd]).Nodup := by
  rw [(List.perm_append_singleton _ _).nodup_iff]
  refine List.nodup_cons.mpr ⟨fun hx => ?_, h.nodup⟩
  have := h.fresh _ hx
  omega

theorem lt_fresh {s : State} (h : FdInv s) : ∀ x ∈ s.owned ++ [s.nextFd], x < s.nextFd + 1 := by
  intro x hx
  rcases List.mem_append.mp hx with hx | hx
  · have := h.fresh x hx
    omega
  · simp only [List.mem_singleton] at hx
    omega

/-- a descriptor that is opened and at once in use -/
theorem fd_open {s t : State} (h : FdInv s) (hc : t.closes = s.closes) (hl : t.live.Perm (s.nextFd :: s.live))
    (ho : t.owned = s.owned ++ [s.nextFd]) (hn : t.nextFd = s.nextFd + 1) : FdInv t := by
  refine ⟨?_, by rw [ho]; exact nodup_fresh h, by rw [ho, hn]; exact lt_fresh h⟩
  rw [hc, ho]
  refine (hl.append_left _).trans ?_
  refine List.perm_middle.trans ?_
  exact (h.all.cons _).trans (List.perm_append_singleton _ _).symm

/-- a descriptor that is opened and closed -/
theorem fd_openClose {s t : State} (h : FdInv s) (hc : t.closes = s.closes ++ [s.nextFd]) (hl : t.live = s.live)
    (ho : t.owned = s.owned ++ [s.nextFd]) (hn : t.nextFd = s.nextFd + 1) : FdInv t := by
  refine ⟨?_, by rw [ho]; exact nodup_fresh h, by rw [ho, hn]; exact lt_fresh h⟩
  rw [hc, ho, hl, List.append_assoc]
  refine List.perm_middle.trans ?_
  exact (h.all.cons _).trans (List.perm_append_singleton _ _).symm

/-- nothing about descriptors changes -/
theorem fd_same {s t : State} (h : FdInv s) (hc : t.closes = s.closes) (hl : t.live = s.live)
    (ho : t.owned = s.owned) (hn : s.nextFd ≤ t.nextFd) : FdInv t := by
  refine ⟨by rw [hc, hl, ho]; exact h.all, by rw [ho]; exact h.nodup, ?_⟩
  intro x hx
  rw [ho] at hx
  have := h.fresh x hx
  omega

/-- what `bindTcp` does: it opens and closes, and then opens one more if it succeeds -/
theorem bindTcp_fd : ∀ (l : List Addr) (s : State), FdInv s →
    (∃ t, bindTcp l s = (none, t) ∧ FdInv t ∧ t.sockets = s.sockets ∧ t.clients = s.clients ∧
        t.files = s.files ∧ t.appFiles = s.appFiles ∧ t.display = s.display ∧ t.dead = s.dead) ∨
      ∃ t, bindTcp l s = (some t.nextFd, openFd t) ∧ FdInv t ∧ t.sockets = s.sockets ∧ t.clients = s.clients ∧
        t.files = s.files ∧ t.appFiles = s.appFiles ∧ t.display = s.display ∧ t.dead = s.dead
  | [], s, h => .inl ⟨s, rfl, h, rfl, rfl, rfl, rfl, rfl, rfl⟩
  | .noSocket :: l, s, h => bindTcp_fd l s h
  | .noOption :: l, s, h => by
    have ht : FdInv (closeFd s.nextFd (openFd s)) := fd_openClose h rfl rfl rfl rfl
    exact bindTcp_fd l _ ht
  | .noBind :: l, s, h => by
    have ht : FdInv (closeFd s.nextFd (openFd s)) := fd_openClose h rfl rfl rfl rfl
    exact bindTcp_fd l _ ht
  | .bound :: _, s, h => .inr ⟨s, rfl, h, rfl, rfl, rfl, rfl, rfl, rfl⟩

theorem delClients_eq : ∀ (l : List Nat) (s : State), delClients l s = { s with closes := s.closes ++ l }
  | [], s => by simp [delClients]
  | c :: l, s => by
    rw [delClients, delClients_eq l]
    simp [closeFd]

/-- the file that goes with a socket of the server's own -/
def Sock.own (k : Sock) : Option Nat := if k.external then none else k.path

theorem delSockets_eq : ∀ (l : List Sock) (s : State),
    delSockets l s = { s with closes := s.closes ++ l.map Sock.fd,
                              files := s.files.filter fun p => p ∉ l.filterMap Sock.own }
  | [], s => by
    have : s.files.filter (fun p => decide (p ∉ ([] : List Sock).filterMap Sock.own)) = s.files := by
      rw [List.filter_eq_self]
      simp
    rw [this, List.map_nil, List.append_nil, delSockets]
  | k :: l, s => by
    rw [delSockets, delSockets_eq l]
    obtain ⟨fd, ext, ws, path⟩ := k
    cases ext with
    | true => simp [closeFd, Sock.own, List.filterMap_cons]
    | false =>
      cases path with
      | none => simp [closeFd, Sock.own, List.filterMap_cons]
      | some p =>
        simp [closeFd, Sock.own, List.filterMap_cons, unlink, List.filter_filter, Bool.and_comm]

structure FileInv (left : List Nat) (s : State) : Prop where
  all : s.files.Perm (s.appFiles ++ s.sockets.filterMap Sock.own ++ left)
  nodup : s.files.Nodup

theorem init_file : FileInv [] {} := ⟨List.Perm.refl _, List.nodup_nil⟩

theorem file_same {left : List Nat} {s t : State} (h : FileInv left s) (hf : t.files = s.files)
    (ha : t.appFiles = s.appFiles) (hs : t.sockets.filterMap Sock.own = s.sockets.filterMap Sock.own) :
    FileInv left t := ⟨by rw [hf, ha, hs]; exact h.all, by rw [hf]; exact h.nodup⟩

theorem step_fd {o : Op} {s t : State} (h : FdInv s) (hd : s.display = some true) (ho : o.KeepsDisplay)
    (e : step o s = .ok t) : FdInv t ∧ t.display = some true := by
  unfold step at e
  split at e
  · cases e
    exact ⟨h, hd⟩
  cases o with
  | listenTcp ws addrs ok =>
    cases e
    rw [listenTcp]
    rcases bindTcp_fd addrs s h with ⟨t, et, ht, h1, h2, -, -, h5, -⟩ | ⟨t, et, ht, h1, h2, -, -, h5, -⟩
    · rw [et]
      exact ⟨ht, h5.trans hd⟩
    · rw [et]
      dsimp only [listen]
      cases ok with
      | true => exact ⟨fd_open ht rfl (List.Perm.refl _) rfl rfl, h5.trans hd⟩
      | false => exact ⟨fd_openClose ht rfl rfl rfl rfl, h5.trans hd⟩
  | listenUnix ws path fits sock bind ok =>
    cases e
    rw [listenUnix, bindUnix]
    split
    · rename_i hq
      split at hq
      · cases hq
        exact ⟨h, hd⟩
      · split at hq
        · cases hq
          exact ⟨h, hd⟩
        · split at hq
          · cases hq
          · cases hq
            exact ⟨fd_openClose h rfl rfl rfl rfl, hd⟩
    · rename_i fd u hq
      split at hq
      · cases hq
      · split at hq
        · cases hq
        · split at hq
          · cases hq
            dsimp only [listen]
            cases ok with
            | true => exact ⟨fd_open h rfl (List.Perm.refl _) rfl rfl, hd⟩
            | false => cases ws <;> exact ⟨fd_openClose h rfl rfl rfl rfl, hd⟩
          · cases hq
  | listenFd ws path ok =>
    dsimp only at e
    split at e
    · cases e
      rw [listenFd, listen]
      cases ok with
      | true => exact ⟨fd_open h rfl (List.Perm.refl _) rfl rfl, hd⟩
      | false => exact ⟨fd_same h rfl rfl rfl (Nat.le_succ _), hd⟩
    · cases e
      exact ⟨h, hd⟩
  | appFile p =>
    dsimp only at e
    split at e
    · cases e
      exact ⟨h, hd⟩
    · cases e
      exact ⟨fd_same h rfl rfl rfl (Nat.le_refl _), hd⟩
  | display d =>
    cases e
    exact ⟨fd_same h rfl rfl rfl (Nat.le_refl _), ho⟩
  | connect a =>
    dsimp only at e
    split at e
    · cases e
      exact ⟨h, hd⟩
    · cases a with
      | noMemory => cases e; exact ⟨h, hd⟩
      | refused => cases e; exact ⟨h, hd⟩
      | noStream => cases e; exact ⟨fd_openClose h rfl rfl rfl rfl, hd⟩
      | ok =>
        simp only [onConnection, hd] at e
        cases e
        refine ⟨fd_open h rfl ?_ rfl rfl, hd⟩
        exact List.perm_middle
  | gone fd =>
    dsimp only at e
    split at e
    · rename_i hm
      cases e
      refine ⟨⟨?_, h.nodup, h.fresh⟩, hd⟩
      refine List.Perm.trans ?_ h.all
      dsimp only [State.live, closeFd]
      rw [List.append_assoc]
      refine List.Perm.append_left _ ?_
      rw [List.singleton_append]
      refine List.perm_middle.symm.trans ?_
      exact List.Perm.append_left _ (List.perm_cons_erase hm).symm
    · cases e
      exact ⟨h, hd⟩
  | del =>
    cases e
    refine ⟨⟨?_, ?_, ?_⟩, ?_⟩
    · rw [del, delClients_eq, delSockets_eq]
      dsimp only [State.live, List.map_nil]
      rw [List.map_nil, List.append_nil, List.append_nil, List.append_assoc]
      exact ((List.perm_append_comm).append_left _).trans h.all
    · rw [del, delClients_eq, delSockets_eq]
      exact h.nodup
    · rw [del, delClients_eq, delSockets_eq]
      exact h.fresh
    · rw [del, delClients_eq, delSockets_eq]
      exact hd

theorem run_fd : ∀ (os : List Op) (s t : State), FdInv s → s.display = some true → (∀ o ∈ os, o.KeepsDisplay) →
    run os s = .ok t → FdInv t
  | [], s, t, h, _, _, e => by cases e; exact h
  | o :: os, s, t, h, hd, ho, e => by
    rw [run] at e
    cases hs : step o s with
    | ok u =>
      rw [hs] at e
      obtain ⟨hu, hdu⟩ := step_fd h hd (ho o (by simp)) hs
      exact run_fd os u t hu hdu (fun p hp => ho p (by simp [hp])) e
    | ub w => rw [hs] at e; cases e
    | abort w => rw [hs] at e; cases e

/-- while there is a display with a buffer, nothing goes wrong -/
theorem run_ready : ∀ (os : List Op) (s : State), s.display = some true → (∀ o ∈ os, o.KeepsDisplay) →
    ∃ t, run os s = .ok t
  | [], s, _, _ => ⟨s, rfl⟩
  | o :: os, s, hd, ho => by
    have : ∃ u, step o s = .ok u ∧ u.display = some true := by
      unfold step
      split
      · exact ⟨s, rfl, hd⟩
      have hb : ∀ (l : List Addr) (s : State), (bindTcp l s).2.display = s.display := by
        intro l
        induction l with
        | nil => intro s; rfl
        | cons a l ih =>
          intro s
          cases a with
          | noSocket => exact ih s
          | noOption => exact ih _
          | noBind => exact ih _
          | bound => rfl
      cases o with
      | listenTcp ws addrs ok =>
        refine ⟨_, rfl, ?_⟩
        have hb := hb addrs s
        rw [listenTcp]
        generalize bindTcp addrs s = q at hb
        obtain ⟨f, u⟩ := q
        cases f with
        | none => exact hb.trans hd
        | some fd => cases ok <;> exact hb.trans hd
      | listenUnix ws path fits sock bind ok =>
        refine ⟨_, rfl, ?_⟩
        rw [listenUnix, bindUnix]
        cases fits <;> cases sock <;> try exact hd
        simp only [Bool.not_true, Bool.false_eq_true, if_false]
        split
        · rename_i hq
          split at hq <;> cases hq
          exact hd
        · rename_i hq
          split at hq <;> cases hq
          cases ok <;> cases ws <;> exact hd
      | listenFd ws path ok =>
        dsimp only
        split
        · refine ⟨_, rfl, ?_⟩
          cases ok <;> exact hd
        · exact ⟨s, rfl, hd⟩
      | appFile p =>
        dsimp only
        split
        · exact ⟨s, rfl, hd⟩
        · exact ⟨_, rfl, hd⟩
      | display d => exact ⟨_, rfl, ho (.display d) (by simp)⟩
      | connect a =>
        dsimp only
        split
        · exact ⟨s, rfl, hd⟩
        · cases a with
          | noMemory => exact ⟨_, rfl, hd⟩
          | refused => exact ⟨_, rfl, hd⟩
          | noStream => exact ⟨_, rfl, hd⟩
          | ok => exact ⟨{ openFd s with clients := s.nextFd :: s.clients }, by simp only [onConnection, hd], hd⟩
      | gone fd =>
        dsimp only
        split
        · exact ⟨_, rfl, hd⟩
        · exact ⟨s, rfl, hd⟩
      | del =>
        refine ⟨_, rfl, ?_⟩
        rw [del, delClients_eq, delSockets_eq]
        exact hd
    obtain ⟨u, e, hu⟩ := this
    obtain ⟨t, et⟩ := run_ready os u hu fun p hp => ho p (by simp [hp])
    exact ⟨t, by rw [run, e]; exact et⟩

theorem bindTcp_file : ∀ (l : List Addr) (s : State),
    (bindTcp l s).2.files = s.files ∧ (bindTcp l s).2.appFiles = s.appFiles ∧ (bindTcp l s).2.sockets = s.sockets
  | [], _ => ⟨rfl, rfl, rfl⟩
  | .noSocket :: l, s => bindTcp_file l s
  | .noOption :: l, s => bindTcp_file l (closeFd s.nextFd (openFd s))
  | .noBind :: l, s => bindTcp_file l (closeFd s.nextFd (openFd s))
  | .bound :: _, _ => ⟨rfl, rfl, rfl⟩

theorem filter_snoc {p : Nat} {l : List Nat} (h : p ∉ l) : (l ++ [p]).filter (· ≠ p) = l := by
  rw [List.filter_append]
  have h1 : l.filter (· ≠ p) = l := by
    rw [List.filter_eq_self]
    intro a ha
    simp only [ne_eq, decide_not, Bool.not_eq_eq_eq_not, Bool.not_true, decide_eq_false_iff_not]
    intro e
    exact h (e ▸ ha)
  rw [h1]
  simp

theorem nodup_snoc {p : Nat} {l : List Nat} (h : l.Nodup) (hp : p ∉ l) : (l ++ [p]).Nodup := by
  rw [(List.perm_append_singleton _ _).nodup_iff]
  exact List.nodup_cons.mpr ⟨hp, h⟩

theorem step_file {o : Op} {left : List Nat} {s t : State} (h : FileInv left s) (e : step o s = .ok t) :
    ∃ left', FileInv left' t ∧ (o.Tidy → left' = left) ∧ left <+: left' ∧ s.appFiles <+: t.appFiles := by
  unfold step at e
  split at e
  · cases e
    exact ⟨left, h, fun _ => rfl, List.prefix_refl _, List.prefix_refl _⟩
  cases o with
  | listenTcp ws addrs ok =>
    cases e
    have hb := bindTcp_file addrs s
    rw [listenTcp]
    generalize bindTcp addrs s = q at hb
    obtain ⟨f, u⟩ := q
    obtain ⟨h1, h2, h3⟩ := hb
    dsimp only at h1 h2 h3
    have hp : s.appFiles <+: u.appFiles := h2 ▸ List.prefix_refl _
    refine ⟨left, ?_, fun _ => rfl, List.prefix_refl _, ?_⟩
    · cases f with
      | none => exact file_same h h1 h2 (by rw [h3])
      | some fd =>
        cases ok with
        | true => exact file_same h h1 h2 (by dsimp only [listen]; rw [if_pos rfl, h3]; rfl)
        | false => exact file_same h h1 h2 (by dsimp only [listen]; exact congrArg _ h3)
    · cases f with
      | none => exact hp
      | some fd => cases ok <;> exact hp
  | listenUnix ws path fits sock bind ok =>
    cases e
    rw [listenUnix, bindUnix]
    split
    · rename_i hq
      refine ⟨left, ?_, fun _ => rfl, List.prefix_refl _, ?_⟩ <;>
      · split at hq
        · cases hq
          first | exact h | exact List.prefix_refl _
        · split at hq
          · cases hq
            first | exact h | exact List.prefix_refl _
          · split at hq
            · cases hq
            · cases hq
              first | exact file_same h rfl rfl rfl | exact List.prefix_refl _
    · rename_i fd u hq
      split at hq
      · cases hq
      · split at hq
        · cases hq
        · split at hq
          next hc =>
            cases hq
            simp only [Bool.and_eq_true, decide_eq_true_eq] at hc
            have hn := nodup_snoc h.nodup hc.2
            cases ok with
            | true =>
              refine ⟨left, ⟨?_, hn⟩, fun _ => rfl, List.prefix_refl _, List.prefix_refl _⟩
              dsimp only [listen]
              rw [if_pos rfl]
              simp only [List.filterMap_cons, Sock.own, Bool.false_eq_true, if_false]
              refine (List.perm_append_singleton _ _).trans ?_
              refine (h.all.cons _).trans ?_
              rw [List.append_assoc, List.append_assoc]
              exact List.perm_middle.symm
            | false =>
              cases ws with
              | true =>
                refine ⟨left, file_same h ?_ rfl rfl, fun _ => rfl, List.prefix_refl _, List.prefix_refl _⟩
                exact filter_snoc hc.2
              | false =>
                refine ⟨left ++ [path], ⟨?_, hn⟩, ?_, List.prefix_append _ _, List.prefix_refl _⟩
                · dsimp only [listen]
                  rw [← List.append_assoc]
                  exact h.all.append_right _
                · rintro (h | h) <;> cases h
          · cases hq
  | listenFd ws path ok =>
    dsimp only at e
    split at e
    · cases e
      refine ⟨left, ?_, fun _ => rfl, List.prefix_refl _, ?_⟩
      · cases ok with
        | true => exact file_same h rfl rfl rfl
        | false => exact file_same h rfl rfl rfl
      · cases ok <;> exact List.prefix_refl _
    · cases e
      exact ⟨left, h, fun _ => rfl, List.prefix_refl _, List.prefix_refl _⟩
  | appFile p =>
    dsimp only at e
    split at e
    · cases e
      exact ⟨left, h, fun _ => rfl, List.prefix_refl _, List.prefix_refl _⟩
    next hp =>
      cases e
      refine ⟨left, ⟨?_, nodup_snoc h.nodup hp⟩, fun _ => rfl, List.prefix_refl _, List.prefix_append _ _⟩
      dsimp only
      refine (List.perm_append_singleton _ _).trans ((h.all.cons _).trans ?_)
      simp only [List.append_assoc, List.singleton_append]
      exact List.perm_middle.symm
  | display d =>
    cases e
    exact ⟨left, file_same h rfl rfl rfl, fun _ => rfl, List.prefix_refl _, List.prefix_refl _⟩
  | connect a =>
    dsimp only at e
    split at e
    · cases e
      exact ⟨left, h, fun _ => rfl, List.prefix_refl _, List.prefix_refl _⟩
    · have hk : t.files = s.files ∧ t.appFiles = s.appFiles ∧ t.sockets = s.sockets := by
        cases a with
        | noMemory => cases e; exact ⟨rfl, rfl, rfl⟩
        | refused => cases e; exact ⟨rfl, rfl, rfl⟩
        | noStream => cases e; exact ⟨rfl, rfl, rfl⟩
        | ok =>
          simp only [onConnection] at e
          split at e
          · cases e
          · cases e; exact ⟨rfl, rfl, rfl⟩
          · cases e; exact ⟨rfl, rfl, rfl⟩
      exact ⟨left, file_same h hk.1 hk.2.1 (by rw [hk.2.2]), fun _ => rfl, List.prefix_refl _,
        hk.2.1 ▸ List.prefix_refl _⟩
  | gone fd =>
    dsimp only at e
    split at e
    · cases e
      exact ⟨left, file_same h rfl rfl rfl, fun _ => rfl, List.prefix_refl _, List.prefix_refl _⟩
    · cases e
      exact ⟨left, h, fun _ => rfl, List.prefix_refl _, List.prefix_refl _⟩
  | del =>
    cases e
    refine ⟨left, ?_, fun _ => rfl, List.prefix_refl _, ?_⟩
    · have hn := h.nodup
      rw [h.all.nodup_iff] at hn
      rw [del, delClients_eq, delSockets_eq]
      refine ⟨?_, ?_⟩
      · dsimp only
        refine (h.all.filter _).trans ?_
        rw [List.filterMap_nil, List.append_nil, List.filter_append, List.filter_append]
        have hn1 := List.nodup_append.mp hn
        have hn2 := List.nodup_append.mp hn1.1
        have f1 : s.appFiles.filter (fun p => decide (p ∉ s.sockets.filterMap Sock.own)) = s.appFiles := by
          rw [List.filter_eq_self]
          intro a ha
          rw [decide_eq_true_eq]
          intro hm
          exact hn2.2.2 a ha a hm rfl
        have f2 : (s.sockets.filterMap Sock.own).filter (fun p => decide (p ∉ s.sockets.filterMap Sock.own)) = [] := by
          rw [List.filter_eq_nil_iff]
          intro a ha
          simpa using ha
        have f3 : left.filter (fun p => decide (p ∉ s.sockets.filterMap Sock.own)) = left := by
          rw [List.filter_eq_self]
          intro a ha
          rw [decide_eq_true_eq]
          intro hm
          exact hn1.2.2 a (List.mem_append_right _ hm) a ha rfl
        rw [f1, f2, f3, List.append_nil]
      · exact h.nodup.sublist List.filter_sublist
    · rw [del, delClients_eq, delSockets_eq]
      exact List.prefix_refl _

theorem run_file : ∀ (os : List Op) (s t : State) (left : List Nat), FileInv left s → run os s = .ok t →
    ∃ left', FileInv left' t ∧ ((∀ o ∈ os, o.Tidy) → left' = left)
  | [], s, t, left, h, e => by cases e; exact ⟨left, h, fun _ => rfl⟩
  | o :: os, s, t, left, h, e => by
    rw [run] at e
    cases hs : step o s with
    | ok u =>
      rw [hs] at e
      obtain ⟨l1, h1, e1, -⟩ := step_file h hs
      obtain ⟨l2, h2, e2⟩ := run_file os u t l1 h1 e
      exact ⟨l2, h2, fun ho => (e2 fun p hp => ho p (by simp [hp])).trans (e1 (ho o (by simp)))⟩
    | ub w => rw [hs] at e; cases e
    | abort w => rw [hs] at e; cases e

/-- when the server is gone it has no sockets and no clients -/
theorem step_dead {o : Op} {s t : State} (h : s.dead = true → s.sockets = [] ∧ s.clients = [])
    (e : step o s = .ok t) : t.dead = true → t.sockets = [] ∧ t.clients = [] := by
  intro hd
  unfold step at e
  split at e
  next h' => cases e; exact h h'
  next h' =>
  have hb : ∀ (l : List Addr) (s : State), (bindTcp l s).2.dead = s.dead := by
    intro l
    induction l with
    | nil => intro s; rfl
    | cons a l ih =>
      intro s
      cases a with
      | noSocket => exact ih s
      | noOption => exact ih _
      | noBind => exact ih _
      | bound => rfl
  cases o with
  | listenTcp ws addrs ok =>
    cases e
    exfalso
    have hb := hb addrs s
    rw [listenTcp] at hd
    generalize bindTcp addrs s = q at hb hd
    obtain ⟨f, u⟩ := q
    apply h'
    rw [← hb]
    cases f with
    | none => exact hd
    | some fd => cases ok <;> exact hd
  | listenUnix ws path fits sock bind ok =>
    cases e
    exfalso
    rw [listenUnix, bindUnix] at hd
    apply h'
    cases fits <;> cases sock <;> try exact hd
    simp only [Bool.not_true, Bool.false_eq_true, if_false] at hd
    split at hd
    · rename_i hq
      split at hq <;> cases hq
      exact hd
    · rename_i hq
      split at hq <;> cases hq
      cases ok <;> cases ws <;> exact hd
  | listenFd ws path ok =>
    dsimp only at e
    split at e
    · cases e
      exfalso
      apply h'
      cases ok <;> exact hd
    · cases e
      exact h hd
  | appFile p =>
    dsimp only at e
    split at e <;> cases e
    · exact h hd
    · exact h hd
  | display d => cases e; exact h hd
  | connect a =>
    dsimp only at e
    split at e
    · cases e; exact h hd
    · cases a with
      | noMemory => cases e; exact h hd
      | refused => cases e; exact h hd
      | noStream => cases e; exact absurd hd h'
      | ok =>
        simp only [onConnection] at e
        split at e
        · cases e
        · cases e; exact absurd hd h'
        · cases e; exact absurd hd h'
  | gone fd =>
    dsimp only at e
    split at e <;> cases e
    · exact absurd hd h'
    · exact h hd
  | del => cases e; exact ⟨rfl, rfl⟩

theorem run_dead : ∀ (os : List Op) (s t : State), (s.dead = true → s.sockets = [] ∧ s.clients = []) →
    run os s = .ok t → t.dead = true → t.sockets = [] ∧ t.clients = []
  | [], s, t, h, e => by cases e; exact h
  | o :: os, s, t, h, e => by
    rw [run] at e
    cases hs : step o s with
    | ok u =>
      rw [hs] at e
      exact run_dead os u t (step_dead h hs) e
    | ub w => rw [hs] at e; cases e
    | abort w => rw [hs] at e; cases e

end Verif.Listen
