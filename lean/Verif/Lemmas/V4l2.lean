import Verif.Spec.V4l2

/-! # Lemmas about the hardware encoder -/

namespace Verif.V4l2

structure Inv (s : State) : Prop where
  len : s.src.length = 3
  idx : s.idx < 3
  shape : ∀ b ∈ s.src, b = {} ∨ ∃ fb fd, b = ⟨true, some fb, some fd⟩
  dev : ∀ i, i ∈ s.queued.map Prod.fst ++ s.finished ↔ ∃ b, s.src[i]? = some b ∧ b.taken = true
  nodup : (s.queued.map Prod.fst ++ s.finished).Nodup
  reads : ∀ q ∈ s.queued, ∃ b, s.src[q.1]? = some b ∧ b.fb = some q.2
  held : s.held.Perm (s.src.filterMap Src.fb)
  fds : s.fds.Perm (s.src.filterMap Src.fd)
  fresh : ∀ x ∈ s.fds, x < s.nextFd
  fnodup : s.fds.Nodup
  fed : s.fed.Perm (s.released ++ s.held)
  dst : s.dstFree + s.ready.length = 3
  pk : s.emitted = s.delivered ++ s.ready
  dead : s.dead = true → ∀ b ∈ s.src, b = {}

theorem init_inv : Inv {} := by
  refine ⟨rfl, by decide, ?_, ?_, List.nodup_nil, nofun, List.Perm.refl _, List.Perm.refl _, nofun,
    List.nodup_nil, List.Perm.refl _, rfl, rfl, nofun⟩
  · intro b hb
    exact .inl (List.eq_of_mem_replicate hb)
  · intro i
    refine ⟨nofun, ?_⟩
    rintro ⟨b, h, ht⟩
    have := List.eq_of_mem_replicate (List.mem_of_getElem? h)
    subst this
    cases ht

theorem perm_fill {α β : Type} (f : α → Option β) (x : β) (c : α) :
    ∀ (l : List α) (i : Nat) (b : α), l[i]? = some b → f b = none → f c = some x →
      ((l.set i c).filterMap f).Perm (x :: l.filterMap f)
  | [], i, b, h, _, _ => by simp at h
  | a :: l, 0, b, h, hb, hc => by
    simp at h
    subst h
    simp [List.filterMap_cons, hb, hc]
  | a :: l, i + 1, b, h, hb, hc => by
    have ih := perm_fill f x c l i b (by simpa using h) hb hc
    simp only [List.set_cons_succ, List.filterMap_cons]
    split
    · exact ih
    · exact (ih.cons _).trans (List.Perm.swap _ _ _)

theorem perm_clear {α β : Type} (f : α → Option β) (x : β) (c : α) :
    ∀ (l : List α) (i : Nat) (b : α), l[i]? = some b → f b = some x → f c = none →
      (l.filterMap f).Perm (x :: (l.set i c).filterMap f)
  | [], i, b, h, _, _ => by simp at h
  | a :: l, 0, b, h, hb, hc => by
    simp at h
    subst h
    simp [List.filterMap_cons, hb, hc]
  | a :: l, i + 1, b, h, hb, hc => by
    have ih := perm_clear f x c l i b (by simpa using h) hb hc
    simp only [List.set_cons_succ, List.filterMap_cons]
    split
    · exact ih
    · exact (ih.cons _).trans (List.Perm.swap _ _ _)

theorem shape_at {s : State} (h : Inv s) {i : Nat} {b : Src} (e : s.src[i]? = some b) :
    b = {} ∨ ∃ fb fd, b = ⟨true, some fb, some fd⟩ := h.shape b (List.mem_of_getElem? e)

/-- what giving back finished source buffers leaves alone -/
structure Kin (s t : State) : Prop where
  idx : t.idx = s.idx
  key : t.key = s.key
  dead : t.dead = s.dead
  queued : t.queued = s.queued
  ready : t.ready = s.ready
  dstFree : t.dstFree = s.dstFree
  coded : t.coded = s.coded
  dropped : t.dropped = s.dropped
  emitted : t.emitted = s.emitted
  delivered : t.delivered = s.delivered
  finished : t.finished = s.finished

theorem Kin.trans {s t u : State} (a : Kin s t) (b : Kin t u) : Kin s u := by
  constructor
  · exact b.idx.trans a.idx
  · exact b.key.trans a.key
  · exact b.dead.trans a.dead
  · exact b.queued.trans a.queued
  · exact b.ready.trans a.ready
  · exact b.dstFree.trans a.dstFree
  · exact b.coded.trans a.coded
  · exact b.dropped.trans a.dropped
  · exact b.emitted.trans a.emitted
  · exact b.delivered.trans a.delivered
  · exact b.finished.trans a.finished

theorem claim_inv {s : State} {i : Nat} {l : List Nat} (h : Inv { s with finished := i :: l }) :
    ∃ t, claim i s = .ok t ∧ Inv { t with finished := l } ∧ Kin s t ∧ t.held.length < s.held.length := by
  have hm := (h.dev i).mp (by simp)
  obtain ⟨b, hb, ht⟩ := hm
  dsimp only at hb
  rcases shape_at h hb with rfl | ⟨fb, fd, rfl⟩
  · cases ht
  have pf := perm_clear Src.fd fd {} s.src i _ hb rfl rfl
  have ph := perm_clear Src.fb fb {} s.src i _ hb rfl rfl
  have hfd : fd ∈ s.fds := (h.fds.mem_iff).mpr (pf.mem_iff.mpr (by simp))
  have hfb : fb ∈ s.held := (h.held.mem_iff).mpr (ph.mem_iff.mpr (by simp))
  have hi : i < s.src.length := by
    rcases Nat.lt_or_ge i s.src.length with h | h
    · exact h
    · rw [List.getElem?_eq_none h] at hb
      cases hb
  have hnd := h.nodup
  dsimp only at hnd
  refine ⟨{ s with src := s.src.set i {}, fds := s.fds.erase fd, held := s.held.erase fb,
                   released := s.released ++ [fb] },
    by rw [claim, hb]; simp only [if_pos hfd, if_pos hfb], ?_, by constructor <;> rfl, ?_⟩
  · refine ⟨by simpa using h.len, h.idx, ?_, ?_, ?_, ?_, ?_, ?_, ?_, ?_, ?_, h.dst, h.pk, ?_⟩
    · intro c hc
      rcases List.mem_or_eq_of_mem_set hc with hc | rfl
      · exact h.shape c hc
      · exact .inl rfl
    · intro j
      dsimp only
      by_cases hj : j = i
      · subst hj
        constructor
        · intro hm
          exfalso
          rw [(List.perm_middle).nodup_iff, List.nodup_cons] at hnd
          exact hnd.1 hm
        · rintro ⟨c, hc, hct⟩
          rw [List.getElem?_set_self hi] at hc
          cases hc
          cases hct
      · rw [List.getElem?_set_ne (fun e => hj e.symm), ← h.dev j]
        simp [hj]
    · dsimp only
      rw [(List.perm_middle).nodup_iff, List.nodup_cons] at hnd
      exact hnd.2
    · intro q hq
      dsimp only at hq ⊢
      have hne : i ≠ q.1 := by
        rw [(List.perm_middle).nodup_iff, List.nodup_cons] at hnd
        intro e
        exact hnd.1 (List.mem_append_left _ (e ▸ List.mem_map_of_mem hq))
      rw [List.getElem?_set_ne hne]
      exact h.reads q hq
    · exact List.perm_cons fb |>.mp ((List.perm_cons_erase hfb).symm.trans (h.held.trans ph))
    · exact List.perm_cons fd |>.mp ((List.perm_cons_erase hfd).symm.trans (h.fds.trans pf))
    · intro x hx
      exact h.fresh x (List.mem_of_mem_erase hx)
    · exact h.fnodup.erase fd
    · dsimp only [State.fed]
      rw [List.append_assoc]
      exact h.fed.trans (List.Perm.append_left _ (List.perm_cons_erase hfb))
    · intro hd c hc
      rcases List.mem_or_eq_of_mem_set hc with hc | rfl
      · exact h.dead hd c hc
      · rfl
  · dsimp only
    rw [List.length_erase_of_mem hfb]
    have := List.length_pos_of_mem hfb
    omega

theorem claimAll_inv : ∀ (l : List Nat) (s : State), Inv { s with finished := l } →
    ∃ t, claimAll l s = .ok t ∧ Inv { t with finished := [] } ∧ Kin s t
  | [], s, h => ⟨s, rfl, h, by constructor <;> rfl⟩
  | i :: l, s, h => by
    obtain ⟨t, e, ht, hk, -⟩ := claim_inv h
    obtain ⟨u, e', hu, hk'⟩ := claimAll_inv l t ht
    exact ⟨u, by rw [claimAll, e]; exact e', hu, hk.trans hk'⟩

theorem processSrc_inv {s : State} (h : Inv s) :
    ∃ t, processSrc s = .ok t ∧ Inv t ∧ Kin { s with finished := [] } t := by
  obtain ⟨t, e, ht, hk⟩ := claimAll_inv s.finished { s with finished := [] } h
  have hf : t.finished = [] := hk.finished
  have ht' : Inv t := by
    have : t = { t with finished := [] } := by rw [← hf]
    rw [this]
    exact ht
  exact ⟨t, e, ht', hk⟩

theorem list3 {α : Type} : ∀ (l : List α), l.length = 3 → ∃ a b c, l = [a, b, c]
  | [a, b, c], _ => ⟨a, b, c, rfl⟩
  | [], h => by simp at h
  | [_], h => by simp at h
  | [_, _], h => by simp at h
  | _ :: _ :: _ :: _ :: _, h => by simp at h

theorem scan_spec {l : List Src} (hl : l.length = 3) {i : Nat} (hi : i < 3) :
    (scan l 2 i).1 < 3 ∧ (scan l 2 i).2 < 3 ∧
      ((l.getD (scan l 2 i).1 {}).taken = true → ∀ b ∈ l, b.taken = true) := by
  obtain ⟨a, b, c, rfl⟩ := list3 l hl
  obtain ⟨ta, fa, da⟩ := a
  obtain ⟨tb, fb, db⟩ := b
  obtain ⟨tc, fc, dc⟩ := c
  have : i = 0 ∨ i = 1 ∨ i = 2 := by omega
  rcases this with rfl | rfl | rfl <;> cases ta <;> cases tb <;> cases tc <;>
    simp [scan, nSrc]

theorem take_none {s : State} (h : Inv s) (e : take s = none) : ∀ b ∈ s.src, b.taken = true := by
  have hs := scan_spec h.len h.idx
  rw [take] at e
  generalize hq : scan s.src (nSrc - 1) s.idx = q at e
  have hq' : scan s.src 2 s.idx = q := hq
  rw [hq'] at hs
  obtain ⟨b, i⟩ := q
  dsimp only at e hs
  split at e
  next ht => exact hs.2.2 ht
  · cases e

theorem take_some {s : State} (h : Inv s) {b : Nat} {t : State} (e : take s = some (b, t)) :
    s.src[b]? = some {} ∧ ∃ i, i < 3 ∧
      t = { s with idx := i, src := s.src.set b { taken := true } } := by
  have hs := scan_spec h.len h.idx
  rw [take] at e
  generalize hq : scan s.src (nSrc - 1) s.idx = q at e
  have hq' : scan s.src 2 s.idx = q := hq
  rw [hq'] at hs
  obtain ⟨c, i⟩ := q
  dsimp only at e hs
  split at e
  · cases e
  next ht =>
    obtain ⟨h1, h2, -⟩ := hs
    have hlt : c < s.src.length := by rw [h.len]; exact h1
    have hg : s.src[c]? = some s.src[c] := List.getElem?_eq_getElem hlt
    have hd : s.src.getD c {} = s.src[c] := by simp [List.getD, hg]
    rw [hd] at ht e
    rcases shape_at h hg with e0 | ⟨fb, fd, e0⟩
    · rw [e0] at e hg
      cases e
      exact ⟨hg, i, h2, rfl⟩
    · rw [e0] at ht
      exact absurd rfl ht

/-- a source buffer is free unless the device has three -/
theorem take_iff {s : State} (h : Inv s) :
    take s = none ↔ s.queued.length + s.finished.length = 3 := by
  have hlen : s.queued.length + s.finished.length = (s.queued.map Prod.fst ++ s.finished).length := by simp
  constructor
  · intro e
    have ht := take_none h e
    have hsub : ∀ i, i < 3 → i ∈ s.queued.map Prod.fst ++ s.finished := by
      intro i hi
      have hlt : i < s.src.length := by rw [h.len]; exact hi
      exact (h.dev i).mpr ⟨_, List.getElem?_eq_getElem hlt, ht _ (List.getElem_mem hlt)⟩
    have hp : (s.queued.map Prod.fst ++ s.finished).Perm (List.range 3) := by
      rw [List.perm_ext_iff_of_nodup h.nodup List.nodup_range]
      intro i
      rw [List.mem_range]
      refine ⟨fun hm => ?_, hsub i⟩
      obtain ⟨b, hb, -⟩ := (h.dev i).mp hm
      rcases Nat.lt_or_ge i s.src.length with hl | hl
      · rw [h.len] at hl
        exact hl
      · rw [List.getElem?_eq_none hl] at hb
        cases hb
    rw [hlen, hp.length_eq]
    rfl
  · intro e
    cases ht : take s with
    | none => rfl
    | some q =>
      exfalso
      obtain ⟨b, t⟩ := q
      obtain ⟨hb, -⟩ := take_some h ht
      have hlt : b < 3 := by
        rcases Nat.lt_or_ge b s.src.length with hl | hl
        · rw [h.len] at hl
          exact hl
        · rw [List.getElem?_eq_none hl] at hb
          cases hb
      have hn : b ∉ s.queued.map Prod.fst ++ s.finished := by
        intro hm
        obtain ⟨c, hc, hct⟩ := (h.dev b).mp hm
        rw [hb] at hc
        cases hc
        cases hct
      have hnd : (b :: (s.queued.map Prod.fst ++ s.finished)).Nodup := List.nodup_cons.mpr ⟨hn, h.nodup⟩
      have hsp : (b :: (s.queued.map Prod.fst ++ s.finished)).length ≤ (List.range 3).length := by
        refine hnd.length_le_of_subset ?_
        intro j hj
        rw [List.mem_range]
        rcases List.mem_cons.mp hj with rfl | hj
        · exact hlt
        · obtain ⟨c, hc, -⟩ := (h.dev j).mp hj
          rcases Nat.lt_or_ge j s.src.length with hl | hl
          · rw [h.len] at hl
            exact hl
          · rw [List.getElem?_eq_none hl] at hc
            cases hc
      rw [List.length_cons, ← hlen, e] at hsp
      simp at hsp

/-- a frame that finds a free source buffer goes to the device -/
def Gives (fb pts : Nat) (s t : State) : Prop :=
  t.coded = s.coded ++ [(fb, pts, s.key)] ∧ t.key = false ∧ t.held = s.held ++ [fb] ∧
    t.reading = s.reading ++ [fb] ∧ t.dropped = s.dropped ∧ t.released = s.released

theorem encode_inv {fb pts planes : Nat} {s : State} (h : Inv s) (hd : s.dead = false) (hp : planes ≤ 4) :
    ∃ t, encode fb pts planes true s = .ok t ∧ Inv t ∧
      ((s.queued.length + s.finished.length < 3 ∧ Gives fb pts s t) ∨
        (s.queued.length + s.finished.length = 3 ∧ t = { s with dropped := s.dropped ++ [fb] })) := by
  cases ht : take s with
  | none =>
    refine ⟨_, by rw [encode, ht], ?_, .inr ⟨(take_iff h).mp ht, rfl⟩⟩
    exact ⟨h.len, h.idx, h.shape, h.dev, h.nodup, h.reads, h.held, h.fds, h.fresh, h.fnodup, h.fed, h.dst, h.pk,
      h.dead⟩
  | some q =>
    obtain ⟨b, t⟩ := q
    obtain ⟨hb, i, hi, rfl⟩ := take_some h ht
    have hlt : b < s.src.length := by
      rcases Nat.lt_or_ge b s.src.length with hl | hl
      · exact hl
      · rw [List.getElem?_eq_none hl] at hb
        cases hb
    have hn : b ∉ s.queued.map Prod.fst ++ s.finished := by
      intro hm
      obtain ⟨c, hc, hct⟩ := (h.dev b).mp hm
      rw [hb] at hc
      cases hc
      cases hct
    have hcount : s.queued.length + s.finished.length < 3 := by
      have hne : ¬ s.queued.length + s.finished.length = 3 := by
        intro e
        rw [(take_iff h).mpr e] at ht
        cases ht
      have hle : (s.queued.map Prod.fst ++ s.finished).length ≤ (List.range 3).length := by
        refine h.nodup.length_le_of_subset ?_
        intro j hj
        rw [List.mem_range]
        obtain ⟨c, hc, -⟩ := (h.dev j).mp hj
        rcases Nat.lt_or_ge j s.src.length with hl | hl
        · rw [h.len] at hl
          exact hl
        · rw [List.getElem?_eq_none hl] at hc
          cases hc
      simp at hle
      omega
    have hset : ((s.src.set b { taken := true : Src }).set b ⟨true, some fb, some s.nextFd⟩) =
        s.src.set b ⟨true, some fb, some s.nextFd⟩ := by rw [List.set_set]
    have pf := perm_fill Src.fd s.nextFd ⟨true, some fb, some s.nextFd⟩ s.src b _ hb rfl rfl
    have ph := perm_fill Src.fb fb ⟨true, some fb, some s.nextFd⟩ s.src b _ hb rfl rfl
    refine ⟨{ s with
        idx := i, src := s.src.set b ⟨true, some fb, some s.nextFd⟩,
        held := s.held ++ [fb], fds := s.fds ++ [s.nextFd], nextFd := s.nextFd + 1,
        key := false, queued := s.queued ++ [(b, fb)], coded := s.coded ++ [(fb, pts, s.key)] }, ?_, ?_,
      .inl ⟨hcount, rfl, rfl, rfl, by simp [State.reading], rfl, rfl⟩⟩
    · rw [encode, ht]
      dsimp only
      rw [if_neg, if_neg (by omega), if_pos rfl, hset]
      rw [List.getD, List.getElem?_set_self hlt]
      simp
    · refine ⟨by simpa using h.len, hi, ?_, ?_, ?_, ?_, ?_, ?_, ?_, ?_, ?_, h.dst, h.pk, ?_⟩
      · intro c hc
        rcases List.mem_or_eq_of_mem_set hc with hc | rfl
        · exact h.shape c hc
        · exact .inr ⟨_, _, rfl⟩
      · intro j
        dsimp only
        by_cases hj : j = b
        · subst hj
          rw [List.getElem?_set_self hlt]
          simp
        · rw [List.getElem?_set_ne (fun e => hj e.symm), ← h.dev j]
          simp [hj]
      · dsimp only
        have : ((s.queued ++ [(b, fb)]).map Prod.fst ++ s.finished).Perm
            (b :: (s.queued.map Prod.fst ++ s.finished)) := by
          simp only [List.map_append, List.map_cons, List.map_nil, List.append_assoc, List.cons_append,
            List.nil_append]
          exact List.perm_middle
        rw [this.nodup_iff]
        exact List.nodup_cons.mpr ⟨hn, h.nodup⟩
      · intro q hq
        dsimp only at hq ⊢
        rcases List.mem_append.mp hq with hq | hq
        · have hne : b ≠ q.1 := by
            intro e
            exact hn (List.mem_append_left _ (e ▸ List.mem_map_of_mem hq))
          rw [List.getElem?_set_ne hne]
          exact h.reads q hq
        · simp only [List.mem_singleton] at hq
          subst hq
          rw [List.getElem?_set_self hlt]
          exact ⟨_, rfl, rfl⟩
      · exact (List.perm_append_singleton _ _).trans ((h.held.cons _).trans ph.symm)
      · exact (List.perm_append_singleton _ _).trans ((h.fds.cons _).trans pf.symm)
      · intro x hx
        dsimp only at hx ⊢
        rcases List.mem_append.mp hx with hx | hx
        · have := h.fresh x hx
          omega
        · simp only [List.mem_singleton] at hx
          omega
      · dsimp only
        rw [(List.perm_append_singleton _ _).nodup_iff]
        refine List.nodup_cons.mpr ⟨fun hx => ?_, h.fnodup⟩
        have := h.fresh _ hx
        omega
      · dsimp only [State.fed]
        rw [List.map_append, ← List.append_assoc]
        exact h.fed.append_right _
      · intro hd'
        dsimp only at hd'
        rw [hd] at hd'
        cases hd'

theorem idle_inv {o : Op} {s : State} (h : Inv s) (ho : o.Idle) :
    ∃ t, step o s = .ok t ∧ Inv t ∧ t.held = s.held ∧ t.released = s.released ∧ t.coded = s.coded ∧
      t.dropped = s.dropped ∧ t.fds = s.fds ∧ t.dead = s.dead ∧ (s.key = true → t.key = true) := by
  unfold step
  split
  · exact ⟨s, rfl, h, rfl, rfl, rfl, rfl, rfl, rfl, id⟩
  cases o with
  | feed => exact ho.elim
  | destroy => exact ho.elim
  | keyframe =>
    refine ⟨_, rfl, ?_, rfl, rfl, rfl, rfl, rfl, rfl, fun _ => rfl⟩
    exact ⟨h.len, h.idx, h.shape, h.dev, h.nodup, h.reads, h.held, h.fds, h.fresh, h.fnodup, h.fed, h.dst, h.pk,
      h.dead⟩
  | event =>
    refine ⟨_, rfl, ?_⟩
    rw [processDst]
    split
    · exact ⟨h, rfl, rfl, rfl, rfl, rfl, rfl, id⟩
    next p l e =>
      refine ⟨⟨h.len, h.idx, h.shape, h.dev, h.nodup, h.reads, h.held, h.fds, h.fresh, h.fnodup, h.fed, ?_, ?_,
        h.dead⟩, rfl, rfl, rfl, rfl, rfl, rfl, id⟩
      · have := h.dst
        rw [e] at this
        simp at this ⊢
        omega
      · have := h.pk
        rw [e] at this
        simpa using this
  | packet p =>
    dsimp only
    split
    next hp =>
      refine ⟨_, rfl, ⟨h.len, h.idx, h.shape, h.dev, h.nodup, h.reads, h.held, h.fds, h.fresh, h.fnodup, h.fed, ?_, ?_,
        h.dead⟩, rfl, rfl, rfl, rfl, rfl, rfl, id⟩
      · have := h.dst
        simp
        omega
      · dsimp only
        rw [h.pk, List.append_assoc]
    · exact ⟨s, rfl, h, rfl, rfl, rfl, rfl, rfl, rfl, id⟩
  | finish i =>
    dsimp only
    split
    next hi =>
      have hnd := List.nodup_append.mp h.nodup
      have hfst : ∀ j, j ∈ (s.queued.filter (fun q => q.1 ≠ i)).map Prod.fst ↔ j ∈ s.queued.map Prod.fst ∧ j ≠ i := by
        intro j
        simp only [List.mem_map, List.mem_filter, decide_eq_true_eq]
        constructor
        · rintro ⟨q, ⟨hq, hne⟩, rfl⟩
          exact ⟨⟨q, hq, rfl⟩, hne⟩
        · rintro ⟨⟨q, hq, rfl⟩, hne⟩
          exact ⟨q, ⟨hq, hne⟩, rfl⟩
      refine ⟨_, rfl, ⟨h.len, h.idx, h.shape, ?_, ?_, ?_, h.held, h.fds, h.fresh, h.fnodup, h.fed, h.dst, h.pk,
        h.dead⟩, rfl, rfl, rfl, rfl, rfl, rfl, id⟩
      · intro j
        dsimp only
        rw [← h.dev j, List.mem_append, hfst, List.mem_append, List.mem_append, List.mem_singleton]
        by_cases hj : j = i
        · subst hj
          simp [hi]
        · simp [hj]
      · dsimp only
        rw [List.nodup_append]
        refine ⟨hnd.1.sublist ((List.filter_sublist).map _), ?_, ?_⟩
        · rw [(List.perm_append_singleton _ _).nodup_iff]
          exact List.nodup_cons.mpr ⟨fun hf => hnd.2.2 i hi i hf rfl, hnd.2.1⟩
        · intro a ha b hb e
          subst e
          rw [hfst] at ha
          rcases List.mem_append.mp hb with hb | hb
          · exact hnd.2.2 a ha.1 a hb rfl
          · exact ha.2 (List.mem_singleton.mp hb)
      · intro q hq
        exact h.reads q (List.mem_filter.mp hq).1
    · exact ⟨s, rfl, h, rfl, rfl, rfl, rfl, rfl, rfl, id⟩

theorem feed_inv {fb pts planes : Nat} {s : State} (h : Inv s) (hd : s.dead = false) (hp : planes ≤ 4) :
    ∃ t u, processSrc s = .ok t ∧ Kin { s with finished := [] } t ∧ Inv t ∧
      step (.feed fb pts planes true) s = .ok u ∧ Inv u ∧
      ((s.queued.length < 3 ∧ Gives fb pts t u) ∨
        (s.queued.length = 3 ∧ u = { t with dropped := t.dropped ++ [fb] })) := by
  obtain ⟨t, e, ht, hk⟩ := processSrc_inv h
  have hdt : t.dead = false := by rw [hk.dead]; exact hd
  obtain ⟨u, e', hu, hc⟩ := encode_inv (fb := fb) (pts := pts) ht hdt hp
  refine ⟨t, u, e, hk, ht, ?_, hu, ?_⟩
  · rw [step, hd]
    simp [feed, e, e']
  · have e1 : t.queued.length = s.queued.length := by rw [hk.queued]
    have e2 : t.finished.length = 0 := by rw [hk.finished]; rfl
    rw [e1, e2] at hc
    exact hc

theorem destroy_inv {s : State} (h : Inv s) :
    ∃ u, step .destroy s = .ok u ∧ Inv u ∧ u.coded = s.coded ∧ u.dropped = s.dropped ∧ u.key = s.key ∧
      (s.dead = false → (u.dead = true ↔ s.queued = [])) := by
  unfold step
  split
  next hd => exact ⟨s, rfl, h, rfl, rfl, rfl, fun e => by rw [hd] at e; cases e⟩
  next hd =>
  obtain ⟨t, e, ht, hk⟩ := processSrc_inv h
  have hdt : t.dead = false := by rw [hk.dead]; simpa using hd
  have hq : t.queued = s.queued := hk.queued
  have hf : t.finished = [] := hk.finished
  have hdev := ht.dev
  simp only [e]
  refine ⟨_, rfl, ?_⟩
  split
  next ha =>
    refine ⟨ht, hk.coded, hk.dropped, hk.key, fun _ => ?_⟩
    rw [hdt]
    refine ⟨nofun, fun hn => ?_⟩
    obtain ⟨b, hb, hbt⟩ := List.any_eq_true.mp ha
    obtain ⟨i, hi, rfl⟩ := List.getElem_of_mem hb
    have := (hdev i).mpr ⟨_, List.getElem?_eq_getElem hi, hbt⟩
    rw [hq, hn, hf] at this
    cases this
  next ha =>
    have hall : ∀ b ∈ t.src, b = {} := by
      intro b hb
      rcases ht.shape b hb with rfl | ⟨x, y, rfl⟩
      · rfl
      · exact absurd (List.any_eq_true.mpr ⟨_, hb, rfl⟩) ha
    refine ⟨⟨ht.len, ht.idx, ht.shape, ht.dev, ht.nodup, ht.reads, ht.held, ht.fds, ht.fresh, ht.fnodup, ht.fed,
      ht.dst, ht.pk, fun _ => hall⟩, hk.coded, hk.dropped, hk.key, fun _ => ⟨fun _ => ?_, fun _ => rfl⟩⟩
    rw [← hq]
    cases hqq : t.queued with
    | nil => rfl
    | cons q l =>
      obtain ⟨b, hb, hbf⟩ := ht.reads q (by rw [hqq]; simp)
      rw [hall b (List.mem_of_getElem? hb)] at hbf
      cases hbf

theorem step_inv {o : Op} {s : State} (h : Inv s) (ho : o.Sound) : ∃ t, step o s = .ok t ∧ Inv t := by
  cases o with
  | feed fb pts planes ok =>
    cases hd : s.dead with
    | true => exact ⟨s, by rw [step, hd]; rfl, h⟩
    | false =>
      obtain ⟨hp, rfl⟩ := ho
      obtain ⟨_, u, -, -, -, e, hu, -⟩ := feed_inv (fb := fb) (pts := pts) h hd hp
      exact ⟨u, e, hu⟩
  | destroy =>
    obtain ⟨u, e, hu, -⟩ := destroy_inv h
    exact ⟨u, e, hu⟩
  | keyframe => obtain ⟨u, e, hu, -⟩ := idle_inv (o := .keyframe) h trivial; exact ⟨u, e, hu⟩
  | event => obtain ⟨u, e, hu, -⟩ := idle_inv (o := .event) h trivial; exact ⟨u, e, hu⟩
  | finish i => obtain ⟨u, e, hu, -⟩ := idle_inv (o := .finish i) h trivial; exact ⟨u, e, hu⟩
  | packet p => obtain ⟨u, e, hu, -⟩ := idle_inv (o := .packet p) h trivial; exact ⟨u, e, hu⟩

theorem run_sound : ∀ (os : List Op) (s : State), Inv s → (∀ o ∈ os, o.Sound) → ∃ t, run os s = .ok t ∧ Inv t
  | [], s, h, _ => ⟨s, rfl, h⟩
  | o :: os, s, h, ho => by
    obtain ⟨t, e, ht⟩ := step_inv h (ho o (by simp))
    obtain ⟨u, e', hu⟩ := run_sound os t ht fun p hp => ho p (by simp [hp])
    exact ⟨u, by rw [run, e]; exact e', hu⟩

theorem encode_ok {fb pts planes : Nat} {ok : Bool} {s t : State} (e : encode fb pts planes ok s = .ok t) :
    t = { s with dropped := s.dropped ++ [fb] } ∨ (planes ≤ 4 ∧ ok = true) := by
  unfold encode at e
  split at e
  · cases e
    exact .inl rfl
  · split at e
    · cases e
    · split at e
      · cases e
      next hp =>
        split at e
        next ho => exact .inr ⟨by omega, ho⟩
        · cases e

/-- a step that does not end in a crash keeps the invariant, sound or not -/
theorem step_ok {o : Op} {s t : State} (h : Inv s) (e : step o s = .ok t) : Inv t := by
  have key : o.Sound → Inv t := by
    intro ho
    obtain ⟨u, e', hu⟩ := step_inv h ho
    rw [e] at e'
    cases e'
    exact hu
  cases o with
  | feed fb pts planes ok =>
    unfold step at e
    split at e
    · cases e
      exact h
    · obtain ⟨t', e1, ht, hk⟩ := processSrc_inv h
      simp only [feed, e1] at e
      rcases encode_ok e with rfl | ho
      · exact ⟨ht.len, ht.idx, ht.shape, ht.dev, ht.nodup, ht.reads, ht.held, ht.fds, ht.fresh, ht.fnodup,
          ht.fed, ht.dst, ht.pk, ht.dead⟩
      · exact key ho
  | destroy => exact key trivial
  | keyframe => exact key trivial
  | event => exact key trivial
  | finish i => exact key trivial
  | packet p => exact key trivial

theorem run_inv : ∀ (os : List Op) (s t : State), Inv s → run os s = .ok t → Inv t
  | [], s, t, h, e => by cases e; exact h
  | o :: os, s, t, h, e => by
    rw [run] at e
    cases hs : step o s with
    | ok u =>
      rw [hs] at e
      exact run_inv os u t (step_ok h hs) e
    | ub w => rw [hs] at e; cases e
    | abort w => rw [hs] at e; cases e

theorem run_append (os ps : List Op) (s : State) :
    run (os ++ ps) s = match run os s with
      | .ok t => run ps t
      | .ub w => .ub w
      | .abort w => .abort w := by
  induction os generalizing s with
  | nil => rfl
  | cons o os ih =>
    rw [List.cons_append, run, run]
    cases step o s <;> simp [ih]

/-- what the device reads is held as often as it is read -/
theorem reading_count (fb : Nat) : ∀ (l : List (Nat × Nat)) (src : List Src), (l.map Prod.fst).Nodup →
    (∀ q ∈ l, ∃ b, src[q.1]? = some b ∧ b.fb = some q.2) →
    (l.map Prod.snd).count fb ≤ (src.filterMap Src.fb).count fb
  | [], _, _, _ => by simp
  | q :: l, src, hn, hr => by
    obtain ⟨b, hb, hf⟩ := hr q (by simp)
    have pc := perm_clear Src.fb q.2 {} src q.1 b hb hf rfl
    rw [List.map_cons, List.nodup_cons] at hn
    have ih := reading_count fb l (src.set q.1 {}) hn.2 (by
      intro r hr'
      have hne : q.1 ≠ r.1 := fun e => hn.1 (e ▸ List.mem_map_of_mem hr')
      rw [List.getElem?_set_ne hne]
      exact hr r (by simp [hr']))
    rw [pc.count_eq, List.map_cons, List.count_cons, List.count_cons]
    omega

theorem mem_insert {f p : Nat} {l : List Nat} : p ∈ insert f l ↔ p = f ∨ p ∈ l := by
  induction l with
  | nil => simp [insert]
  | cons g l ih =>
    rw [insert]
    split
    · simp
    · simp only [List.mem_cons, ih]
      exact or_left_comm

theorem mem_sort {p : Nat} {l : List Nat} : p ∈ sort l ↔ p ∈ l := by
  induction l with
  | nil => simp [sort]
  | cons f l ih => rw [sort, mem_insert, ih, List.mem_cons]

theorem sort_sorted (l : List Nat) : (sort l).Pairwise (· ≤ ·) := by
  have hi : ∀ {f : Nat} {l : List Nat}, l.Pairwise (· ≤ ·) → (insert f l).Pairwise (· ≤ ·) := by
    intro f l h
    induction l with
    | nil => simp [insert]
    | cons g l ih =>
      rw [insert]
      obtain ⟨h1, h2⟩ := List.pairwise_cons.mp h
      split
      next hfg =>
        refine List.pairwise_cons.mpr ⟨fun x hx => ?_, h⟩
        rcases List.mem_cons.mp hx with rfl | hx
        · exact hfg
        · exact Nat.le_trans hfg (h1 x hx)
      next hfg =>
        refine List.pairwise_cons.mpr ⟨fun x hx => ?_, ih h2⟩
        rcases mem_insert.mp hx with rfl | hx
        · omega
        · exact h1 x hx
  induction l with
  | nil => simp [sort]
  | cons f l ih => exact hi ih

theorem haveFormat_mem {known : List Nat} {f : Nat} (h : haveFormat known f = true) : f ∈ known := by
  have hl : ∀ {n lo hi : Nat}, bsearchLoop known f n lo hi = true → f ∈ known := by
    intro n
    induction n with
    | zero => intro lo hi h; cases h
    | succ n ih =>
      intro lo hi h
      rw [bsearchLoop] at h
      split at h
      · cases h
      · split at h
        · cases h
        next x hx =>
          split at h
          · exact ih h
          · split at h
            · exact ih h
            · rw [show f = x by omega]
              exact List.mem_of_getElem? hx
  exact hl h

/-- in an array that is in order the search finds what there is -/
theorem haveFormat_iff {known : List Nat} (hs : known.Pairwise (· ≤ ·)) {f : Nat} : haveFormat known f = true ↔ f ∈ known := by
  refine ⟨haveFormat_mem, fun hm => ?_⟩
  obtain ⟨i, hi, rfl⟩ := List.getElem_of_mem hm
  have hl : ∀ {n lo hh : Nat}, lo ≤ i → i < hh → hh ≤ known.length → hh - lo < n → bsearchLoop known known[i] n lo hh = true := by
    intro n
    induction n with
    | zero => intro lo hh _ _ _ h; omega
    | succ n ih =>
      intro lo hh h1 h2 h3 h4
      have hmid : (lo + hh) / 2 < known.length := by omega
      rw [bsearchLoop, if_neg (by omega), List.getElem?_eq_getElem hmid]
      dsimp only
      have hle : ∀ {a b : Nat} (ha : a < known.length) (hb : b < known.length), a ≤ b → known[a] ≤ known[b] := by
        intro a b ha hb hab
        rcases Nat.lt_or_eq_of_le hab with hab | rfl
        · exact List.pairwise_iff_getElem.mp hs a b ha hb hab
        · exact Nat.le_refl _
      split
      next hlt =>
        refine ih h1 ?_ (by omega) (by omega)
        rcases Nat.lt_or_ge i ((lo + hh) / 2) with h | h
        · exact h
        · have := hle hmid hi h; omega
      · split
        next hlt =>
          refine ih ?_ h2 h3 (by omega)
          rcases Nat.lt_or_ge ((lo + hh) / 2) i with h | h
          · omega
          · have := hle hi hmid h; omega
        · rfl
  exact hl (Nat.zero_le _) hi (Nat.le_refl _) (by omega)

theorem tryFormats_zero {known l : List Nat} (hs : known.Pairwise (· ≤ ·)) (h0 : 0 ∉ l) :
    tryFormats known l ≠ 0 ↔ ∃ p ∈ l, p ∈ known := by
  induction l with
  | nil => simp [tryFormats]
  | cons f l ih =>
    simp only [List.mem_cons, not_or] at h0
    rw [tryFormats]
    simp only [haveFormat_iff hs]
    split
    · rename_i hf
      exact ⟨fun _ => ⟨f, by simp, hf⟩, fun _ e => h0.1 e.symm⟩
    · rename_i hf
      rw [ih h0.2]
      constructor
      · rintro ⟨p, a, b⟩; exact ⟨p, by simp [a], b⟩
      · rintro ⟨p, a, b⟩
        rcases List.mem_cons.mp a with rfl | a
        · exact absurd b hf
        · exact ⟨p, a, b⟩

/-- a format is chosen just if the device has one with the bytes of the framebuffer's in reverse -/
theorem formatFromDrm_zero {known : List Nat} (hs : known.Pairwise (· ≤ ·)) {drm : Nat} :
    formatFromDrm known drm ≠ 0 ↔
      ∃ a p, drmBytes drm = some a ∧ v4l2Bytes p = some a.reverse ∧ p ∈ known := by
  have key : ∀ (l : List Nat) (a : List Chan), drmBytes drm = some a → 0 ∉ l →
      (∀ p, v4l2Bytes p = some a.reverse ↔ p ∈ l) →
      (tryFormats known l ≠ 0 ↔
        ∃ a p, drmBytes drm = some a ∧ v4l2Bytes p = some a.reverse ∧ p ∈ known) := by
    intro l a ha h0 hl
    rw [tryFormats_zero hs h0]
    constructor
    · rintro ⟨p, h1, h2⟩; exact ⟨a, p, ha, (hl p).mpr h1, h2⟩
    · rintro ⟨a', p, h1, h2, h3⟩
      rw [ha] at h1
      obtain rfl := Option.some.inj h1
      exact ⟨p, (hl p).mp h2, h3⟩
  have inv : ∀ (l : List Nat) (a : List Chan), (∀ p ∈ l, v4l2Bytes p = some a) →
      (∀ p, v4l2Bytes p = some a → p ∈ l) → ∀ p, v4l2Bytes p = some a ↔ p ∈ l :=
    fun l a h1 h2 p => ⟨h2 p, h1 p⟩
  rw [formatFromDrm]
  split
  next hd =>
    refine key _ [.x, .b, .g, .r] (by rcases hd with rfl | rfl <;> rfl) (by decide) (inv _ _ (by decide) ?_)
    intro p hp
    simp only [v4l2Bytes] at hp
    repeat' split at hp
    all_goals first | (exfalso; revert hp; decide) | skip
    rename_i h
    rcases h with rfl | rfl <;> decide
  next hd =>
    split
    next hd' =>
      refine key _ [.b, .g, .r, .x] (by rcases hd' with rfl | rfl <;> rfl) (by decide) (inv _ _ (by decide) ?_)
      intro p hp
      simp only [v4l2Bytes] at hp
      repeat' split at hp
      all_goals first | (exfalso; revert hp; decide) | skip
      rename_i h
      rcases h with rfl | rfl | rfl <;> decide
    next hd' =>
      split
      next hd'' =>
        refine key _ [.x, .r, .g, .b] (by rcases hd'' with rfl | rfl <;> rfl) (by decide) (inv _ _ (by decide) ?_)
        intro p hp
        simp only [v4l2Bytes] at hp
        repeat' split at hp
        all_goals first | (exfalso; revert hp; decide) | skip
        rename_i h
        rcases h with rfl | rfl | rfl <;> decide
      next hd'' =>
        split
        next hd3 =>
          refine key _ [.r, .g, .b, .x] (by rcases hd3 with rfl | rfl <;> rfl) (by decide) (inv _ _ (by decide) ?_)
          intro p hp
          simp only [v4l2Bytes] at hp
          repeat' split at hp
          all_goals first | (exfalso; revert hp; decide) | skip
          rename_i h
          rcases h with rfl | rfl <;> decide
        next hd3 =>
          refine ⟨fun h => absurd rfl h, ?_⟩
          rintro ⟨a, p, h1, -⟩
          unfold drmBytes at h1
          exfalso
          repeat' split at h1
          · rename_i h; exact hd' h
          · rename_i h; exact hd3 h
          · rename_i h; exact hd h
          · rename_i h; exact hd'' h
          · cases h1

/-- the format that is asked for is one of the device's -/
theorem formatFromDrm_mem {known : List Nat} {drm : Nat} (h : formatFromDrm known drm ≠ 0) :
    formatFromDrm known drm ∈ known := by
  have ht : ∀ l : List Nat, tryFormats known l ≠ 0 → tryFormats known l ∈ known := by
    intro l
    induction l with
    | nil => intro h; exact absurd rfl h
    | cons f l ih =>
      rw [tryFormats]
      split
      next hm => intro _; exact haveFormat_mem hm
      · exact ih
  rw [formatFromDrm] at h ⊢
  split at h
  next hd => rw [if_pos hd]; exact ht _ h
  next hd =>
    rw [if_neg hd]
    split at h
    next hd => rw [if_pos hd]; exact ht _ h
    next hd =>
      rw [if_neg hd]
      split at h
      next hd => rw [if_pos hd]; exact ht _ h
      next hd =>
        rw [if_neg hd]
        split at h
        next hd => rw [if_pos hd]; exact ht _ h
        next hd => exact absurd rfl h

end Verif.V4l2
