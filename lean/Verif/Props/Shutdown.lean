import Verif.Model.Shutdown

/-! # C114: the end of the server, while clients are connected -/

namespace Verif.Shutdown

/-- nobody is about to be closed, and nobody connects -/
structure Quiet (rs : List Round) (s : St) : Prop where
  idles : s.idles = []
  lasts : ∀ c ∈ s.clients, Cb.last ∉ c.queue
  nodup : (s.clients.map (·.id)).Nodup
  calm : ∀ r ∈ rs, ∀ id, Ev.connect id ∉ r.evs

/-- what waiting may change: clients are there as before but may have finished updating, time passes, and the
main loop was told to wait for up to a second -/
structure Waited (s s' : St) : Prop where
  idles : s'.idles = s.idles
  freed : s'.freed = s.freed
  called : s'.called = s.called
  display : s'.display = s.display
  ids : s'.clients.map (·.id) = s.clients.map (·.id)
  lasts : (∀ c ∈ s.clients, Cb.last ∉ c.queue) → ∀ c ∈ s'.clients, Cb.last ∉ c.queue
  clock : s.clock ≤ s'.clock
  polls : ∃ ps, s'.polls = s.polls ++ ps ∧ ∀ p ∈ ps, 0 < p ∧ p ≤ 1000000

theorem Waited.refl (s : St) : Waited s s := ⟨rfl, rfl, rfl, rfl, rfl, id, Nat.le_refl _, [], by simp, by simp⟩

theorem Waited.trans {a b c : St} (h : Waited a b) (h' : Waited b c) : Waited a c := by
  obtain ⟨ps, p1, p2⟩ := h.polls
  obtain ⟨qs, q1, q2⟩ := h'.polls
  refine ⟨h'.idles.trans h.idles, h'.freed.trans h.freed, h'.called.trans h.called, h'.display.trans h.display,
    h'.ids.trans h.ids, fun l => h'.lasts (h.lasts l), Nat.le_trans h.clock h'.clock, ps ++ qs, ?_, ?_⟩
  · rw [q1, p1, List.append_assoc]
  · intro p hp
    rcases List.mem_append.mp hp with hp | hp
    · exact p2 p hp
    · exact q2 p hp

theorem map_ids (l : List Client) (id : Nat) (f : Client → Client) (hf : ∀ c, (f c).id = c.id) :
    (l.map fun c => if c.id == id then f c else c).map (·.id) = l.map (·.id) := by
  rw [List.map_map]
  apply List.map_congr_left
  intro c _
  show (if c.id == id then f c else c).id = c.id
  split
  · exact hf c
  · rfl

theorem update_waited (s : St) (id : Nat) (f : Client → Client) (hf : ∀ c, (f c).id = c.id)
    (hq : ∀ c, Cb.last ∉ c.queue → Cb.last ∉ (f c).queue) : Waited s (update s id f) := by
  refine ⟨rfl, rfl, rfl, rfl, map_ids _ _ _ hf, ?_, Nat.le_refl _, [], by simp [update], by simp⟩
  intro hl c hc
  unfold update at hc
  obtain ⟨d, hd, rfl⟩ := List.mem_map.mp hc
  split
  · exact hq d (hl d hd)
  · exact hl d hd

theorem closeStream_waited {s : St} (id : Nat) (hl : ∀ c ∈ s.clients, Cb.last ∉ c.queue) :
    Waited s (closeStream s id) := by
  unfold closeStream
  split
  · exact Waited.refl s
  · rename_i c hc
    have hmem : c ∈ s.clients := List.mem_of_find?_eq_some hc
    have hnil : c.queue.filter (· == .last) = [] := by
      rw [List.filter_eq_nil_iff]
      intro x hx h
      have : x = .last := by simpa using h
      exact hl c hmem (this ▸ hx)
    dsimp only
    rw [hnil]
    have : ({ s with idles := s.idles ++ [].map fun _ : Cb => id } : St) = s := by simp
    rw [this]
    exact update_waited s id _ (fun _ => rfl) (fun _ _ => by simp)

theorem find_some {s : St} {id : Nat} (h : id ∈ s.clients.map (·.id)) : ∃ c, find s id = some c := by
  unfold find
  cases hf : s.clients.find? fun c => c.id == id with
  | some c => exact ⟨c, rfl⟩
  | none =>
    exfalso
    obtain ⟨c, hc, rfl⟩ := List.mem_map.mp h
    have := List.find?_eq_none.mp hf c hc
    simp at this

/-- the main loop, when nobody is about to be closed and nobody connects -/
theorem events_quiet : ∀ (n : Nat) (rs : List Round) (es : List Ev) (s : St), s.idles = [] →
    (∀ id, Ev.connect id ∉ es) →
    (events n rs es s = .ok none ∧ n ≤ es.length) ∨ ∃ s', events n rs es s = .ok (some (rs, s')) ∧ Waited s s' ∧
      s'.clock = s.clock ∧ s'.polls = s.polls := by
  intro n
  induction n with
  | zero => intro rs es s _ _; left; exact ⟨by rw [events], by omega⟩
  | succ n ih =>
    intro rs es s hi hc
    cases es with
    | nil => right; exact ⟨s, by rw [events], Waited.refl s, rfl, rfl⟩
    | cons e es =>
      have hc' : ∀ id, Ev.connect id ∉ es := fun id h => hc id (List.mem_cons_of_mem _ h)
      have len : ∀ {x : Nat}, x ≤ es.length → x + 1 ≤ (e :: es).length := by intro x hx; simp; omega
      cases e with
      | done id =>
        rw [events]
        have hw := update_waited s id (fun c => { c with updating := false }) (fun _ => rfl) (fun _ h => h)
        rcases ih rs es _ (hw.idles.trans hi) hc' with ⟨h, hn⟩ | ⟨s', h1, h2, h3, h4⟩
        · exact .inl ⟨h, len hn⟩
        · exact .inr ⟨s', h1, hw.trans h2, h3, h4⟩
      | idle id =>
        rw [events, if_neg (by rw [hi]; simp)]
        rcases ih rs es s hi hc' with ⟨h, hn⟩ | h
        · exact .inl ⟨h, len hn⟩
        · exact .inr h
      | connect id => exact absurd List.mem_cons_self (hc id)
      | other =>
        rw [events]
        rcases ih rs es s hi hc' with ⟨h, hn⟩ | h
        · exact .inl ⟨h, len hn⟩
        · exact .inr h

/-- waiting for an encoder -/
theorem drain_quiet : ∀ (n : Nat) (rs : List Round) (id start : Nat) (left : Int) (s : St), s.idles = [] →
    id ∈ s.clients.map (·.id) → (∀ r ∈ rs, ∀ id, Ev.connect id ∉ r.evs) → 0 < left → left ≤ 1000000 →
    start ≤ s.clock →
    drain n rs id start left s = .ok none ∨ ∃ rs' s', drain n rs id start left s = .ok (some (rs', s')) ∧
      Waited s s' ∧ rs' <:+ rs ∧
      ((∃ c, find s' id = some c ∧ c.updating = false) ∨ start + 1000000 ≤ s'.clock) := by
  intro n
  induction n with
  | zero => intro rs id start left s _ _ _ _ _ _; left; rw [drain]
  | succ n ih =>
    intro rs id start left s hi hm hc h0 h1 hs
    obtain ⟨c, hf⟩ := find_some hm
    rw [drain.eq_def]
    dsimp only
    rw [hf]
    dsimp only
    by_cases hu : c.updating
    · rw [if_neg (by simp [hu])]
      cases rs with
      | nil => exact .inl rfl
      | cons r rs =>
        dsimp only
        have hc' : ∀ x ∈ rs, ∀ id, Ev.connect id ∉ x.evs := fun x hx => hc x (List.mem_cons_of_mem _ hx)
        have hw0 : Waited s { s with polls := s.polls ++ [left] } :=
          ⟨rfl, rfl, rfl, rfl, rfl, fun h => h, Nat.le_refl _, [left], rfl, by simpa using ⟨h0, h1⟩⟩
        rcases events_quiet n rs r.evs { s with polls := s.polls ++ [left] } hi (hc r List.mem_cons_self) with
          ⟨h, -⟩ | ⟨s1, h, hw1, hk, -⟩
        · rw [h]; exact .inl rfl
        · rw [h, Outcome.bind_ok]
          dsimp only
          have hw2 : Waited s1 { s1 with clock := s1.clock + r.dt } :=
            ⟨rfl, rfl, rfl, rfl, rfl, fun h => h, by simp, [], by simp, by simp⟩
          have hw := (hw0.trans hw1).trans hw2
          have hk' : s1.clock = s.clock := hk
          by_cases hr : (1000000 : Int) - (((s1.clock + r.dt : Nat) : Int) - start) ≤ 0
          · rw [if_pos hr]
            refine .inr ⟨rs, _, rfl, hw, List.suffix_cons _ _, .inr ?_⟩
            show start + 1000000 ≤ s1.clock + r.dt
            omega
          · rw [if_neg hr]
            rcases ih rs id start ((1000000 : Int) - (((s1.clock + r.dt : Nat) : Int) - start)) { s1 with clock := s1.clock + r.dt } (hw.idles.trans hi) (by rw [hw.ids]; exact hm)
              hc' (by omega) (by omega) (by show start ≤ s1.clock + r.dt; omega) with h | ⟨rs', s', h, hw', hs', hd⟩
            · exact .inl h
            · exact .inr ⟨rs', s', h, hw.trans hw', hs'.trans (List.suffix_cons _ _), hd⟩
    · rw [if_pos (by simpa using hu)]
      exact .inr ⟨rs, s, rfl, Waited.refl s, List.suffix_refl _, .inl ⟨c, hf, by simpa using hu⟩⟩

/-- Closing a client waits until its encoder has finished, or for a second; then the client is freed, and
nothing else is. -/
theorem c114_waits_partial (n : Nat) (rs : List Round) (id : Nat) (s : St) (hq : Quiet rs s)
    (hm : id ∈ s.clients.map (·.id)) :
    close n rs id s = .ok none ∨ ∃ rs' s1, close n rs id s = .ok (some (rs', free s1 id)) ∧ Waited s s1 ∧ rs' <:+ rs ∧
      ((∃ c, find s1 id = some c ∧ c.updating = false) ∨ s.clock + 1000000 ≤ s1.clock) := by
  cases n with
  | zero => left; rw [close]
  | succ n =>
    obtain ⟨c, hf⟩ := find_some hm
    rw [close, hf]
    dsimp only
    have hw := closeStream_waited id hq.lasts
    rcases drain_quiet n rs id (closeStream s id).clock 1000000 (closeStream s id) (hw.idles.trans hq.idles)
      (by rw [hw.ids]; exact hm) hq.calm (by omega) (by omega) (Nat.le_refl _) with h | ⟨rs', s', h, hw', hs, hd⟩
    · rw [h]; exact .inl rfl
    · rw [h, Outcome.bind_ok]
      dsimp only
      obtain ⟨c', hf'⟩ := find_some (s := s') (id := id) (by rw [hw'.ids, hw.ids]; exact hm)
      rw [hf']
      refine .inr ⟨rs', s', rfl, hw.trans hw', hs, ?_⟩
      rcases hd with hd | hd
      · exact .inl hd
      · have := hw.clock
        exact .inr (by omega)

theorem filter_first {c : Client} {l : List Client} (h : ((c :: l).map (·.id)).Nodup) :
    ((c :: l).filter fun d => !(d.id == c.id)) = l := by
  rw [List.map_cons, List.nodup_cons] at h
  rw [List.filter_cons_of_neg (by simp), List.filter_eq_self]
  intro d hd
  have : d.id ≠ c.id := fun e => h.1 (e ▸ List.mem_map_of_mem hd)
  simpa using this

theorem ids_cons {l : List Client} {i : Nat} {is : List Nat} (h : l.map (·.id) = i :: is) :
    ∃ c t, l = c :: t ∧ c.id = i ∧ t.map (·.id) = is := by
  cases l with
  | nil => cases h
  | cons c t =>
    simp only [List.map_cons, List.cons.injEq] at h
    exact ⟨c, t, rfl, h.1, h.2⟩

/-- the state after a client is freed -/
theorem free_quiet {rs rs' : List Round} {s s1 : St} {c : Client} {t : List Client} (hq : Quiet rs s) (hcl : s.clients = c :: t)
    (hw : Waited s s1) (hs : rs' <:+ rs) :
    Quiet rs' (free s1 c.id) ∧ (free s1 c.id).clients.map (·.id) = t.map (·.id) ∧
      (free s1 c.id).freed = s.freed ++ [c.id] ∧ (free s1 c.id).called = s.called ++ [c.id] := by
  have hids : s1.clients.map (·.id) = c.id :: t.map (·.id) := by rw [hw.ids, hcl]; rfl
  obtain ⟨c', t', e1, e2, e3⟩ := ids_cons hids
  have hnd : ((c' :: t').map (·.id)).Nodup := by rw [← e1, hw.ids]; exact hq.nodup
  have hfree : (free s1 c.id).clients = t' := by
    unfold free
    dsimp only
    rw [e1, ← e2]
    exact filter_first hnd
  refine ⟨⟨hw.idles.trans hq.idles, ?_, ?_, fun r hr => hq.calm r (hs.mem hr)⟩, by rw [hfree, e3], ?_, ?_⟩
  · rw [hfree]
    intro d hd
    exact hw.lasts hq.lasts d (e1 ▸ List.mem_cons_of_mem _ hd)
  · rw [hfree]
    rw [List.map_cons, List.nodup_cons] at hnd
    exact hnd.2
  · show s1.freed ++ [c.id] = _
    rw [hw.freed]
  · show s1.called ++ [c.id] = _
    rw [hw.called]

theorem closeAll_quiet : ∀ (m n : Nat) (rs : List Round) (s : St), Quiet rs s →
    closeAll m n rs s = .ok none ∨ ∃ rs' s', closeAll m n rs s = .ok (some (rs', s')) ∧
      s'.clients = [] ∧ s'.idles = [] ∧ s'.freed = s.freed ++ s.clients.map (·.id) ∧
      s'.called = s.called ++ s.clients.map (·.id) ∧
      ∃ ps, s'.polls = s.polls ++ ps ∧ ∀ p ∈ ps, 0 < p ∧ p ≤ 1000000 := by
  intro m
  induction m with
  | zero => intro n rs s _; left; rw [closeAll]
  | succ m ih =>
    intro n rs s hq
    cases hcl : s.clients with
    | nil =>
      right
      refine ⟨rs, s, by rw [closeAll, hcl], hcl, hq.idles, by simp, by simp, [], by simp, by simp⟩
    | cons c t =>
      rw [closeAll, hcl]
      dsimp only
      rcases c114_waits_partial n rs c.id s hq (by rw [hcl]; simp) with h | ⟨rs', s1, h, hw, hs, -⟩
      · rw [h]; exact .inl rfl
      · rw [h, Outcome.bind_ok]
        dsimp only
        obtain ⟨hq', e1, e2, e3⟩ := free_quiet hq hcl hw hs
        rcases ih n rs' (free s1 c.id) hq' with h | ⟨rs'', s', h, f1, f2, f3, f4, ps, p1, p2⟩
        · exact .inl h
        · obtain ⟨qs, q1, q2⟩ := hw.polls
          refine .inr ⟨rs'', s', h, f1, f2, ?_, ?_, qs ++ ps, ?_, ?_⟩
          · rw [f3, e2, e1, List.map_cons, List.append_assoc]; rfl
          · rw [f4, e3, e1, List.map_cons, List.append_assoc]; rfl
          · rw [p1, ← List.append_assoc, ← q1]; rfl
          · intro p hp
            rcases List.mem_append.mp hp with hp | hp
            · exact q2 p hp
            · exact p2 p hp

theorem closeStreams_waited : ∀ (ids : List Nat) (s : St), (∀ c ∈ s.clients, Cb.last ∉ c.queue) →
    Waited s (ids.foldl closeStream s) := by
  intro ids
  induction ids with
  | nil => intro s _; exact Waited.refl s
  | cons i ids ih =>
    intro s hl
    have hw := closeStream_waited i hl
    exact hw.trans (ih _ (hw.lasts hl))

/-- the beginning of `del` -/
theorem del_quiet {rs : List Round} {s : St} (keeps : Bool) (hq : Quiet rs s) :
    Waited { s with display := s.display && keeps } (closeStreams { s with display := s.display && keeps }) ∧
      Quiet rs (closeStreams { s with display := s.display && keeps }) := by
  have hw := closeStreams_waited (s.clients.map (·.id)) { s with display := s.display && keeps } hq.lasts
  refine ⟨hw, hw.idles.trans hq.idles, hw.lasts hq.lasts, ?_, hq.calm⟩
  show (List.map _ (List.foldl closeStream _ _).clients).Nodup
  rw [hw.ids]
  exact hq.nodup

/-- When the server is deleted all clients are freed, in their order, each once and with the application's
function called once; none is used after that and nothing of them is left in the main loop. The main loop is
never told to wait for ever. This holds if no client was about to be closed and nobody connects meanwhile. -/
theorem c114_del_partial (m n : Nat) (keeps : Bool) (rs : List Round) (s : St) (hq : Quiet rs s) :
    del m n keeps rs s = .ok none ∨ ∃ rs' s', del m n keeps rs s = .ok (some (rs', s')) ∧
      s'.clients = [] ∧ s'.freed = s.freed ++ s.clients.map (·.id) ∧
      s'.called = s.called ++ s.clients.map (·.id) ∧ after s' = .ok s' ∧
      ∃ ps, s'.polls = s.polls ++ ps ∧ ∀ p ∈ ps, 0 < p ∧ p ≤ 1000000 := by
  obtain ⟨hw, hq'⟩ := del_quiet keeps hq
  unfold del
  rcases closeAll_quiet m n rs _ hq' with h | ⟨rs', s', h, f1, f2, f3, f4, ps, p1, p2⟩
  · exact .inl h
  · obtain ⟨qs, q1, q2⟩ := hw.polls
    refine .inr ⟨rs', s', h, f1, ?_, ?_, ?_, qs ++ ps, ?_, ?_⟩
    · rw [f3, hw.freed, hw.ids]
    · rw [f4, hw.called, hw.ids]
    · unfold after; rw [f2]
    · rw [p1, q1, List.append_assoc]
    · intro p hp
      rcases List.mem_append.mp hp with hp | hp
      · exact q2 p hp
      · exact p2 p hp

/-- three clients: one is encoding, one has a frame in its queue, one is idle -/
def demo : St :=
  { clients := [⟨1, true, []⟩, ⟨2, true, [.plain, .frame]⟩, ⟨3, false, []⟩], idles := [], freed := [], called := [],
    clock := 50, polls := [], display := true }

example : Quiet [⟨[.other], 400⟩, ⟨[.done 7, .done 1], 20⟩] demo :=
  ⟨rfl, by decide, by decide, by intro r hr id; simp at hr; rcases hr with rfl | rfl <;> simp⟩

example : del 10 10 true [⟨[.other], 400⟩, ⟨[.done 7, .done 1], 20⟩] demo =
    .ok (some ([], { demo with clients := [], freed := [1, 2, 3], called := [1, 2, 3], clock := 470, polls := [1000000, 999600] })) := by
  decide +kernel

/-- how long the waiting for an encoder can take -/
theorem drain_ends (B : Nat) : ∀ (k n : Nat) (rs : List Round) (id start : Nat) (left : Int) (s : St), s.idles = [] →
    id ∈ s.clients.map (·.id) → (∀ r ∈ rs, (∀ id, Ev.connect id ∉ r.evs) ∧ r.evs.length ≤ B ∧ 0 < r.dt) →
    start + 1000000 ≤ s.clock + k → k ≤ rs.length → k + B + 2 ≤ n → 0 < k →
    ∃ rs' s', drain n rs id start left s = .ok (some (rs', s')) ∧ rs.length ≤ rs'.length + k := by
  intro k
  induction k with
  | zero => intro n rs id start left s _ _ _ _ _ _ h; omega
  | succ k ih =>
    intro n rs id start left s hi hm hc hk hl hn _
    match n, hn with
    | n + 1, hn =>
      obtain ⟨c, hf⟩ := find_some hm
      rw [drain.eq_def]
      dsimp only
      rw [hf]
      dsimp only
      by_cases hu : c.updating
      · rw [if_neg (by simp [hu])]
        cases rs with
        | nil => simp at hl
        | cons r rs =>
          dsimp only
          obtain ⟨c1, c2, c3⟩ := hc r List.mem_cons_self
          rcases events_quiet n rs r.evs { s with polls := s.polls ++ [left] } hi c1 with ⟨-, h⟩ | ⟨s1, h, hw1, hck, -⟩
          · omega
          · rw [h, Outcome.bind_ok]
            dsimp only
            have hck' : s1.clock = s.clock := hck
            by_cases hr : (1000000 : Int) - (((s1.clock + r.dt : Nat) : Int) - start) ≤ 0
            · rw [if_pos hr]
              exact ⟨rs, _, rfl, by simp only [List.length_cons]; omega⟩
            · rw [if_neg hr]
              obtain ⟨rs', s', h', hl'⟩ := ih n rs id start ((1000000 : Int) - (((s1.clock + r.dt : Nat) : Int) - start))
                { s1 with clock := s1.clock + r.dt } (hw1.idles.trans hi)
                (by show id ∈ s1.clients.map (·.id); rw [hw1.ids]; exact hm)
                (fun x hx => hc x (List.mem_cons_of_mem _ hx)) (by show start + 1000000 ≤ s1.clock + r.dt + k; omega)
                (by simp only [List.length_cons] at hl; omega) (by omega) (by omega)
              exact ⟨rs', s', h', by simp only [List.length_cons]; omega⟩
      · rw [if_pos (by simpa using hu)]
        exact ⟨rs, s, rfl, by omega⟩

theorem closeAll_ends (B : Nat) : ∀ (m n : Nat) (rs : List Round) (s : St), Quiet rs s →
    (∀ r ∈ rs, r.evs.length ≤ B ∧ 0 < r.dt) → s.clients.length < m → 1000000 * s.clients.length ≤ rs.length →
    1000000 + B + 3 ≤ n → ∃ r, closeAll m n rs s = .ok (some r) := by
  intro m
  induction m with
  | zero => intro n rs s _ _ h; omega
  | succ m ih =>
    intro n rs s hq hc hm hl hn
    cases hcl : s.clients with
    | nil => exact ⟨_, by rw [closeAll, hcl]⟩
    | cons c t =>
      match n, hn with
      | n + 1, hn =>
        have hmem : c.id ∈ s.clients.map (·.id) := by rw [hcl]; simp
        rw [closeAll, hcl]
        dsimp only
        have hlen : s.clients.length = t.length + 1 := by rw [hcl]; rfl
        have hx : ∃ rs' s', close (n + 1) rs c.id s = .ok (some (rs', s')) ∧ rs.length ≤ rs'.length + 1000000 := by
          obtain ⟨d, hf⟩ := find_some hmem
          rw [close, hf]
          dsimp only
          have hw := closeStream_waited c.id hq.lasts
          obtain ⟨rs', s', h, hl'⟩ := drain_ends B 1000000 n rs c.id (closeStream s c.id).clock 1000000 (closeStream s c.id)
            (hw.idles.trans hq.idles) (by rw [hw.ids]; exact hmem) (fun r hr => ⟨hq.calm r hr, hc r hr⟩) (Nat.le_refl _)
            (by omega) (by omega) (by omega)
          rcases drain_quiet n rs c.id (closeStream s c.id).clock 1000000 (closeStream s c.id) (hw.idles.trans hq.idles)
            (by rw [hw.ids]; exact hmem) hq.calm (by omega) (by omega) (Nat.le_refl _) with g | ⟨rs'', s'', g, hw', -, -⟩
          · rw [h] at g; cases g
          · rw [h] at g
            cases g
            rw [h, Outcome.bind_ok]
            dsimp only
            obtain ⟨e, he⟩ := find_some (s := s') (id := c.id) (by rw [hw'.ids, hw.ids]; exact hmem)
            rw [he]
            exact ⟨rs', _, rfl, hl'⟩
        obtain ⟨rs', s', h, hl'⟩ := hx
        rcases c114_waits_partial (n + 1) rs c.id s hq hmem with g | ⟨rs'', s1, g, hw, hs, -⟩
        · rw [h] at g; cases g
        · rw [h] at g
          cases g
          rw [h, Outcome.bind_ok]
          dsimp only
          obtain ⟨hq', e1, -, -⟩ := free_quiet hq hcl hw hs
          have hlen' : (free s1 c.id).clients.length = t.length := by
            have := congrArg List.length e1
            simpa using this
          exact ih (n + 1) rs' (free s1 c.id) hq' (fun r hr => hc r (hs.mem hr)) (by omega) (by omega) (by omega)

/-- The end of the server is reached whatever the encoders do, after a second for each client at most, if time
goes on: a microsecond in each round of the main loop. -/
theorem c114_ends_partial (keeps : Bool) (B : Nat) (rs : List Round) (s : St) (hq : Quiet rs s)
    (hc : ∀ r ∈ rs, r.evs.length ≤ B ∧ 0 < r.dt) (hl : 1000000 * s.clients.length ≤ rs.length) :
    ∃ m n r, del m n keeps rs s = .ok (some r) := by
  obtain ⟨hw, hq'⟩ := del_quiet keeps hq
  have hlen : (closeStreams { s with display := s.display && keeps }).clients.length = s.clients.length := by
    have := congrArg List.length hw.ids
    simpa using this
  obtain ⟨r, h⟩ := closeAll_ends B (s.clients.length + 1) (1000000 + B + 3) rs _ hq' hc (by omega) (by omega) (Nat.le_refl _)
  exact ⟨_, _, r, h⟩

example : ∀ r ∈ List.replicate 3000000 (⟨[], 1⟩ : Round), r.evs.length ≤ 0 ∧ 0 < r.dt := by
  intro r hr
  rw [(List.mem_replicate.mp hr).2]
  decide

/-- A client whose last message is still in its queue, or who has hung up a moment ago, is used after it was
freed: while the server waits for its encoder, or after the end. -/
theorem c114_deferred_violated :
    (∃ s : St, (∀ c ∈ s.clients, c.updating = false) ∧ s.idles = [] ∧
      ∃ rs s', del 10 10 true [] s = .ok (some (rs, s')) ∧
        after s' = .ub "do_deferred_client_close: client used after free") ∧
    (∃ s : St, s.idles = [1] ∧ del 10 10 true [⟨[.done 1, .idle 1], 5⟩] s = .ub "client_drain_encoder: client used after free") :=
  ⟨⟨{ demo with clients := [⟨1, false, [.last]⟩] }, by decide, rfl, [], { demo with clients := [], idles := [1], freed := [1], called := [1] },
      by decide +kernel, by decide +kernel⟩,
    { demo with clients := [⟨1, true, []⟩], idles := [1] }, rfl, by decide +kernel⟩

theorem closeStream_still {s : St} (id : Nat) (hu : ∀ c ∈ s.clients, c.updating = false) :
    (∀ c ∈ (closeStream s id).clients, c.updating = false) ∧
      (closeStream s id).clients.map (·.id) = s.clients.map (·.id) ∧ ∃ is, (closeStream s id).idles = s.idles ++ is := by
  unfold closeStream
  split
  · exact ⟨hu, rfl, [], by simp⟩
  · refine ⟨?_, map_ids _ _ _ fun _ => rfl, _, rfl⟩
    intro c hc
    unfold update at hc
    obtain ⟨d, hd, rfl⟩ := List.mem_map.mp hc
    have := hu d hd
    split <;> simp [this]

theorem close_still {n : Nat} (rs : List Round) {s : St} {id : Nat} (hn : 2 ≤ n) (hu : ∀ c ∈ s.clients, c.updating = false)
    (hm : id ∈ s.clients.map (·.id)) : close n rs id s = .ok (some (rs, free (closeStream s id) id)) := by
  match n, hn with
  | n + 2, _ =>
    obtain ⟨c, hf⟩ := find_some hm
    obtain ⟨h1, h2, -⟩ := closeStream_still id hu
    obtain ⟨d, hd⟩ := find_some (s := closeStream s id) (id := id) (by rw [h2]; exact hm)
    have hdu : d.updating = false := h1 d (List.mem_of_find?_eq_some hd)
    rw [close, hf]
    dsimp only
    rw [drain.eq_def]
    dsimp only
    rw [hd]
    dsimp only
    rw [if_pos (by simp [hdu]), Outcome.bind_ok]
    dsimp only
    rw [hd]
    rfl

theorem closeAll_still : ∀ (m n : Nat) (rs : List Round) (s : St), 2 ≤ n → s.clients.length < m →
    (∀ c ∈ s.clients, c.updating = false) → ∃ s' is, closeAll m n rs s = .ok (some (rs, s')) ∧ s'.clients = [] ∧
      s'.idles = s.idles ++ is := by
  intro m
  induction m with
  | zero => intro n rs s _ h; omega
  | succ m ih =>
    intro n rs s hn hm hu
    cases hcl : s.clients with
    | nil => exact ⟨s, [], by rw [closeAll, hcl], hcl, by simp⟩
    | cons c t =>
      rw [closeAll, hcl]
      dsimp only
      rw [close_still rs hn hu (by rw [hcl]; simp), Outcome.bind_ok]
      dsimp only
      obtain ⟨h1, h2, is, h3⟩ := closeStream_still c.id hu
      have hlen : (free (closeStream s c.id) c.id).clients.length < s.clients.length := by
        have e : (closeStream s c.id).clients.length = s.clients.length := by
          have := congrArg List.length h2
          simpa using this
        rw [← e]
        unfold free
        dsimp only
        apply List.length_filter_lt_length_iff_exists.mpr
        have : c.id ∈ (closeStream s c.id).clients.map (·.id) := by rw [h2, hcl]; simp
        obtain ⟨d, hd, he⟩ := List.mem_map.mp this
        exact ⟨d, hd, by simp [he]⟩
      obtain ⟨s', js, e1, e2, e3⟩ := ih n rs (free (closeStream s c.id) c.id) hn (by omega) fun d hd =>
        h1 d (List.mem_filter.mp hd).1
      refine ⟨s', is ++ js, e1, e2, ?_⟩
      rw [e3]
      show (closeStream s c.id).idles ++ js = _
      rw [h3, List.append_assoc]

/-- Whoever has hung up a moment before the server is deleted is used after it was freed, always, when no
encoder is at work. -/
theorem c114_hungup_violated (keeps : Bool) (rs : List Round) (s : St) (hu : ∀ c ∈ s.clients, c.updating = false)
    (hi : s.idles ≠ []) : ∃ m n s', del m n keeps rs s = .ok (some (rs, s')) ∧
      after s' = .ub "do_deferred_client_close: client used after free" := by
  have key : ∀ (ids : List Nat) (s : St), (∀ c ∈ s.clients, c.updating = false) →
      (∀ c ∈ (ids.foldl closeStream s).clients, c.updating = false) ∧ ∃ is, (ids.foldl closeStream s).idles = s.idles ++ is := by
    intro ids
    induction ids with
    | nil => intro s h; exact ⟨h, [], by simp⟩
    | cons i ids ih =>
      intro s h
      obtain ⟨h1, -, is, h3⟩ := closeStream_still i h
      obtain ⟨g1, js, g2⟩ := ih _ h1
      exact ⟨g1, is ++ js, by rw [List.foldl_cons, g2, h3, List.append_assoc]⟩
  obtain ⟨h1, is, h2⟩ := key (s.clients.map (·.id)) { s with display := s.display && keeps } hu
  obtain ⟨s', js, e1, e2, e3⟩ := closeAll_still _ 2 rs (closeStreams { s with display := s.display && keeps })
    (Nat.le_refl _) (Nat.lt_succ_self _) h1
  refine ⟨_, 2, s', e1, ?_⟩
  have e4 : s'.idles = s.idles ++ (is ++ js) := by
    rw [e3, ← List.append_assoc, ← show (closeStreams { s with display := s.display && keeps }).idles = s.idles ++ is from h2]
  unfold after
  rw [e4]
  cases hs : s.idles with
  | nil => exact absurd hs hi
  | cons i l =>
    dsimp only [List.cons_append]
    unfold find
    rw [e2]
    rfl

example : ∀ c ∈ ({ demo with clients := [⟨1, false, []⟩, ⟨2, false, [.plain]⟩], idles := [2] } : St).clients, c.updating = false := by
  decide

/-- Someone who connects while the server waits for an encoder makes it use the display, which is gone if the
application has not kept it. -/
theorem c114_connection_violated :
    ∃ (s : St) (rs : List Round), s.display = true ∧ s.idles = [] ∧
      del 10 10 false rs s = .ub "on_connection: display used after free" :=
  ⟨demo, [⟨[.connect 4], 5⟩], rfl, rfl, by decide +kernel⟩

end Verif.Shutdown
