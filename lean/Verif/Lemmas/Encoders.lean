import Verif.Lemmas.Peer
import Verif.Spec.Server

/-!
# The encoders of a connection

An invariant of sessions: which encoder made which frame.
-/

namespace Verif.Server

variable {table : List Nat}

theorem snoc_induction {β : Type} {P : List β → Prop} (h0 : P []) (h1 : ∀ l x, P l → P (l ++ [x])) : ∀ l, P l := by
  intro l
  have : ∀ l : List β, P l.reverse := by
    intro l
    induction l with
    | nil => exact h0
    | cons x l ih => rw [List.reverse_cons]; exact h1 _ _ ih
  rw [← List.reverse_reverse l]
  exact this _

/-- an effect other than a frame for an encoder -/
def Eff.calm (x : Eff) : Prop := ∀ a b c d, x ≠ .encode a b c d

/-- the encoder that was last used for an encoding -/
def lastJob (e : Int) (l : List Eff) : Option Nat :=
  l.foldl (fun a x => match x with
    | .encode e' j _ _ => if e' = e then some j.id else a
    | _ => a) none

theorem lastJob_calm {e : Int} {l es : List Eff} (h : ∀ x ∈ es, x.calm) : lastJob e (l ++ es) = lastJob e l := by
  unfold lastJob
  rw [List.foldl_append]
  generalize List.foldl _ none l = a
  induction es generalizing a with
  | nil => rfl
  | cons x es ih =>
    rw [List.foldl_cons]
    have hx := h x (by simp)
    have := ih (fun x hx => h x (by simp [hx])) a
    cases x with
    | encode a b c d => exact absurd rfl (hx a b c d)
    | _ => exact this

theorem lastJob_encode {e e' : Int} {l : List Eff} {j p q} : lastJob e (l ++ [.encode e' j p q]) =
    if e' = e then some j.id else lastJob e l := by
  unfold lastJob
  rw [List.foldl_append]
  rfl

theorem lastJob_some {e : Int} {i : Nat} {l : List Eff} (h : lastJob e l = some i) :
    ∃ j p q, .encode e j p q ∈ l ∧ j.id = i := by
  have key : ∀ (l : List Eff) (a : Option Nat), l.foldl (fun a x => match x with
      | .encode e' j _ _ => if e' = e then some j.id else a
      | _ => a) a = some i → a = some i ∨ ∃ j p q, .encode e j p q ∈ l ∧ j.id = i := by
    intro l
    induction l with
    | nil => exact fun a h => .inl h
    | cons x l ih =>
      intro a h
      rw [List.foldl_cons] at h
      rcases ih _ h with h1 | ⟨j, p, q, h1, h2⟩
      · cases x with
        | encode e' j p q =>
          dsimp only at h1
          split at h1
          · next he => subst he; cases h1; exact .inr ⟨j, p, q, by simp, rfl⟩
          · exact .inl h1
        | _ => exact .inl h1
      · exact .inr ⟨j, p, q, by simp [h1], h2⟩
  rcases key l none h with h | h
  · cases h
  · exact h

theorem lastJob_none {e : Int} {l : List Eff} (h : lastJob e l = none) : ∀ j p q, .encode e j p q ∉ l := by
  have key : ∀ (l : List Eff) (a : Option Nat), l.foldl (fun a x => match x with
      | .encode e' j _ _ => if e' = e then some j.id else a
      | _ => a) a = none → a = none ∧ ∀ j p q, .encode e j p q ∉ l := by
    intro l
    induction l with
    | nil => exact fun a h => ⟨h, by simp⟩
    | cons x l ih =>
      intro a h
      rw [List.foldl_cons] at h
      obtain ⟨h1, h2⟩ := ih _ h
      cases x with
      | encode e' j p q =>
        dsimp only at h1
        split at h1
        · cases h1
        · next hn =>
          refine ⟨h1, fun j' p' q' hm => ?_⟩
          rcases List.mem_cons.1 hm with hm | hm
          · cases hm; exact hn rfl
          · exact h2 _ _ _ hm
      | _ =>
        refine ⟨h1, fun j' p' q' hm => ?_⟩
        rcases List.mem_cons.1 hm with hm | hm
        · cases hm
        · exact h2 _ _ _ hm
  exact (key l none h).2

/-- the encoders of a connection and the frames in a log fit together -/
structure EncOk (s : St) : Prop where
  /-- encoders are numbered below `nEncs` -/
  jobs : ∀ e j p q, .encode e j p q ∈ s.log → j.id < s.cl.nEncs
  /-- encoders that are kept are found again -/
  keep : ∀ e j p q, .encode e j p q ∈ s.log → isKept e = true → s.cl.kept.lookup e = some j.id
  /-- an encoder has one encoding -/
  one : ∀ e j p q e' j' p' q', .encode e j p q ∈ s.log → .encode e' j' p' q' ∈ s.log → j.id = j'.id → e = e'
  /-- only ZRLE and Tight encoders are kept -/
  ofKept : ∀ e i, s.cl.kept.lookup e = some i → isKept e = true
  /-- so has one that is kept -/
  keptOne : ∀ e i, s.cl.kept.lookup e = some i → i < s.cl.nEncs ∧
    (∀ e' j p q, .encode e' j p q ∈ s.log → j.id = i → e' = e) ∧
    (∀ e', s.cl.kept.lookup e' = some i → e' = e)
  /-- so has the current one -/
  cur : ∀ e, s.cl.encoder = some e → s.cl.encId < s.cl.nEncs ∧
    (isKept e = true → s.cl.kept.lookup e = some s.cl.encId) ∧
    (∀ e' j p q, .encode e' j p q ∈ s.log → j.id = s.cl.encId → e' = e) ∧
    (∀ e', s.cl.kept.lookup e' = some s.cl.encId → e' = e) ∧
    ((∀ e' j p q, .encode e' j p q ∈ s.log → j.id ≠ s.cl.encId) ∨ lastJob e s.log = some s.cl.encId)
  /-- an encoder is either new or the last one with its encoding -/
  chain : ∀ a b e j p q, s.log = a ++ .encode e j p q :: b →
    (∀ e' j' p' q', .encode e' j' p' q' ∈ a → j'.id ≠ j.id) ∨ lastJob e a = some j.id

/-- splitting a longer log -/
theorem chain_append {l es a b : List Eff} {x : Eff} (h : l ++ es = a ++ x :: b) (hx : x ∉ es) :
    ∃ b', l = a ++ x :: b' := by
  rcases List.append_eq_append_iff.1 h with ⟨c, h1, h2⟩ | ⟨c, h1, h2⟩
  · rw [h2] at hx
    exact absurd (by simp) hx
  · cases c with
    | nil =>
      have h2 : x :: b = es := by simpa using h2
      rw [← h2] at hx
      exact absurd (by simp) hx
    | cons y c =>
      have h2 : x = y ∧ b = c ++ es := by simpa using h2
      exact ⟨c, by rw [h1, h2.1]⟩

theorem EncOk.mono {s s' : St} (h : EncOk s)
    (h1 : s'.cl.encoder = s.cl.encoder ∨ s'.cl.encoder = none)
    (h2 : s'.cl.encId = s.cl.encId) (h3 : s'.cl.kept = s.cl.kept) (h4 : s'.cl.nEncs = s.cl.nEncs)
    (hl : ∃ es, s'.log = s.log ++ es ∧ ∀ x ∈ es, x.calm) : EncOk s' := by
  obtain ⟨es, hes, hc⟩ := hl
  have hl : ∀ e j p q, .encode e j p q ∈ s'.log → .encode e j p q ∈ s.log := by
    intro e j p q hm
    rw [hes] at hm
    rcases List.mem_append.1 hm with hm | hm
    · exact hm
    · exact absurd rfl (hc _ hm e j p q)
  refine ⟨?_, ?_, ?_, by rw [h3]; exact h.ofKept, ?_, ?_, ?_⟩
  · intro e j p q hm; rw [h4]; exact h.jobs e j p q (hl _ _ _ _ hm)
  · intro e j p q hm hk; rw [h3]; exact h.keep e j p q (hl _ _ _ _ hm) hk
  · intro e j p q e' j' p' q' hm hm' hi
    exact h.one _ _ _ _ _ _ _ _ (hl _ _ _ _ hm) (hl _ _ _ _ hm') hi
  · intro e i hi
    rw [h3] at hi ⊢; rw [h4]
    obtain ⟨g1, g2, g3⟩ := h.keptOne e i hi
    exact ⟨g1, fun e' j p q hm => g2 e' j p q (hl _ _ _ _ hm), g3⟩
  · intro e he
    rcases h1 with h1 | h1
    · rw [h1] at he; rw [h2, h3, h4]
      obtain ⟨g1, g2, g3, g4, g5⟩ := h.cur e he
      refine ⟨g1, g2, fun e' j p q hm => g3 e' j p q (hl _ _ _ _ hm), g4, ?_⟩
      rw [hes, lastJob_calm hc, ← hes]
      rcases g5 with g5 | g5
      · exact .inl fun e' j p q hm => g5 _ _ _ _ (hl _ _ _ _ hm)
      · exact .inr g5
    · rw [h1] at he; cases he
  · intro a b e j p q hs
    rw [hes] at hs
    obtain ⟨b', hb⟩ := chain_append hs (fun hm => hc _ hm _ _ _ _ rfl)
    exact h.chain a b' e j p q hb

/-- choosing an encoder keeps the numbering -/
theorem ensureEncoder_ok {env : Env} {fb : Fb} {s : St} (h : EncOk s) :
    EncOk (ensureEncoder env fb s).1 ∧ (ensureEncoder env fb s).1.log = s.log := by
  unfold ensureEncoder
  dsimp only
  generalize chooseEncoding env fb s.cl.encodings = e
  split
  · exact ⟨h, rfl⟩
  cases hk : s.cl.kept.lookup e with
  | some i =>
    dsimp only
    refine ⟨⟨h.jobs, h.keep, h.one, h.ofKept, h.keptOne, ?_, h.chain⟩, rfl⟩
    intro e' he'
    cases he'
    obtain ⟨g1, g2, g3⟩ := h.keptOne e i hk
    refine ⟨g1, fun _ => hk, g2, g3, ?_⟩
    show _ ∨ lastJob e s.log = some i
    cases hj : lastJob e s.log with
    | none =>
      refine .inl fun e' j p q hm hi => ?_
      have := g2 e' j p q hm hi
      subst this
      exact lastJob_none hj _ _ _ hm
    | some i' =>
      obtain ⟨j, p, q, h1, h2⟩ := lastJob_some hj
      have h3 := h.keep e j p q h1 (h.ofKept _ _ hk)
      rw [hk, h2] at h3
      exact .inr h3.symm
  | none =>
    dsimp only
    split
    · exact ⟨h.mono (.inr rfl) rfl rfl rfl ⟨[], by simp, by simp⟩, rfl⟩
    · have hlook : ∀ e' i, (if isKept e then (e, s.cl.nEncs) :: s.cl.kept else s.cl.kept).lookup e' = some i →
          (e' = e ∧ i = s.cl.nEncs ∧ isKept e = true) ∨ s.cl.kept.lookup e' = some i := by
        intro e' i hi
        split at hi
        · next hke =>
          rw [List.lookup_cons] at hi
          split at hi
          · next he => cases hi; exact .inl ⟨by simpa using he, rfl, hke⟩
          · exact .inr hi
        · exact .inr hi
      have hlook' : ∀ e' i, s.cl.kept.lookup e' = some i →
          (if isKept e then (e, s.cl.nEncs) :: s.cl.kept else s.cl.kept).lookup e' = some i := by
        intro e' i hi
        split
        · rw [List.lookup_cons]
          split
          · next he =>
            have he : e' = e := by simpa using he
            subst he; rw [hk] at hi; cases hi
          · exact hi
        · exact hi
      refine ⟨⟨?_, ?_, h.one, ?_, ?_, ?_, h.chain⟩, rfl⟩
      · intro e' j p q hm; exact Nat.lt_succ_of_lt (h.jobs e' j p q hm)
      · intro e' j p q hm hk'; exact hlook' _ _ (h.keep e' j p q hm hk')
      · intro e' i hi
        rcases hlook e' i hi with ⟨rfl, -, hke⟩ | hi'
        · exact hke
        · exact h.ofKept _ _ hi'
      · intro e' i hi
        rcases hlook e' i hi with ⟨rfl, rfl, -⟩ | hi'
        · refine ⟨Nat.lt_succ_self _, ?_, ?_⟩
          · intro e' j p q hm hj
            have := h.jobs _ _ _ _ hm; omega
          · intro e'' h''
            rcases hlook _ _ h'' with ⟨rfl, -, -⟩ | h''
            · rfl
            · have := (h.keptOne _ _ h'').1; omega
        · obtain ⟨g1, g2, g3⟩ := h.keptOne e' i hi'
          refine ⟨Nat.lt_succ_of_lt g1, g2, ?_⟩
          intro e'' h''
          rcases hlook _ _ h'' with ⟨rfl, rfl, -⟩ | h''
          · omega
          · exact g3 _ h''
      · intro e' he'
        cases he'
        refine ⟨Nat.lt_succ_self _, ?_, ?_, ?_, .inl ?_⟩
        · intro hke
          show (if isKept e then (e, s.cl.nEncs) :: s.cl.kept else s.cl.kept).lookup e = _
          rw [if_pos hke, List.lookup_cons]; simp
        · intro e' j p q hm hj
          have := h.jobs _ _ _ _ hm
          have hj : j.id = s.cl.nEncs := hj
          omega
        · intro e'' h''
          rcases hlook _ _ h'' with ⟨rfl, -, -⟩ | h''
          · rfl
          · have := (h.keptOne _ _ h'').1
            exact absurd this (Nat.lt_irrefl _)
        · intro e' j p q hm hj
          have := h.jobs _ _ _ _ hm
          have hj : j.id = s.cl.nEncs := hj
          omega

theorem ensureEncoder_true {env : Env} {fb : Fb} {s t : St} (h : ensureEncoder env fb s = (t, true)) :
    ∃ e, t.cl.encoder = some e := by
  unfold ensureEncoder at h
  dsimp only at h
  split at h
  · next he => cases h; exact ⟨_, he⟩
  · split at h
    · cases h; exact ⟨_, rfl⟩
    · split at h
      · cases h
      · cases h; exact ⟨_, rfl⟩

theorem stageFrame_ok {env : Env} {fb : Fb} {s s' : St} (h : EncOk s) (e : stageFrame env fb s = .ok s') :
    EncOk s' := by
  unfold stageFrame at e
  rcases ite_cases e with ⟨-, e⟩ | ⟨-, e⟩
  · cases e; exact h
  rcases ite_cases e with ⟨-, e⟩ | ⟨-, e⟩
  · cases e; exact h
  have hk := ensureEncoder_ok (env := env) (fb := fb) h
  cases he : ensureEncoder env fb s with
  | mk t b =>
  rw [he] at e hk
  obtain ⟨hk, -⟩ := hk
  dsimp only at hk
  cases b with
  | false =>
    dsimp only at e
    split at e
    · cases e
    · cases e; exact hk
  | true =>
    obtain ⟨x, hx⟩ := ensureEncoder_true he
    dsimp only at e
    split at e
    · cases e
    · split at e
      · have hx' : ∀ d : Job, d.id = t.cl.encId → ∀ p q, EncOk { t with
            cl := { t.cl with encoder := some x }, log := t.log ++ [.encode x d p q] } := by
          intro d hd p q
          obtain ⟨c1, c2, c3, c4, c5⟩ := hk.cur x hx
          have hin : ∀ e j p' q', Eff.encode e j p' q' ∈ t.log ++ [.encode x d p q] →
              Eff.encode e j p' q' ∈ t.log ∨ (e = x ∧ j = d) := by
            intro e j p' q' hm
            rcases List.mem_append.1 hm with hm | hm
            · exact .inl hm
            · cases List.mem_singleton.1 hm; exact .inr ⟨rfl, rfl⟩
          refine ⟨?_, ?_, ?_, hk.ofKept, ?_, ?_, ?_⟩
          · intro e j p' q' hm
            rcases hin _ _ _ _ hm with hm | ⟨rfl, rfl⟩
            · exact hk.jobs _ _ _ _ hm
            · rw [hd]; exact c1
          · intro e j p' q' hm he
            rcases hin _ _ _ _ hm with hm | ⟨rfl, rfl⟩
            · exact hk.keep _ _ _ _ hm he
            · rw [hd]; exact c2 he
          · intro e j p' q' e2 j2 p2 q2 hm hm2 hi
            rcases hin _ _ _ _ hm with hm' | ⟨rfl, rfl⟩
            · rcases hin _ _ _ _ hm2 with hm2' | ⟨rfl, rfl⟩
              · exact hk.one _ _ _ _ _ _ _ _ hm' hm2' hi
              · exact c3 _ _ _ _ hm' (hi.trans hd)
            · rcases hin _ _ _ _ hm2 with hm2' | ⟨rfl, rfl⟩
              · exact (c3 _ _ _ _ hm2' (hi.symm.trans hd)).symm
              · rfl
          · intro e i hi
            obtain ⟨g1, g2, g3⟩ := hk.keptOne e i hi
            refine ⟨g1, ?_, g3⟩
            intro e' j p' q' hm hj
            rcases hin _ _ _ _ hm with hm | ⟨rfl, rfl⟩
            · exact g2 _ _ _ _ hm hj
            · rw [← hj, hd] at hi
              exact (c4 _ hi).symm
          · intro e he
            cases he
            refine ⟨c1, c2, ?_, c4, .inr (by rw [lastJob_encode, if_pos rfl, hd])⟩
            intro e' j p' q' hm hj
            rcases hin _ _ _ _ hm with hm | ⟨rfl, rfl⟩
            · exact c3 _ _ _ _ hm hj
            · rfl
          · intro a b e j p' q' hs
            have hs : t.log ++ [.encode x d p q] = a ++ .encode e j p' q' :: b := hs
            rcases List.append_eq_append_iff.1 hs with ⟨c, h1, h2⟩ | ⟨c, h1, h2⟩
            · cases c with
              | nil =>
                have h2 := h2
                simp only [List.nil_append, List.cons.injEq, Eff.encode.injEq] at h2
                obtain ⟨⟨rfl, rfl, -, -⟩, -⟩ := h2
                rw [h1, List.append_nil, hd]
                exact c5
              | cons y c => simp at h2
            · cases c with
              | nil =>
                simp only [List.nil_append, List.cons.injEq, Eff.encode.injEq] at h2
                obtain ⟨⟨rfl, rfl, -, -⟩, -⟩ := h2
                rw [List.append_nil] at h1
                rw [← h1, hd]
                exact c5
              | cons y c =>
                simp only [List.cons_append, List.cons.injEq] at h2
                rw [← h2.1] at h1
                exact hk.chain a c e j p' q' h1
        have hg : t.cl.encoder.getD encRaw = x := by rw [hx]; rfl
        cases e
        split
        · refine (hx' ⟨fb, t.cl.damage.clip { x := 0, y := 0, w := fb.w, h := fb.h }, t.cl.encId⟩ rfl
              t.cl.pix t.cl.quality).mono (.inl hx) rfl rfl rfl ⟨[], ?_, by simp⟩
          simp [emit, St.upd, hg]
        · refine (hx' ⟨fb, t.cl.damage.clip { x := 0, y := 0, w := fb.w, h := fb.h }, t.cl.encId⟩ rfl
              t.cl.pix t.cl.quality).mono (.inl hx) rfl rfl rfl ⟨[], ?_, by simp⟩
          simp [emit, St.upd, hg]
      · cases e
        exact hk.mono (.inl rfl) rfl rfl rfl ⟨[.encodeFail], by simp [emit, St.upd], by simp [Eff.calm]⟩

end Verif.Server
