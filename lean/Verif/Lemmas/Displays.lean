import Verif.Spec.Displays

/-!
# Every reference is accounted for, and no record outlives its list
-/

namespace Verif.Displays

/-! ## Counting displays -/

def cnt (f : Nat → Bool) : Nat → Nat
  | 0 => 0
  | n + 1 => cnt f n + (f n).toNat

theorem cnt_congr {f g : Nat → Bool} : ∀ n, (∀ d, d < n → f d = g d) → cnt f n = cnt g n
  | 0, _ => rfl
  | n + 1, h => by
    simp only [cnt]
    rw [cnt_congr n (fun d hd => h d (by omega)), h n (by omega)]

theorem cnt_upd {f g : Nat → Bool} (d : Nat) : ∀ n, d < n → (∀ e, e ≠ d → f e = g e) →
    cnt g n + (f d).toNat = cnt f n + (g d).toNat
  | 0, h, _ => absurd h (by omega)
  | n + 1, h, he => by
    simp only [cnt]
    by_cases hd : d = n
    · subst hd
      rw [cnt_congr d (f := g) (g := f) (fun e h => (he e (by omega)).symm)]
      omega
    · have := cnt_upd d n (by omega) he
      rw [he n (fun h => hd h.symm)]
      omega

theorem cnt_zero {f : Nat → Bool} : ∀ n, (∀ d, d < n → f d = false) → cnt f n = 0
  | 0, _ => rfl
  | n + 1, h => by
    simp only [cnt]
    rw [cnt_zero n (fun d hd => h d (by omega)), h n (by omega)]
    rfl

theorem cnt_pos {f : Nat → Bool} : ∀ n, 0 < cnt f n → ∃ d, d < n ∧ f d = true
  | 0, h => absurd h (by simp [cnt])
  | n + 1, h => by
    simp only [cnt] at h
    by_cases hn : f n = true
    · exact ⟨n, by omega, hn⟩
    · simp only [Bool.not_eq_true] at hn
      rw [hn] at h
      obtain ⟨d, hd, e⟩ := cnt_pos n (by simpa using h)
      exact ⟨d, by omega, e⟩

/-- the displays that show a framebuffer -/
def shows (s : St) (i d : Nat) : Bool := decide ((s.disp d).shown = some i)

def shownBy (s : St) (i : Nat) : Nat := cnt (shows s i) s.disps

def readers (s : St) (i : Nat) : Nat := s.jobs.countP fun j => decide (j.src = i)

/-! ## What holds of records -/

structure Core (s : St) : Prop where
  alive : ∀ i, (s.fb i).live = true ↔ 0 < (s.fb i).ref
  dalive : ∀ d, (s.disp d).live = true ↔ 0 < (s.disp d).ref
  chain : ∀ d k, k ∈ (s.disp d).chain ↔ s.held k = true ∧ s.home k = d
  nodup : ∀ d, (s.disp d).chain.Nodup
  snew : ∀ k, s.sides ≤ k → s.held k = false
  tied : ∀ i k, (s.fb i).live = true → (s.fb i).user = .side k →
    s.held k = true ∧ (s.disp (s.home k)).live = true
  inj : ∀ i j k, (s.fb i).live = true → (s.fb j).live = true → (s.fb i).user = .side k → (s.fb j).user = .side k →
    i = j

/-- what nvnc_fb_unref changes -/
structure Undo (i : Nat) (s t : St) : Prop where
  fb : ∀ j, j ≠ i → t.fb j = s.fb j
  ref : (t.fb i).ref = (s.fb i).ref - 1
  user : (t.fb i).user = (s.fb i).user
  live : ∀ d, (t.disp d).live = (s.disp d).live
  dref : ∀ d, (t.disp d).ref = (s.disp d).ref
  srv : ∀ d, (t.disp d).server = (s.disp d).server
  shown : ∀ d, (t.disp d).shown = (s.disp d).shown
  held : ∀ k, t.held k = true → s.held k = true
  lost : ∀ k, s.held k = true → t.held k = false → (s.fb i).user = .side k ∧ (t.fb i).live = false
  fbs : t.fbs = s.fbs
  disps : t.disps = s.disps
  home : t.home = s.home
  sides : t.sides = s.sides
  server : t.server = s.server
  current : t.current = s.current
  jobs : t.jobs = s.jobs

theorem Undo.liveOf {i : Nat} {s t : St} (c : Core s) (c' : Core t) (u : Undo i s t) :
    ∀ j, (t.fb j).live = true → (s.fb j).live = true := by
  intro j hj
  by_cases h : j = i
  · subst h
    rw [c'.alive, u.ref] at hj
    rw [c.alive]
    omega
  · rwa [u.fb j h] at hj

theorem unref_ok {i : Nat} {s : St} (c : Core s) (hl : (s.fb i).live = true) :
    ∃ t, unrefFb i s = .ok t ∧ Core t ∧ Undo i s t := by
  have hr := (c.alive i).mp hl
  unfold unrefFb
  rw [if_neg (by simp [hl])]
  by_cases h1 : (s.fb i).ref = 1
  · rw [if_pos h1]
    unfold freeFb
    cases hu : (s.fb i).user with
    | none =>
      refine ⟨_, rfl, ?_, ?_⟩
      · constructor
        · intro j
          by_cases hj : j = i
          · simp [St.say, St.setFb, hj]
          · simpa [St.say, St.setFb, hj] using c.alive j
        · exact c.dalive
        · exact c.chain
        · exact c.nodup
        · exact c.snew
        · intro j k hj
          by_cases h : j = i
          · simp [St.say, St.setFb, h] at hj
          · simp only [St.say, St.setFb, h, if_false] at hj ⊢
            exact c.tied j k hj
        · intro j j' k hj hj'
          by_cases h : j = i
          · simp [St.say, St.setFb, h] at hj
          · by_cases h' : j' = i
            · simp [St.say, St.setFb, h'] at hj'
            · simp only [St.say, St.setFb, h, h', if_false] at hj hj' ⊢
              exact c.inj j j' k hj hj'
      · constructor <;> first | rfl | skip
        · intro j hj; simp [St.say, St.setFb, hj]
        · simp [St.say, St.setFb, h1]
        · simp [St.say, St.setFb]
        all_goals first | (intro d; rfl) | skip
        · intro k h; exact h
        · intro k h h'
          simp only [St.say, St.setFb] at h'
          simp [h] at h'
    | app n =>
      refine ⟨_, rfl, ?_, ?_⟩
      · constructor
        · intro j
          by_cases hj : j = i
          · simp [St.say, St.setFb, hj]
          · simpa [St.say, St.setFb, hj] using c.alive j
        · exact c.dalive
        · exact c.chain
        · exact c.nodup
        · exact c.snew
        · intro j k hj
          by_cases h : j = i
          · simp [St.say, St.setFb, h] at hj
          · simp only [St.say, St.setFb, h, if_false] at hj ⊢
            exact c.tied j k hj
        · intro j j' k hj hj'
          by_cases h : j = i
          · simp [St.say, St.setFb, h] at hj
          · by_cases h' : j' = i
            · simp [St.say, St.setFb, h'] at hj'
            · simp only [St.say, St.setFb, h, h', if_false] at hj hj' ⊢
              exact c.inj j j' k hj hj'
      · constructor <;> first | rfl | skip
        · intro j hj; simp [St.say, St.setFb, hj]
        · simp [St.say, St.setFb, h1]
        · simp [St.say, St.setFb]
        all_goals first | (intro d; rfl) | skip
        · intro k h; exact h
        · intro k h h'
          simp only [St.say, St.setFb] at h'
          simp [h] at h'
    | side k0 =>
      obtain ⟨hh, hd⟩ := c.tied i k0 hl hu
      have e : dropSide k0 s = .ok { s.setDisp (s.home k0) { s.disp (s.home k0) with
          chain := (s.disp (s.home k0)).chain.erase k0 } with held := fun j => if j = k0 then false else s.held j } := by
        unfold dropSide
        simp only []
        rw [if_neg (by simp [hh]), if_neg (by simp [hd])]
      simp only [e, Outcome.bind_ok]
      have hm : ∀ d k, k ∈ ((if d = s.home k0 then { s.disp (s.home k0) with
          chain := (s.disp (s.home k0)).chain.erase k0 } else s.disp d : Disp)).chain ↔
          (if k = k0 then false else s.held k) = true ∧ s.home k = d := by
        intro d k
        by_cases hdd : d = s.home k0
        · subst hdd
          rw [if_pos rfl, (c.nodup _).mem_erase_iff, c.chain]
          by_cases hk : k = k0 <;> simp [hk]
        · rw [if_neg hdd, c.chain]
          by_cases hk : k = k0
          · subst hk; simp [Ne.symm hdd]
          · simp [hk]
      refine ⟨_, rfl, ?_, ?_⟩
      · constructor
        · intro j
          by_cases hj : j = i
          · simp [St.say, St.setFb, hj]
          · simpa [St.say, St.setFb, St.setDisp, hj] using c.alive j
        · intro d
          by_cases hdd : d = s.home k0
          · subst hdd; simpa [St.say, St.setFb, St.setDisp] using c.dalive _
          · simpa [St.say, St.setFb, St.setDisp, hdd] using c.dalive d
        · intro d k
          simpa only [St.say, St.setFb, St.setDisp] using hm d k
        · intro d
          by_cases hdd : d = s.home k0
          · subst hdd
            simpa [St.say, St.setFb, St.setDisp] using (c.nodup _).erase k0
          · simpa [St.say, St.setFb, St.setDisp, hdd] using c.nodup d
        · intro k hk
          simp only [St.say, St.setFb, St.setDisp] at hk ⊢
          rw [c.snew k hk, ite_self]
        · intro j k hj hjk
          by_cases h : j = i
          · simp [St.say, St.setFb, h] at hj
          · simp only [St.say, St.setFb, St.setDisp, h, if_false] at hj hjk ⊢
            have hne : k ≠ k0 := by
              intro e
              subst e
              exact h (c.inj j i k hj hl hjk hu)
            obtain ⟨a, b⟩ := c.tied j k hj hjk
            refine ⟨by simp [hne, a], ?_⟩
            split
            · exact hd
            · exact b
        · intro j j' k hj hj'
          by_cases h : j = i
          · simp [St.say, St.setFb, h] at hj
          · by_cases h' : j' = i
            · simp [St.say, St.setFb, h'] at hj'
            · simp only [St.say, St.setFb, St.setDisp, h, h', if_false] at hj hj' ⊢
              exact c.inj j j' k hj hj'
      · constructor <;> first | rfl | skip
        · intro j hj; simp [St.say, St.setFb, St.setDisp, hj]
        · simp [St.say, St.setFb, h1]
        · simp [St.say, St.setFb, St.setDisp]
        all_goals first
          | (intro d
             by_cases hdd : d = s.home k0
             · subst hdd; simp [St.say, St.setFb, St.setDisp]; done
             · simp [St.say, St.setFb, St.setDisp, hdd]; done)
          | skip
        · intro k h h'
          simp only [St.say, St.setFb, St.setDisp] at h'
          by_cases hk : k = k0
          · subst hk
            exact ⟨hu, by simp [St.say, St.setFb]⟩
          · simp [hk, h] at h'
  · rw [if_neg h1]
    refine ⟨_, rfl, ?_, ?_⟩
    · constructor
      · intro j
        by_cases hj : j = i
        · subst hj
          simp only [St.setFb, if_true, hl, true_iff]
          omega
        · simpa [St.setFb, hj] using c.alive j
      · exact c.dalive
      · exact c.chain
      · exact c.nodup
      · exact c.snew
      · intro j k hj
        by_cases h : j = i
        · subst h
          simp only [St.setFb, if_true]
          exact c.tied j k hl
        · simp only [St.setFb, h, if_false] at hj ⊢
          exact c.tied j k hj
      · intro j j' k hj hj' hk hk'
        refine c.inj j j' k ?_ ?_ ?_ ?_
        · by_cases h : j = i
          · rw [h]; exact hl
          · simpa [St.setFb, h] using hj
        · by_cases h : j' = i
          · rw [h]; exact hl
          · simpa [St.setFb, h] using hj'
        · by_cases h : j = i
          · simpa [St.setFb, h] using hk
          · simpa [St.setFb, h] using hk
        · by_cases h : j' = i
          · simpa [St.setFb, h] using hk'
          · simpa [St.setFb, h] using hk'
    · constructor <;> first | rfl | skip
      · intro j hj; simp [St.setFb, hj]
      · simp [St.setFb]
      · simp [St.setFb]
      all_goals first | (intro d; rfl) | skip
      · intro k h; exact h
      · intro k h h'
        simp only [St.setFb] at h'
        simp [h] at h'

theorem Core.ref {i : Nat} {s : St} (c : Core s) (hl : (s.fb i).live = true) :
    Core (s.setFb i { s.fb i with ref := (s.fb i).ref + 1 }) := by
  constructor
  · intro j
    by_cases hj : j = i
    · subst hj; simp [St.setFb, hl]
    · simpa [St.setFb, hj] using c.alive j
  · exact c.dalive
  · exact c.chain
  · exact c.nodup
  · exact c.snew
  · intro j k hj
    by_cases h : j = i
    · subst h
      simp only [St.setFb, if_true]
      exact c.tied j k hl
    · simp only [St.setFb, h, if_false] at hj ⊢
      exact c.tied j k hj
  · intro j j' k hj hj' hk hk'
    refine c.inj j j' k ?_ ?_ ?_ ?_
    · by_cases h : j = i
      · rw [h]; exact hl
      · simpa [St.setFb, h] using hj
    · by_cases h : j' = i
      · rw [h]; exact hl
      · simpa [St.setFb, h] using hj'
    · by_cases h : j = i
      · simpa [St.setFb, h] using hk
      · simpa [St.setFb, h] using hk
    · by_cases h : j' = i
      · simpa [St.setFb, h] using hk'
      · simpa [St.setFb, h] using hk'

/-- a display's fields change, but not its life or its list -/
theorem Core.disp {d : Nat} {s : St} (c : Core s) (p : Disp) (hl : p.live = (s.disp d).live)
    (hr : 0 < p.ref ↔ 0 < (s.disp d).ref) (hc : p.chain = (s.disp d).chain) : Core (s.setDisp d p) := by
  constructor
  · exact c.alive
  · intro e
    by_cases h : e = d
    · subst h
      simp only [St.setDisp, if_true, hl, hr]
      exact c.dalive e
    · simpa [St.setDisp, h] using c.dalive e
  · intro e k
    by_cases h : e = d
    · subst h
      simp only [St.setDisp, if_true, hc]
      exact c.chain e k
    · simpa [St.setDisp, h] using c.chain e k
  · intro e
    by_cases h : e = d
    · subst h
      simp only [St.setDisp, if_true, hc]
      exact c.nodup e
    · simpa [St.setDisp, h] using c.nodup e
  · exact c.snew
  · intro j k hj hk
    obtain ⟨a, b⟩ := c.tied j k hj hk
    refine ⟨a, ?_⟩
    simp only [St.setDisp]
    split
    · next h => rw [hl, ← h]; exact b
    · exact b
  · exact c.inj

/-! ## The books agree -/

/-- `debt` is what has been given back already without being in the books -/
structure Inv (debt : Nat → Int) (x : Sess) : Prop where
  core : Core x.st
  refs : ∀ i, ((x.st.fb i).ref : Int) + debt i = x.own i + x.lent i + readers x.st i + shownBy x.st i
  drefs : ∀ d, (x.st.disp d).ref = x.downs d + (if x.st.current = some d then 1 else 0)
  fnew : ∀ i, x.st.fbs ≤ i → (x.st.fb i).ref = 0
  dnew : ∀ d, x.st.disps ≤ d → (x.st.disp d).ref = 0
  homes : ∀ k, x.st.held k = true → x.st.home k < x.st.disps
  shown : ∀ d i, (x.st.disp d).shown = some i → (x.st.disp d).live = true
  cur : ∀ d, x.st.current = some d → x.st.server = true
  owner : ∀ i k, (x.st.fb i).live = true → (x.st.fb i).user = .side k → (x.st.home k, i) ∈ x.turned
  fine : ∀ d i, (d, i) ∈ x.turned → (x.st.fb i).live = true → (x.st.disp d).live = true
  jobs : ∀ j ∈ x.st.jobs, (x.st.disp j.disp).live = true ∧ (x.st.disp j.disp).server = true ∧ x.st.server = true
  user : ∀ i n, (x.st.fb i).live = true → x.set i = some n → (x.st.fb i).user = .app n
  unset : ∀ i, (x.st.fb i).live = true → x.set i = Option.none →
    (x.st.fb i).user = .none ∨ ∃ k, (x.st.fb i).user = .side k
  snone : ∀ i, x.st.fbs ≤ i → x.set i = Option.none
  tnew : ∀ d i, (d, i) ∈ x.turned → i < x.st.fbs

theorem inv_start : Inv (fun _ => 0) {} := by
  refine ⟨⟨?_, ?_, ?_, ?_, ?_, ?_, ?_⟩, ?_, ?_, ?_, ?_, ?_, ?_, ?_, ?_, ?_, ?_, ?_, ?_, ?_, ?_⟩ <;>
    intros <;> simp_all [readers, shownBy, cnt]

def owe (debt : Nat → Int) (i : Nat) (v : Int) : Nat → Int := fun j => if j = i then debt j + v else debt j

theorem Inv.unref {debt : Nat → Int} {x : Sess} (c : Inv debt x) {i : Nat} (hl : (x.st.fb i).live = true) :
    ∃ t, unrefFb i x.st = .ok t ∧ Undo i x.st t ∧ Inv (owe debt i 1) { x with st := t } := by
  obtain ⟨t, e, ct, u⟩ := unref_ok c.core hl
  have lv := u.liveOf c.core ct
  have us : ∀ j, (t.fb j).user = (x.st.fb j).user := by
    intro j
    by_cases h : j = i
    · rw [h]; exact u.user
    · rw [u.fb j h]
  have hr := (c.core.alive i).mp hl
  refine ⟨t, e, u, ct, ?_, ?_, ?_, ?_, ?_, ?_, ?_, ?_, ?_, ?_, ?_, ?_, ?_, ?_⟩
  · intro j
    have h := c.refs j
    have hs : shownBy t j = shownBy x.st j := by
      unfold shownBy
      rw [u.disps]
      exact cnt_congr _ fun d _ => by simp [shows, u.shown]
    have hj : readers t j = readers x.st j := by simp [readers, u.jobs]
    simp only [hs, hj, owe]
    by_cases hji : j = i
    · subst hji
      rw [u.ref, if_pos rfl]
      omega
    · rw [u.fb j hji, if_neg hji]
      exact h
  · intro d; simp only [u.dref, u.current]; exact c.drefs d
  · intro j hj
    simp only [u.fbs] at hj
    have := c.fnew j hj
    by_cases h : j = i
    · subst h; simp only [u.ref]; omega
    · simp only [u.fb j h]; exact this
  · intro d hd; simp only [u.disps, u.dref] at hd ⊢; exact c.dnew d hd
  · intro k hk; simp only [u.home, u.disps]; exact c.homes k (u.held k hk)
  · intro d j h; simp only [u.shown, u.live] at h ⊢; exact c.shown d j h
  · intro d h; simp only [u.current, u.server] at h ⊢; exact c.cur d h
  · intro j k hj hk; simp only [us, u.home] at hk ⊢; exact c.owner j k (lv j hj) hk
  · intro d j h hj; simp only [u.live]; exact c.fine d j h (lv j hj)
  · intro j hj; simp only [u.jobs, u.live, u.srv, u.server] at hj ⊢; exact c.jobs j hj
  · intro j n hj h; simp only [us]; exact c.user j n (lv j hj) h
  · intro j hj h; simp only [us]; exact c.unset j (lv j hj) h
  · intro j hj; simp only [u.fbs] at hj; exact c.snone j hj
  · intro d j h; simp only [u.fbs]; exact c.tnew d j h

theorem Inv.ref {debt : Nat → Int} {x : Sess} (c : Inv debt x) {i : Nat} (hl : (x.st.fb i).live = true) :
    ∃ t, refFb i x.st = .ok t ∧ t = x.st.setFb i { x.st.fb i with ref := (x.st.fb i).ref + 1 } ∧
      Inv (owe debt i (-1)) { x with st := t } := by
  refine ⟨_, if_pos hl, rfl, c.core.ref hl, ?_, ?_, ?_, ?_, ?_, ?_, ?_, ?_, ?_, ?_, ?_, ?_, ?_, ?_⟩
  · intro j
    have h := c.refs j
    change (((if j = i then { x.st.fb i with ref := (x.st.fb i).ref + 1 } else x.st.fb j : Fb).ref : Nat) : Int) +
      owe debt i (-1) j = x.own j + x.lent j + readers x.st j + shownBy x.st j
    simp only [owe]
    by_cases hji : j = i
    · subst hji
      simp only [if_true]
      omega
    · simp only [hji, if_false]
      exact h
  · exact c.drefs
  · intro j hj
    have := c.fnew j hj
    by_cases h : j = i
    · subst h
      have := (c.core.alive j).mp hl
      omega
    · simpa [St.setFb, h] using this
  · exact c.dnew
  · exact c.homes
  · exact c.shown
  · exact c.cur
  · intro j k hj hk
    by_cases h : j = i
    · subst h; simp only [St.setFb, if_true] at hk; exact c.owner j k hl hk
    · simp only [St.setFb, h, if_false] at hj hk; exact c.owner j k hj hk
  · intro d j h hj
    by_cases h' : j = i
    · subst h'; exact c.fine d j h hl
    · simp only [St.setFb, h', if_false] at hj; exact c.fine d j h hj
  · exact c.jobs
  · intro j n hj hs
    by_cases h : j = i
    · subst h; simp only [St.setFb, if_true]; exact c.user j n hl hs
    · simp only [St.setFb, h, if_false] at hj ⊢; exact c.user j n hj hs
  · intro j hj hs
    by_cases h : j = i
    · subst h; simp only [St.setFb, if_true]; exact c.unset j hl hs
    · simp only [St.setFb, h, if_false] at hj ⊢; exact c.unset j hj hs
  · exact c.snone
  · exact c.tnew

theorem shownBy_set {s : St} {d : Nat} (p : Disp) (hd : d < s.disps) (j : Nat) :
    shownBy (s.setDisp d p) j + (decide ((s.disp d).shown = some j)).toNat =
      shownBy s j + (decide (p.shown = some j)).toNat := by
  have := cnt_upd (f := shows s j) (g := shows (s.setDisp d p) j) d s.disps hd (by
    intro e he
    simp [shows, St.setDisp, he])
  simpa [shows, St.setDisp, shownBy] using this

/-- what a display shows changes -/
theorem Inv.show {debt : Nat → Int} {x : Sess} (c : Inv debt x) {d : Nat} (hl : (x.st.disp d).live = true)
    (i : Option Nat) :
    Inv (fun j => debt j - (decide ((x.st.disp d).shown = some j)).toNat + (decide (i = some j)).toNat)
      { x with st := x.st.setDisp d { x.st.disp d with shown := i } } := by
  have hd : d < x.st.disps := by
    by_cases h : x.st.disps ≤ d
    · have := c.dnew d h
      have := (c.core.dalive d).mp hl
      omega
    · omega
  refine ⟨c.core.disp _ rfl Iff.rfl rfl, ?_, ?_, ?_, ?_, ?_, ?_, ?_, ?_, ?_, ?_, ?_, ?_, ?_, ?_⟩
  · intro j
    have h := c.refs j
    have e := shownBy_set { x.st.disp d with shown := i } hd j
    change ((x.st.fb j).ref : Int) + _ = x.own j + x.lent j + (readers x.st j : Int) +
      (shownBy (x.st.setDisp d { x.st.disp d with shown := i }) j : Int)
    dsimp only at e ⊢
    omega
  · intro e
    by_cases h : e = d
    · subst h; simpa [St.setDisp] using c.drefs e
    · simpa [St.setDisp, h] using c.drefs e
  · exact c.fnew
  · intro e he
    by_cases h : e = d
    · subst h; simpa [St.setDisp] using c.dnew e he
    · simpa [St.setDisp, h] using c.dnew e he
  · exact c.homes
  · intro e j he
    by_cases h : e = d
    · subst h; simpa [St.setDisp] using hl
    · simp only [St.setDisp, h, if_false] at he ⊢; exact c.shown e j he
  · exact c.cur
  · exact c.owner
  · intro e j h hj
    by_cases h' : e = d
    · subst h'; simpa [St.setDisp] using hl
    · simp only [St.setDisp, h', if_false]; exact c.fine e j h hj
  · intro j hj
    obtain ⟨a, b, e⟩ := c.jobs j hj
    by_cases h : j.disp = d
    · simp only [St.setDisp, h, if_true]
      rw [h] at b
      exact ⟨hl, b, e⟩
    · simp only [St.setDisp, h, if_false]; exact ⟨a, b, e⟩
  · exact c.user
  · exact c.unset
  · exact c.snone
  · exact c.tnew

/-- a debt is paid out of the application's books, or by a display that is not to show a framebuffer -/
theorem Inv.congr {debt debt' : Nat → Int} {x : Sess} (c : Inv debt x) (h : ∀ j, debt j = debt' j) :
    Inv debt' x := by
  have : debt = debt' := funext h
  rw [← this]
  exact c

/-- fields of displays that do not change when what they show is given back -/
structure Still (s t : St) : Prop where
  live : ∀ d, (t.disp d).live = (s.disp d).live
  dref : ∀ d, (t.disp d).ref = (s.disp d).ref
  srv : ∀ d, (t.disp d).server = (s.disp d).server
  fbs : t.fbs = s.fbs
  disps : t.disps = s.disps
  server : t.server = s.server
  current : t.current = s.current
  jobs : t.jobs = s.jobs

theorem Undo.still {i : Nat} {s t : St} (u : Undo i s t) : Still s t :=
  ⟨u.live, u.dref, u.srv, u.fbs, u.disps, u.server, u.current, u.jobs⟩

theorem Still.trans {s t r : St} (a : Still s t) (b : Still t r) : Still s r :=
  ⟨fun d => (b.live d).trans (a.live d), fun d => (b.dref d).trans (a.dref d), fun d => (b.srv d).trans (a.srv d),
    b.fbs.trans a.fbs, b.disps.trans a.disps, b.server.trans a.server, b.current.trans a.current,
    b.jobs.trans a.jobs⟩

theorem still_show {s : St} {d : Nat} (i : Option Nat) : Still s (s.setDisp d { s.disp d with shown := i }) := by
  constructor <;> first | rfl | skip
  all_goals
    intro e
    by_cases h : e = d
    · subst h; simp [St.setDisp]
    · simp [St.setDisp, h]

theorem Inv.drop {x : Sess} (c : Inv (fun _ => 0) x) {d : Nat} (hl : (x.st.disp d).live = true) :
    ∃ t, dropShown d x.st = .ok t ∧ Inv (fun _ => 0) { x with st := t } ∧ Still x.st t ∧
      (t.disp d).shown = Option.none ∧
      (∀ j, (t.fb j).ref = (x.st.fb j).ref - (decide ((x.st.disp d).shown = some j)).toNat) := by
  unfold dropShown
  cases hs : (x.st.disp d).shown with
  | none => exact ⟨x.st, rfl, c, ⟨fun _ => rfl, fun _ => rfl, fun _ => rfl, rfl, rfl, rfl, rfl, rfl⟩, hs, by simp⟩
  | some i =>
    have hd : d < x.st.disps := by
      by_cases h : x.st.disps ≤ d
      · have := c.dnew d h
        have := (c.core.dalive d).mp hl
        omega
      · omega
    have hfl : (x.st.fb i).live = true := by
      rw [c.core.alive]
      have h := c.refs i
      have e := shownBy_set { x.st.disp d with shown := Option.none } hd i
      simp only [hs] at e
      simp at e
      omega
    obtain ⟨t, e, u, ct⟩ := c.unref hfl
    have c2 := ct.show (d := d) (by rw [u.live]; exact hl) Option.none
    refine ⟨_, by simp [e], c2.congr ?_, u.still.trans (still_show _), by simp [St.setDisp], ?_⟩
    · intro j
      simp only [u.shown, hs, owe]
      by_cases h : j = i
      · subst h; simp
      · simp [h, Ne.symm h]
    · intro j
      by_cases h : j = i
      · subst h; simp [St.setDisp, u.ref]
      · simp [St.setDisp, u.fb j h, Ne.symm h]

theorem Inv.done {x : Sess} (c : Inv (fun _ => 0) x) {d : Nat} (hl : (x.st.disp d).live = true)
    (hs : (x.st.disp d).server = true) (hv : x.st.server = true) (i : Option Nat)
    (hi : ∀ j, i = some j → 0 < x.own j) :
    ∃ t, onDone d i x.st = .ok t ∧ Inv (fun _ => 0) { x with st := t } ∧ Still x.st t := by
  obtain ⟨t, e, ct, st, hn, _⟩ := c.drop hl
  have hlt : (t.disp d).live = true := by rw [st.live]; exact hl
  have c2 := ct.show (d := d) hlt i
  unfold onDone
  rw [if_neg (by simp [hl]), e]
  simp only [Outcome.bind_ok]
  cases i with
  | none =>
    refine ⟨t.setDisp d { t.disp d with shown := Option.none }, ?_, c2.congr ?_, st.trans (still_show _)⟩
    · have h1 : ((t.setDisp d { t.disp d with shown := Option.none }).disp d).server = true := by
        rw [(still_show Option.none).srv, st.srv]; exact hs
      have h2 : (t.setDisp d { t.disp d with shown := Option.none }).server = true := by
        rw [(still_show (s := t) (d := d) Option.none).server, st.server]; exact hv
      simp [h1, h2]
    · intro j
      simp [hn]
  | some i =>
    have hfl : ((t.setDisp d { t.disp d with shown := some i }).fb i).live = true := by
      have h := c2.refs i
      have hp := hi i rfl
      rw [c2.core.alive]
      simp only [hn] at h
      simp at h
      have hd : d < t.disps := by
        by_cases h : t.disps ≤ d
        · have := ct.dnew d h
          have := (ct.core.dalive d).mp hlt
          omega
        · omega
      have h0 := shownBy_set { t.disp d with shown := some i } hd i
      simp [hn] at h0
      dsimp only at h h0 ⊢
      omega
    obtain ⟨r, er, hr, cr⟩ := c2.ref hfl
    refine ⟨r, ?_, cr.congr ?_, (st.trans (still_show (d := d) (some i))).trans ?_⟩
    · have h1 : (r.disp d).server = true := by
        rw [hr]
        show ((t.setDisp d { t.disp d with shown := some i }).disp d).server = true
        rw [(still_show (some i)).srv, st.srv]; exact hs
      have h2 : r.server = true := by
        rw [hr]
        show (t.setDisp d { t.disp d with shown := some i }).server = true
        rw [(still_show (s := t) (d := d) (some i)).server, st.server]; exact hv
      simp [er, h1, h2]
    · intro j
      simp only [hn, owe]
      by_cases h : j = i
      · subst h; simp
      · simp [h, Ne.symm h]
    · rw [hr]
      exact ⟨fun _ => rfl, fun _ => rfl, fun _ => rfl, rfl, rfl, rfl, rfl, rfl⟩

/-- the application's and the encoders' references change as the debt does -/
theorem Inv.books {debt debt' : Nat → Int} {x : Sess} (c : Inv debt x) (own' lent' : Nat → Nat)
    (h : ∀ j, (own' j : Int) + lent' j - debt' j = x.own j + x.lent j - debt j) :
    Inv debt' { x with own := own', lent := lent' } := by
  refine ⟨c.core, ?_, c.drefs, c.fnew, c.dnew, c.homes, c.shown, c.cur, c.owner, c.fine, c.jobs, c.user, c.unset,
    c.snone, c.tnew⟩
  intro j
  have h1 := c.refs j
  have h2 := h j
  dsimp only at h1 h2 ⊢
  omega

theorem Inv.live_of_own {x : Sess} (c : Inv (fun _ => 0) x) {i : Nat} (h : 0 < x.own i) :
    (x.st.fb i).live = true := by
  rw [c.core.alive]
  have := c.refs i
  omega

theorem Inv.live_of_lent {x : Sess} (c : Inv (fun _ => 0) x) {i : Nat} (h : 0 < x.lent i) :
    (x.st.fb i).live = true := by
  rw [c.core.alive]
  have := c.refs i
  omega

theorem Inv.live_of_downs {x : Sess} (c : Inv (fun _ => 0) x) {d : Nat} (h : 0 < x.downs d) :
    (x.st.disp d).live = true := by
  rw [c.core.dalive]
  have := c.drefs d
  omega

theorem Inv.live_of_current {x : Sess} (c : Inv (fun _ => 0) x) {d : Nat} (h : x.st.current = some d) :
    (x.st.disp d).live = true := by
  rw [c.core.dalive]
  have := c.drefs d
  rw [if_pos h] at this
  omega

theorem Inv.lt_of_live {debt : Nat → Int} {x : Sess} (c : Inv debt x) {d : Nat} (h : (x.st.disp d).live = true) :
    d < x.st.disps := by
  by_cases hd : x.st.disps ≤ d
  · have := c.dnew d hd
    have := (c.core.dalive d).mp h
    omega
  · omega

/-- nvnc_display_unref on behalf of the application or of the server -/
theorem Inv.undisp {x : Sess} (c : Inv (fun _ => 0) x) {d : Nat} (hl : (x.st.disp d).live = true) :
    ∃ t, unrefDisp d x.st = .ok t ∧ t.jobs = x.st.jobs ∧ t.server = x.st.server ∧ t.current = x.st.current ∧
      ∀ (downs' : Nat → Nat) (cur' : Option Nat) (srv' : Bool),
        (∀ e, downs' e + (if cur' = some e then 1 else 0) + (if e = d then 1 else 0) =
          x.downs e + (if x.st.current = some e then 1 else 0)) →
        (∀ e, cur' = some e → srv' = true) → (srv' = false → x.st.server = true → t.jobs = []) →
        (srv' = true → x.st.server = true) →
        ((t.disp d).live = false → ∀ j ∈ t.jobs, j.disp ≠ d) →
        ((t.disp d).live = false → ∀ i, (d, i) ∈ x.turned → (t.fb i).live = false) →
        Inv (fun _ => 0) { x with st := { t with current := cur', server := srv' }, downs := downs' } := by
  have hd := c.lt_of_live hl
  unfold unrefDisp
  rw [if_neg (by simp [hl])]
  by_cases h1 : (x.st.disp d).ref = 1
  · rw [if_pos h1]
    obtain ⟨t, e, ct, st, hn, _⟩ := c.drop hl
    refine ⟨(t.setDisp d { t.disp d with live := false, ref := 0 }).say (.gone d), by simp [freeDisp, e], st.jobs,
      st.server, st.current, ?_⟩
    intro downs' cur' srv' hdr hcur hsv hsv' hj hf
    simp only [St.say, St.setDisp, if_true, forall_const] at hj hf hsv
    have hdl : ∀ e, e ≠ d → ((if e = d then { t.disp d with live := false, ref := 0 } else t.disp e : Disp)).live =
        (t.disp e).live := by
      intro e he; rw [if_neg he]
    refine ⟨⟨ct.core.alive, ?_, ?_, ?_, ct.core.snew, ?_, ct.core.inj⟩, ?_, ?_, ct.fnew, ?_, ct.homes, ?_, hcur, ?_, ?_,
      ?_, ct.user, ct.unset, ct.snone, ct.tnew⟩
    · intro e
      by_cases h : e = d
      · simp [St.say, St.setDisp, h]
      · simpa [St.say, St.setDisp, h] using ct.core.dalive e
    · intro e k
      by_cases h : e = d
      · subst h; simpa [St.say, St.setDisp] using ct.core.chain _ k
      · simpa [St.say, St.setDisp, h] using ct.core.chain e k
    · intro e
      by_cases h : e = d
      · subst h; simpa [St.say, St.setDisp] using ct.core.nodup _
      · simpa [St.say, St.setDisp, h] using ct.core.nodup e
    · intro i k hi hk
      obtain ⟨a, b⟩ := ct.core.tied i k hi hk
      refine ⟨a, ?_⟩
      have ho := ct.owner i k hi hk
      have hne : t.home k ≠ d := by
        intro h
        have h2 := hf i (by rw [← h]; exact ho)
        rw [show (t.fb i).live = true from hi] at h2
        exact absurd h2 (by simp)
      simp only [St.say, St.setDisp, hne, if_false]
      exact b
    · intro j
      have h := ct.refs j
      have hs : shownBy (t.setDisp d { t.disp d with live := false, ref := 0 }) j = shownBy t j := by
        have := shownBy_set (s := t) { t.disp d with live := false, ref := 0 } (by rw [st.disps]; exact hd) j
        dsimp only at this
        dsimp only
        omega
      change ((t.fb j).ref : Int) + 0 = x.own j + x.lent j + (readers t j : Int) +
        (shownBy (t.setDisp d { t.disp d with live := false, ref := 0 }) j : Int)
      rw [hs]
      exact h
    · intro e
      have h := hdr e
      have h' := c.drefs e
      by_cases he : e = d
      · subst he
        simp only [St.say, St.setDisp, if_true] at h ⊢
        omega
      · simp only [St.say, St.setDisp, he, if_false] at h ⊢
        rw [st.dref]
        omega
    · intro e he
      have he' : e ≠ d := by
        intro h
        simp only [St.say, St.setDisp, st.disps] at he
        omega
      simp only [St.say, St.setDisp, he', if_false]
      exact ct.dnew e he
    · intro e i he
      by_cases h : e = d
      · subst h
        simp [St.say, St.setDisp, hn] at he
      · simp only [St.say, St.setDisp, h, if_false] at he ⊢
        exact ct.shown e i he
    · exact ct.owner
    · intro e i h hi
      by_cases he : e = d
      · subst he
        have h2 := hf i h
        rw [show (t.fb i).live = true from hi] at h2
        exact absurd h2 (by simp)
      · simp only [St.say, St.setDisp, he, if_false]
        exact ct.fine e i h hi
    · intro j hjm
      have hjm' : j ∈ t.jobs := hjm
      obtain ⟨a, b, e⟩ := ct.jobs j hjm'
      have hne := hj j hjm'
      simp only [St.say, St.setDisp, hne, if_false]
      refine ⟨a, b, ?_⟩
      cases hv : srv' with
      | true => rfl
      | false =>
        have := hsv hv (by rw [← st.server]; exact e)
        rw [this] at hjm'
        exact absurd hjm' (by simp)
  · rw [if_neg h1]
    have hr := (c.core.dalive d).mp hl
    refine ⟨_, rfl, rfl, rfl, rfl, ?_⟩
    intro downs' cur' srv' hdr hcur hsv hsv' hj hf
    have cc := c.core.disp (d := d) { x.st.disp d with ref := (x.st.disp d).ref - 1 } rfl
      (by dsimp only; omega) rfl
    refine ⟨⟨cc.alive, cc.dalive, cc.chain, cc.nodup, cc.snew, cc.tied, cc.inj⟩, ?_, ?_, c.fnew, ?_, c.homes, ?_, hcur,
      c.owner, ?_, ?_, c.user, c.unset, c.snone, c.tnew⟩
    · intro j
      have h := c.refs j
      have hs : shownBy (x.st.setDisp d { x.st.disp d with ref := (x.st.disp d).ref - 1 }) j = shownBy x.st j := by
        have := shownBy_set (s := x.st) { x.st.disp d with ref := (x.st.disp d).ref - 1 } hd j
        dsimp only at this
        dsimp only
        omega
      change ((x.st.fb j).ref : Int) + 0 = x.own j + x.lent j + (readers x.st j : Int) +
        (shownBy (x.st.setDisp d { x.st.disp d with ref := (x.st.disp d).ref - 1 }) j : Int)
      rw [hs]
      exact h
    · intro e
      have h := hdr e
      have h' := c.drefs e
      by_cases he : e = d
      · subst he
        simp only [St.setDisp, if_true] at h ⊢
        omega
      · simp only [St.setDisp, he, if_false] at h ⊢
        omega
    · intro e he
      have he' : e ≠ d := by
        intro h
        simp only [St.setDisp] at he
        omega
      simp only [St.setDisp, he', if_false]
      exact c.dnew e he
    · intro e i he
      by_cases h : e = d
      · subst h; simpa [St.setDisp] using hl
      · simp only [St.setDisp, h, if_false] at he ⊢
        exact c.shown e i he
    · intro e i h hi
      by_cases he : e = d
      · subst he; simpa [St.setDisp] using hl
      · simp only [St.setDisp, he, if_false]
        exact c.fine e i h hi
    · intro j hjm
      have hjm' : j ∈ x.st.jobs := hjm
      obtain ⟨a, b, e⟩ := c.jobs j hjm'
      have hv : srv' = true := by
        cases hv : srv' with
        | true => rfl
        | false =>
          have h : x.st.jobs = [] := hsv hv e
          rw [h] at hjm'
          exact absurd hjm' (by simp)
      by_cases he : j.disp = d
      · simp only [St.setDisp, he, if_true]
        rw [he] at b
        exact ⟨hl, b, hv⟩
      · simp only [St.setDisp, he, if_false]
        exact ⟨a, b, hv⟩

theorem Inv.fb_lt {debt : Nat → Int} {x : Sess} (c : Inv debt x) {i : Nat} (h : (x.st.fb i).live = true) :
    i < x.st.fbs := by
  by_cases hd : x.st.fbs ≤ i
  · have := c.fnew i hd
    have := (c.core.alive i).mp h
    omega
  · omega

theorem Inv.turn {debt : Nat → Int} {x : Sess} (c : Inv debt x) {d i : Nat} (hd : (x.st.disp d).live = true)
    (hi : (x.st.fb i).live = true) : Inv debt { x with turned := (d, i) :: x.turned } := by
  refine ⟨c.core, c.refs, c.drefs, c.fnew, c.dnew, c.homes, c.shown, c.cur, ?_, ?_, c.jobs, c.user, c.unset, c.snone,
    ?_⟩
  · intro j k hj hk
    exact List.mem_cons_of_mem _ (c.owner j k hj hk)
  · intro e j h hj
    rcases List.mem_cons.mp h with h | h
    · obtain ⟨rfl, rfl⟩ := Prod.mk.inj h
      exact hd
    · exact c.fine e j h hj
  · intro e j h
    rcases List.mem_cons.mp h with h | h
    · obtain ⟨rfl, rfl⟩ := Prod.mk.inj h
      exact c.fb_lt hi
    · exact c.tnew e j h

theorem Inv.attach {debt : Nat → Int} {x : Sess} (c : Inv debt x) {d i : Nat} (hd : (x.st.disp d).live = true)
    (hi : (x.st.fb i).live = true) :
    Inv debt { x with st := attach d i x.st, turned := (d, i) :: x.turned } ∧ Still x.st (attach d i x.st) ∧
      (∀ j, ((attach d i x.st).fb j).live = (x.st.fb j).live) := by
  have c1 := c.turn hd hi
  unfold Displays.attach
  cases hu : (x.st.fb i).user with
  | app n => exact ⟨c1, ⟨fun _ => rfl, fun _ => rfl, fun _ => rfl, rfl, rfl, rfl, rfl, rfl⟩, fun _ => rfl⟩
  | side k => exact ⟨c1, ⟨fun _ => rfl, fun _ => rfl, fun _ => rfl, rfl, rfl, rfl, rfl, rfl⟩, fun _ => rfl⟩
  | none =>
    have hK : x.st.held x.st.sides = false := c.core.snew _ (Nat.le_refl _)
    have hin : ∀ e, x.st.sides ∉ (x.st.disp e).chain := by
      intro e h
      have := (c.core.chain e _).mp h
      rw [hK] at this
      exact absurd this.1 (by simp)
    have hne : ∀ j k, (x.st.fb j).live = true → (x.st.fb j).user = .side k → k ≠ x.st.sides := by
      intro j k hj hk h
      have := (c.core.tied j k hj hk).1
      rw [h, hK] at this
      exact absurd this (by simp)
    refine ⟨⟨⟨?_, ?_, ?_, ?_, ?_, ?_, ?_⟩, ?_, ?_, ?_, ?_, ?_, ?_, c.cur, ?_, ?_, ?_, ?_, ?_, c.snone, c1.tnew⟩, ?_, ?_⟩
    · intro j
      by_cases h : j = i
      · subst h; simpa [St.setDisp, St.setFb] using c.core.alive j
      · simpa [St.setDisp, St.setFb, h] using c.core.alive j
    · intro e
      by_cases h : e = d
      · subst h; simpa [St.setDisp, St.setFb] using c.core.dalive e
      · simpa [St.setDisp, St.setFb, h] using c.core.dalive e
    · intro e k
      have h0 := c.core.chain e k
      by_cases h : e = d
      · subst h
        by_cases hk : k = x.st.sides
        · subst hk; simp [St.setDisp]
        · simpa [St.setDisp, hk] using h0
      · by_cases hk : k = x.st.sides
        · subst hk
          simp only [St.setDisp, h, if_false, if_true, true_and]
          constructor
          · intro h'; exact absurd h' (hin e)
          · intro h'; exact absurd h'.symm h
        · simpa [St.setDisp, St.setFb, h, hk] using h0
    · intro e
      by_cases h : e = d
      · subst h
        simp only [St.setDisp, if_true, List.nodup_cons]
        exact ⟨hin e, c.core.nodup e⟩
      · simpa [St.setDisp, St.setFb, h] using c.core.nodup e
    · intro k hk
      have hk' : k ≠ x.st.sides := by
        intro h
        dsimp only at hk
        omega
      simp only [hk', if_false]
      exact c.core.snew k (by dsimp only at hk; omega)
    · intro j k hj hk
      by_cases h : j = i
      · subst h
        simp only [St.setDisp, St.setFb, if_true, User.side.injEq] at hk
        subst hk
        simp [St.setDisp, St.setFb, hd]
      · simp only [St.setDisp, St.setFb, h, if_false] at hj hk
        have hkn := hne j k hj hk
        obtain ⟨a, b⟩ := c.core.tied j k hj hk
        simp only [St.setDisp, St.setFb, hkn, if_false]
        refine ⟨a, ?_⟩
        split
        · exact hd
        · exact b
    · intro j j' k hj hj' hk hk'
      by_cases h : j = i
      · by_cases h' : j' = i
        · rw [h, h']
        · subst h
          simp only [St.setDisp, St.setFb, if_true, User.side.injEq] at hk
          simp only [St.setDisp, St.setFb, h', if_false] at hj' hk'
          exact absurd hk.symm (hne j' k hj' hk')
      · by_cases h' : j' = i
        · subst h'
          simp only [St.setDisp, St.setFb, if_true, User.side.injEq] at hk'
          simp only [St.setDisp, St.setFb, h, if_false] at hj hk
          exact absurd hk'.symm (hne j k hj hk)
        · simp only [St.setDisp, St.setFb, h, h', if_false] at hj hj' hk hk'
          exact c.core.inj j j' k hj hj' hk hk'
    · intro j
      have h := c.refs j
      have e1 : shownBy (({ (x.st.setFb i { x.st.fb i with user := .side x.st.sides }).setDisp d
          { x.st.disp d with chain := x.st.sides :: (x.st.disp d).chain } with
          home := fun j => if j = x.st.sides then d else x.st.home j
          held := fun j => if j = x.st.sides then true else x.st.held j
          sides := x.st.sides + 1 } : St)) j = shownBy x.st j := by
        refine cnt_congr _ fun e _ => ?_
        by_cases he : e = d
        · subst he; simp [shows, St.setDisp]
        · simp [shows, St.setDisp, St.setFb, he]
      have e2 : (((x.st.setFb i { x.st.fb i with user := .side x.st.sides }).fb j).ref) = (x.st.fb j).ref := by
        by_cases hj : j = i
        · subst hj; simp [St.setFb]
        · simp [St.setFb, hj]
      change ((((x.st.setFb i { x.st.fb i with user := .side x.st.sides }).fb j).ref : Nat) : Int) + debt j =
        x.own j + x.lent j + (readers x.st j : Int) + _
      rw [e1, e2]
      exact h
    · intro e
      by_cases h : e = d
      · subst h; simpa [St.setDisp, St.setFb] using c.drefs e
      · simpa [St.setDisp, St.setFb, h] using c.drefs e
    · intro j hj
      by_cases h : j = i
      · subst h; simpa [St.setDisp, St.setFb] using c.fnew j hj
      · simpa [St.setDisp, St.setFb, h] using c.fnew j hj
    · intro e he
      by_cases h : e = d
      · subst h; simpa [St.setDisp] using c.dnew e he
      · simpa [St.setDisp, St.setFb, h] using c.dnew e he
    · intro k hk
      by_cases h : k = x.st.sides
      · subst h
        simp only [if_true]
        exact c.lt_of_live hd
      · simp only [h, if_false] at hk ⊢
        exact c.homes k hk
    · intro e j he
      by_cases h : e = d
      · subst h; simpa [St.setDisp] using hd
      · simp only [St.setDisp, St.setFb, h, if_false] at he ⊢
        exact c.shown e j he
    · intro j k hj hk
      by_cases h : j = i
      · subst h
        simp only [St.setDisp, St.setFb, if_true, User.side.injEq] at hk
        subst hk
        simp
      · simp only [St.setDisp, St.setFb, h, if_false] at hj hk
        have hkn := hne j k hj hk
        simp only [hkn, if_false]
        exact List.mem_cons_of_mem _ (c.owner j k hj hk)
    · intro e j h hj
      have hj' : (x.st.fb j).live = true := by
        by_cases h' : j = i
        · rw [h']; exact hi
        · simpa [St.setDisp, St.setFb, h'] using hj
      have := c1.fine e j h hj'
      by_cases h' : e = d
      · subst h'; simpa [St.setDisp] using hd
      · simpa [St.setDisp, St.setFb, h'] using this
    · intro j hj
      obtain ⟨a, b, e⟩ := c.jobs j hj
      by_cases h : j.disp = d
      · rw [h] at b
        simpa [St.setDisp, St.setFb, h] using ⟨hd, b, e⟩
      · simpa [St.setDisp, St.setFb, h] using ⟨a, b, e⟩
    · intro j n hj hs
      by_cases h : j = i
      · subst h
        have := c.user j n hi hs
        rw [hu] at this
        exact absurd this (by simp)
      · simp only [St.setDisp, St.setFb, h, if_false] at hj ⊢
        exact c.user j n hj hs
    · intro j hj hs
      by_cases h : j = i
      · subst h; right; exact ⟨x.st.sides, by simp [St.setDisp, St.setFb]⟩
      · simp only [St.setDisp, St.setFb, h, if_false] at hj ⊢
        exact c.unset j hj hs
    · constructor <;> first | rfl | skip
      all_goals
        intro e
        by_cases h : e = d
        · subst h; simp [St.setDisp]
        · simp [St.setDisp, St.setFb, h]
    · intro j
      by_cases h : j = i
      · subst h; simp [St.setDisp, St.setFb]
      · simp [St.setDisp, St.setFb, h]

/-- a job begins -/
theorem Inv.begin {debt : Nat → Int} {x : Sess} (c : Inv debt x) {d i : Nat} (hd : (x.st.disp d).live = true)
    (hs : (x.st.disp d).server = true) (hv : x.st.server = true) :
    Inv (owe debt i 1) { x with st := { x.st with jobs := x.st.jobs ++ [⟨d, i⟩] } } := by
  refine ⟨⟨c.core.alive, c.core.dalive, c.core.chain, c.core.nodup, c.core.snew, c.core.tied, c.core.inj⟩, ?_, c.drefs,
    c.fnew, c.dnew, c.homes, c.shown, c.cur, c.owner, c.fine, ?_, c.user, c.unset, c.snone, c.tnew⟩
  · intro j
    have h := c.refs j
    have e : readers { x.st with jobs := x.st.jobs ++ [⟨d, i⟩] } j =
        readers x.st j + (if j = i then 1 else 0) := by
      simp only [readers, List.countP_append, List.countP_cons, List.countP_nil]
      by_cases hj : j = i
      · simp [hj]
      · simp [hj, Ne.symm hj]
    change ((x.st.fb j).ref : Int) + owe debt i 1 j = x.own j + x.lent j +
      (readers { x.st with jobs := x.st.jobs ++ [⟨d, i⟩] } j : Int) + (shownBy x.st j : Int)
    rw [e]
    simp only [owe]
    split <;> omega
  · intro j hj
    rcases List.mem_append.mp hj with h | h
    · exact c.jobs j h
    · rw [List.mem_singleton] at h
      subst h
      exact ⟨hd, hs, hv⟩

theorem countP_eraseIdx {α : Type} (p : α → Bool) : ∀ (l : List α) (n : Nat) (a : α), l[n]? = some a →
    l.countP p = (l.eraseIdx n).countP p + (p a).toNat
  | [], n, a, h => by simp at h
  | b :: l, 0, a, h => by
    simp only [List.getElem?_cons_zero, Option.some.injEq] at h
    subst h
    simp only [List.eraseIdx_cons_zero, List.countP_cons]
    cases p b <;> rfl
  | b :: l, n + 1, a, h => by
    simp only [List.getElem?_cons_succ] at h
    simp only [List.eraseIdx_cons_succ, List.countP_cons]
    have := countP_eraseIdx p l n a h
    omega

/-- a job ends -/
theorem Inv.endJob {debt : Nat → Int} {x : Sess} (c : Inv debt x) {n : Nat} {j : Job} (h : x.st.jobs[n]? = some j) :
    Inv (owe debt j.src (-1)) { x with st := { x.st with jobs := x.st.jobs.eraseIdx n } } := by
  refine ⟨⟨c.core.alive, c.core.dalive, c.core.chain, c.core.nodup, c.core.snew, c.core.tied, c.core.inj⟩, ?_, c.drefs,
    c.fnew, c.dnew, c.homes, c.shown, c.cur, c.owner, c.fine, ?_, c.user, c.unset, c.snone, c.tnew⟩
  · intro i
    have h0 := c.refs i
    have e := countP_eraseIdx (fun j : Job => decide (j.src = i)) _ _ _ h
    have e' : readers x.st i = readers { x.st with jobs := x.st.jobs.eraseIdx n } i +
        (if i = j.src then 1 else 0) := by
      simp only [readers, e]
      by_cases hj : i = j.src
      · simp [hj]
      · simp [hj, Ne.symm hj]
    change ((x.st.fb i).ref : Int) + owe debt j.src (-1) i = x.own i + x.lent i +
      (readers { x.st with jobs := x.st.jobs.eraseIdx n } i : Int) + (shownBy x.st i : Int)
    simp only [owe]
    split
    · next h' => rw [if_pos h'] at e'; dsimp only at e' ⊢; omega
    · next h' => rw [if_neg h'] at e'; dsimp only at e' ⊢; omega
  · intro i hi
    exact c.jobs i (List.mem_of_mem_eraseIdx hi)

/-! ## Every call -/

theorem setUser_ok {i : Nat} {n : Option Nat} {s : St} (hi : (s.fb i).live = true) :
    ∃ u, step (.setUser i n) s = .ok (s.setFb i { s.fb i with user := u }) ∧
      (n = Option.none → u = .none) ∧ (∀ m, n = some m → u = .app m) := by
  cases n with
  | none => exact ⟨.none, if_neg (by rw [hi]; simp), fun _ => rfl, fun _ h => absurd h (by simp)⟩
  | some m => exact ⟨.app m, if_neg (by rw [hi]; simp), fun h => absurd h (by simp), fun _ h => by cases h; rfl⟩

set_option linter.unusedSimpArgs false in
theorem Inv.act {x : Sess} (c : Inv (fun _ => 0) x) {o : Op} (hl : Legal o x)
    (hv : ∀ d i t r, o = .feed d i t r → x.st.server = true) :
    ∃ y, act o x = .ok y ∧ (Careful o x y → Inv (fun _ => 0) y) := by
  cases o with
  | newFb =>
    refine ⟨_, rfl, fun _ => ?_⟩
    have h0 := c.fnew x.st.fbs (Nat.le_refl _)
    refine ⟨⟨?_, c.core.dalive, c.core.chain, c.core.nodup, c.core.snew, ?_, ?_⟩, ?_, c.drefs, ?_, c.dnew, c.homes,
      c.shown, c.cur, ?_, ?_, c.jobs, ?_, ?_, ?_, ?_⟩
    · intro j
      by_cases h : j = x.st.fbs
      · simp [book, St.setFb, h]
      · simpa [book, St.setFb, h] using c.core.alive j
    · intro j k hj hk
      by_cases h : j = x.st.fbs
      · simp [book, St.setFb, h] at hk
      · simp only [book, St.setFb, h, if_false] at hj hk ⊢
        exact c.core.tied j k hj hk
    · intro j j' k hj hj' hk hk'
      by_cases h : j = x.st.fbs
      · simp [book, St.setFb, h] at hk
      · by_cases h' : j' = x.st.fbs
        · simp [book, St.setFb, h'] at hk'
        · simp only [book, St.setFb, h, h', if_false] at hj hj' hk hk'
          exact c.core.inj j j' k hj hj' hk hk'
    · intro j
      have h1 := c.refs j
      change (((if j = x.st.fbs then { live := true, ref := 1 } else x.st.fb j : Fb).ref : Nat) : Int) + 0 =
        (bump x.own x.st.fbs j : Int) + x.lent j + (readers x.st j : Int) + (shownBy x.st j : Int)
      by_cases h : j = x.st.fbs
      · subst h
        simp only [bump, if_true]
        omega
      · simp only [bump, h, if_false]
        exact h1
    · intro j hj
      have hj' : x.st.fbs + 1 ≤ j := hj
      have h : j ≠ x.st.fbs := by omega
      simp only [book, St.setFb, h, if_false]
      exact c.fnew j (by omega)
    · intro j k hj hk
      by_cases h : j = x.st.fbs
      · simp [book, St.setFb, h] at hk
      · simp only [book, St.setFb, h, if_false] at hj hk ⊢
        exact c.owner j k hj hk
    · intro d j h hj
      have hlt := c.tnew d j h
      have h' : j ≠ x.st.fbs := by omega
      simp only [book, St.setFb, h', if_false] at hj ⊢
      exact c.fine d j h hj
    · intro j n hj hs
      by_cases h : j = x.st.fbs
      · have := c.snone j (by omega)
        rw [show x.set j = some n from hs] at this
        exact absurd this (by simp)
      · simp only [book, St.setFb, h, if_false] at hj ⊢
        exact c.user j n hj hs
    · intro j hj hs
      by_cases h : j = x.st.fbs
      · left; simp [book, St.setFb, h]
      · simp only [book, St.setFb, h, if_false] at hj ⊢
        exact c.unset j hj hs
    · intro j hj
      have hj' : x.st.fbs + 1 ≤ j := hj
      exact c.snone j (by omega)
    · intro d j h
      have := c.tnew d j h
      change j < x.st.fbs + 1
      omega
  | ref i =>
    have hi : (x.st.fb i).live = true := c.live_of_own hl
    obtain ⟨t, e, _, ct⟩ := c.ref hi
    refine ⟨{ x with own := bump x.own i, st := t }, by simp [Displays.act, step, e, book], fun _ => ?_⟩
    refine ct.books (bump x.own i) x.lent ?_
    intro j
    simp only [bump, owe]
    split <;> simp <;> omega
  | unref i =>
    have hi : (x.st.fb i).live = true := c.live_of_own hl
    have hp : 0 < x.own i := hl
    obtain ⟨t, e, _, ct⟩ := c.unref hi
    refine ⟨{ x with own := sink x.own i, st := t }, by simp [Displays.act, step, e, book], fun _ => ?_⟩
    refine ct.books (sink x.own i) x.lent ?_
    intro j
    simp only [sink, owe]
    split
    · next h => subst h; simp; omega
    · simp
  | setUser i n =>
    have hi : (x.st.fb i).live = true := c.live_of_own hl
    obtain ⟨u, e, u0, u1⟩ := setUser_ok (n := n) hi
    have us : ∀ k, u ≠ .side k := by
      intro k
      cases n with
      | none => rw [u0 rfl]; simp
      | some m => rw [u1 m rfl]; simp
    refine ⟨{ book (.setUser i n) x with st := x.st.setFb i { x.st.fb i with user := u } },
      by simp only [Displays.act, e, Outcome.bind_ok], fun _ => ?_⟩
    refine ⟨⟨?_, c.core.dalive, c.core.chain, c.core.nodup, c.core.snew, ?_, ?_⟩, ?_, c.drefs, ?_, c.dnew, c.homes,
      c.shown, c.cur, ?_, ?_, c.jobs, ?_, ?_, ?_, c.tnew⟩
    · intro j
      by_cases h : j = i
      · subst h; simpa [book, St.setFb] using c.core.alive j
      · simpa [book, St.setFb, h] using c.core.alive j
    · intro j k hj hk
      by_cases h : j = i
      · subst h; exact absurd (by simpa [book, St.setFb] using hk) (us k)
      · simp only [book, St.setFb, h, if_false] at hj hk ⊢
        exact c.core.tied j k hj hk
    · intro j j' k hj hj' hk hk'
      by_cases h : j = i
      · subst h; exact absurd (by simpa [book, St.setFb] using hk) (us k)
      · by_cases h' : j' = i
        · subst h'; exact absurd (by simpa [book, St.setFb] using hk') (us k)
        · simp only [book, St.setFb, h, h', if_false] at hj hj' hk hk'
          exact c.core.inj j j' k hj hj' hk hk'
    · intro j
      have h1 := c.refs j
      have e2 : ((x.st.setFb i { x.st.fb i with user := u }).fb j).ref = (x.st.fb j).ref := by
        by_cases h : j = i
        · subst h; simp [St.setFb]
        · simp [St.setFb, h]
      change ((((x.st.setFb i { x.st.fb i with user := u }).fb j).ref : Nat) : Int) + 0 =
        x.own j + x.lent j + (readers x.st j : Int) + (shownBy x.st j : Int)
      rw [e2]
      exact h1
    · intro j hj
      by_cases h : j = i
      · subst h; simpa [book, St.setFb] using c.fnew j hj
      · simpa [book, St.setFb, h] using c.fnew j hj
    · intro j k hj hk
      by_cases h : j = i
      · subst h; exact absurd (by simpa [book, St.setFb] using hk) (us k)
      · simp only [book, St.setFb, h, if_false] at hj hk ⊢
        exact c.owner j k hj hk
    · intro d j h hj
      refine c.fine d j h ?_
      by_cases h' : j = i
      · subst h'; exact hi
      · simpa [book, St.setFb, h'] using hj
    · intro j m hj hs
      by_cases h : j = i
      · subst h
        simp only [book, if_true] at hs
        simpa [book, St.setFb] using u1 m hs
      · simp only [book, St.setFb, h, if_false] at hj hs ⊢
        exact c.user j m hj hs
    · intro j hj hs
      by_cases h : j = i
      · subst h
        simp only [book, if_true] at hs
        left; simpa [book, St.setFb] using u0 hs
      · simp only [book, St.setFb, h, if_false] at hj hs ⊢
        exact c.unset j hj hs
    · intro j hj
      have hlt := c.fb_lt hi
      have hj' : x.st.fbs ≤ j := hj
      have h : j ≠ i := by omega
      simp only [book, h, if_false]
      exact c.snone j hj'
  | newDisp =>
    refine ⟨_, rfl, fun _ => ?_⟩
    have h0 := c.dnew x.st.disps (Nat.le_refl _)
    have hdead : (x.st.disp x.st.disps).live = false := by
      have := c.core.dalive x.st.disps
      rw [h0] at this
      simpa using this
    refine ⟨⟨c.core.alive, ?_, ?_, ?_, c.core.snew, ?_, c.core.inj⟩, ?_, ?_, c.fnew, ?_, ?_, ?_, c.cur, c.owner, ?_, ?_,
      c.user, c.unset, c.snone, c.tnew⟩
    · intro d
      by_cases h : d = x.st.disps
      · simp [book, St.setDisp, h]
      · simpa [book, St.setDisp, h] using c.core.dalive d
    · intro d k
      by_cases h : d = x.st.disps
      · subst h
        simp only [book, St.setDisp, if_true, List.not_mem_nil, false_iff, not_and]
        intro hk h'
        have := c.homes k hk
        omega
      · simpa [book, St.setDisp, h] using c.core.chain d k
    · intro d
      by_cases h : d = x.st.disps
      · simp [book, St.setDisp, h]
      · simpa [book, St.setDisp, h] using c.core.nodup d
    · intro i k hi hk
      obtain ⟨a, b⟩ := c.core.tied i k hi hk
      have h : x.st.home k ≠ x.st.disps := by
        intro h
        rw [h, hdead] at b
        exact absurd b (by simp)
      refine ⟨a, ?_⟩
      simp only [book, St.setDisp, h, if_false]
      exact b
    · intro j
      have h1 := c.refs j
      have e : shownBy ({ x.st.setDisp x.st.disps { live := true, ref := 1 } with disps := x.st.disps + 1 } : St) j =
          shownBy x.st j := by
        simp only [shownBy, cnt]
        rw [cnt_congr x.st.disps (g := shows x.st j) (fun d hd => by
          have h : d ≠ x.st.disps := by omega
          simp [shows, St.setDisp, h])]
        simp [shows, St.setDisp]
      change ((x.st.fb j).ref : Int) + 0 = x.own j + x.lent j + (readers x.st j : Int) +
        (shownBy ({ x.st.setDisp x.st.disps { live := true, ref := 1 } with disps := x.st.disps + 1 } : St) j : Int)
      rw [e]
      exact h1
    · intro d
      have h1 := c.drefs d
      by_cases h : d = x.st.disps
      · subst h
        have hn : x.st.current ≠ some x.st.disps := by
          intro h
          rw [if_pos h] at h1
          omega
        rw [if_neg hn] at h1
        simp [book, bump, St.setDisp, hn]
        omega
      · simp only [book, bump, St.setDisp, h, if_false]
        exact h1
    · intro d hd
      have hd' : x.st.disps + 1 ≤ d := hd
      have h : d ≠ x.st.disps := by omega
      simp only [book, St.setDisp, h, if_false]
      exact c.dnew d (by omega)
    · intro k hk
      have := c.homes k hk
      change x.st.home k < x.st.disps + 1
      omega
    · intro d i hd
      by_cases h : d = x.st.disps
      · simp [book, St.setDisp, h] at hd
      · simp only [book, St.setDisp, h, if_false] at hd ⊢
        exact c.shown d i hd
    · intro d i h hi
      have := c.fine d i h hi
      by_cases h' : d = x.st.disps
      · simp [book, St.setDisp, h']
      · simpa [book, St.setDisp, h'] using this
    · intro j hj
      obtain ⟨a, b, e⟩ := c.jobs j hj
      have h : j.disp ≠ x.st.disps := by
        intro h
        rw [h, hdead] at a
        exact absurd a (by simp)
      simp only [book, St.setDisp, h, if_false]
      exact ⟨a, b, e⟩
  | dref d =>
    have hd : (x.st.disp d).live = true := c.live_of_downs hl
    have hlt := c.lt_of_live hd
    have e : step (.dref d) x.st = .ok (x.st.setDisp d { x.st.disp d with ref := (x.st.disp d).ref + 1 }) :=
      if_pos hd
    refine ⟨{ book (.dref d) x with st := x.st.setDisp d { x.st.disp d with ref := (x.st.disp d).ref + 1 } },
      by simp only [Displays.act, e, Outcome.bind_ok], fun _ => ?_⟩
    have cc := c.core.disp (d := d) { x.st.disp d with ref := (x.st.disp d).ref + 1 } rfl
      (by have := (c.core.dalive d).mp hd; dsimp only; omega) rfl
    refine ⟨cc, ?_, ?_, c.fnew, ?_, c.homes, ?_, c.cur, c.owner, ?_, ?_, c.user, c.unset, c.snone, c.tnew⟩
    · intro j
      have h := c.refs j
      have hs : shownBy (x.st.setDisp d { x.st.disp d with ref := (x.st.disp d).ref + 1 }) j = shownBy x.st j := by
        have := shownBy_set (s := x.st) { x.st.disp d with ref := (x.st.disp d).ref + 1 } hlt j
        dsimp only at this
        dsimp only
        omega
      change ((x.st.fb j).ref : Int) + 0 = x.own j + x.lent j + (readers x.st j : Int) +
        (shownBy (x.st.setDisp d { x.st.disp d with ref := (x.st.disp d).ref + 1 }) j : Int)
      rw [hs]
      exact h
    · intro e
      have h1 := c.drefs e
      by_cases h : e = d
      · subst h
        simp [book, bump, St.setDisp]
        omega
      · simp only [book, bump, St.setDisp, h, if_false]
        exact h1
    · intro e he
      have he' : x.st.disps ≤ e := he
      have h : e ≠ d := by omega
      simp only [book, St.setDisp, h, if_false]
      exact c.dnew e he'
    · intro e i he
      by_cases h : e = d
      · subst h; simp [book, St.setDisp, hd]
      · simp only [book, St.setDisp, h, if_false] at he ⊢
        exact c.shown e i he
    · intro e i h hi
      have := c.fine e i h hi
      by_cases h' : e = d
      · subst h'; simp [book, St.setDisp, hd]
      · simpa [book, St.setDisp, h'] using this
    · intro j hj
      obtain ⟨a, b, e⟩ := c.jobs j hj
      by_cases h : j.disp = d
      · rw [h] at b
        simpa [book, St.setDisp, h, hd, b] using e
      · simpa [book, St.setDisp, h] using ⟨a, b, e⟩
  | dunref d =>
    have hd : (x.st.disp d).live = true := c.live_of_downs hl
    have hp : 0 < x.downs d := hl
    obtain ⟨t, e, ej, es, ec, h⟩ := c.undisp hd
    refine ⟨{ x with downs := sink x.downs d, st := t }, by simp [Displays.act, step, e, book], fun cf => ?_⟩
    have := h (sink x.downs d) x.st.current x.st.server ?_ c.cur ?_ id ?_ ?_
    · rw [show ({ t with current := x.st.current, server := x.st.server } : St) = t by rw [← ec, ← es]] at this
      exact this
    · intro e
      simp only [sink]
      split
      · next h => subst h; omega
      · omega
    · intro h1 h2
      rw [h1] at h2
      exact absurd h2 (by simp)
    · intro hf
      exact cf.jobs d hd hf
    · intro hf
      exact cf.fbs d hd hf
  | add d =>
    obtain ⟨hp, hs, hn⟩ : 0 < x.downs d ∧ x.st.server = true ∧ x.st.current = Option.none := hl
    have hd : (x.st.disp d).live = true := c.live_of_downs hp
    have hlt := c.lt_of_live hd
    have e : step (.add d) x.st = .ok { x.st.setDisp d { x.st.disp d with
        server := true, ref := (x.st.disp d).ref + 1 } with current := some d } := by
      change (if _ then _ else if _ then _ else if _ then _ else _) = _
      rw [if_neg (by rw [hs]; simp), if_neg (by rw [hn]; simp), if_neg (by rw [hd]; simp)]
      unfold refDisp
      rw [if_pos (by simp [St.setDisp, hd])]
      simp only [St.setDisp, Outcome.ok.injEq, St.mk.injEq, true_and, and_true]
      funext e
      by_cases h : e = d <;> simp [h]
    refine ⟨{ x with st := { x.st.setDisp d { x.st.disp d with server := true, ref := (x.st.disp d).ref + 1 } with
        current := some d } }, ?_, fun _ => ?_⟩
    · simp only [Displays.act, e, Outcome.bind_ok, book]
    · have cc := c.core.disp (d := d) { x.st.disp d with server := true, ref := (x.st.disp d).ref + 1 } rfl
        (by have := (c.core.dalive d).mp hd; dsimp only; omega) rfl
      refine ⟨⟨cc.alive, cc.dalive, cc.chain, cc.nodup, cc.snew, cc.tied, cc.inj⟩, ?_, ?_, c.fnew, ?_, c.homes, ?_, ?_,
        c.owner, ?_, ?_, c.user, c.unset, c.snone, c.tnew⟩
      · intro j
        have h := c.refs j
        have hs : shownBy (x.st.setDisp d { x.st.disp d with server := true, ref := (x.st.disp d).ref + 1 }) j =
            shownBy x.st j := by
          have := shownBy_set (s := x.st) { x.st.disp d with server := true, ref := (x.st.disp d).ref + 1 } hlt j
          dsimp only at this
          dsimp only
          omega
        change ((x.st.fb j).ref : Int) + 0 = x.own j + x.lent j + (readers x.st j : Int) +
          (shownBy (x.st.setDisp d { x.st.disp d with server := true, ref := (x.st.disp d).ref + 1 }) j : Int)
        rw [hs]
        exact h
      · intro e
        have h1 := c.drefs e
        rw [hn, if_neg (by simp)] at h1
        by_cases h : e = d
        · subst h
          simp [St.setDisp, h1]
        · simp [St.setDisp, h, Ne.symm h, h1]
      · intro e he
        have he' : x.st.disps ≤ e := he
        have h : e ≠ d := by omega
        simp only [St.setDisp, h, if_false]
        exact c.dnew e he'
      · intro e i he
        by_cases h : e = d
        · subst h; simpa [St.setDisp] using hd
        · simp only [St.setDisp, h, if_false] at he ⊢
          exact c.shown e i he
      · intro e _; exact hs
      · intro e i h hi
        have := c.fine e i h hi
        by_cases h' : e = d
        · subst h'; simpa [St.setDisp] using hd
        · simpa [St.setDisp, h'] using this
      · intro j hj
        obtain ⟨a, b, e⟩ := c.jobs j hj
        by_cases h : j.disp = d
        · simpa [St.setDisp, h] using ⟨hd, e⟩
        · simpa [St.setDisp, h] using ⟨a, b, e⟩
  | remove d =>
    have hs : x.st.server = true := hl
    by_cases hc : x.st.current = some d
    · have hd := c.live_of_current hc
      obtain ⟨t, e, ej, es, ec, h⟩ := c.undisp hd
      refine ⟨{ x with st := { t with current := Option.none } },
        by simp [Displays.act, step, hs, hc, e, book], fun cf => ?_⟩
      have := h x.downs Option.none x.st.server ?_ (by simp) ?_ id ?_ ?_
      · rw [← es] at this
        exact this
      · intro e
        rw [if_neg (by simp), hc]
        by_cases h : e = d
        · simp [h]
        · simp [h, Ne.symm h]
      · intro h1 h2
        rw [h1] at h2
        exact absurd h2 (by simp)
      · intro hf
        exact cf.jobs d hd hf
      · intro hf
        exact cf.fbs d hd hf
    · exact ⟨x, by simp [Displays.act, step, hs, hc, book], fun _ => c⟩
  | del =>
    have hs : x.st.server = true := hl
    cases hc : x.st.current with
    | none =>
      refine ⟨{ x with st := { x.st with current := Option.none, server := false } },
        by simp [Displays.act, step, hs, hc, book], fun cf => ?_⟩
      have hj : x.st.jobs = [] := cf.server hs rfl
      refine ⟨⟨c.core.alive, c.core.dalive, c.core.chain, c.core.nodup, c.core.snew, c.core.tied, c.core.inj⟩, c.refs,
        ?_, c.fnew, c.dnew, c.homes, c.shown, ?_, c.owner, c.fine, ?_, c.user, c.unset, c.snone, c.tnew⟩
      · intro d
        have := c.drefs d
        rw [hc] at this
        exact this
      · intro d h; exact absurd h (by simp)
      · intro j h
        have h' : j ∈ x.st.jobs := h
        rw [hj] at h'
        exact absurd h' (by simp)
    | some d =>
      have hd := c.live_of_current hc
      obtain ⟨t, e, ej, es, ec, h⟩ := c.undisp hd
      refine ⟨{ x with st := { t with current := Option.none, server := false } },
        by simp [Displays.act, step, hs, hc, e, book], fun cf => ?_⟩
      refine h x.downs Option.none false ?_ (by simp) ?_ (by simp) ?_ ?_
      · intro e
        rw [if_neg (by simp), hc]
        by_cases h : e = d
        · simp [h]
        · simp [h, Ne.symm h]
      · intro _ _
        exact cf.server hs rfl
      · intro hf
        exact cf.jobs d hd hf
      · intro hf
        exact cf.fbs d hd hf
  | feed d i turned room =>
    obtain ⟨hp, hi', hs⟩ : 0 < x.downs d ∧ 0 < x.own i ∧ (x.st.disp d).server = true := hl
    have hd : (x.st.disp d).live = true := c.live_of_downs hp
    have hi : (x.st.fb i).live = true := c.live_of_own hi'
    have hv' := hv d i turned room rfl
    cases turned with
    | false =>
      obtain ⟨t, e, ct, _⟩ := c.done hd hs hv' (some i) (by intro j h; cases h; exact hi')
      exact ⟨{ x with st := t }, by simp [Displays.act, step, feed, hd, hi, hs, hv', e, book], fun _ => ct⟩
    | true =>
      have c1 := c.turn hd hi
      have base : ∀ {s : St}, (s.disp d).live = true → (s.disp d).server = true → s.server = true →
          (s.fb i).live = true → Inv (fun _ => 0) { x with st := s, turned := (d, i) :: x.turned } →
          ∃ t, (do let s ← refFb i s; Outcome.ok { s with jobs := s.jobs ++ [⟨d, i⟩] } : Outcome St) = .ok t ∧
            Inv (fun _ => 0) { x with st := t, turned := (d, i) :: x.turned } := by
        intro s a b e f cs
        obtain ⟨t, et, ht, ct⟩ := cs.ref f
        refine ⟨{ t with jobs := t.jobs ++ [⟨d, i⟩] }, by simp only [et, Outcome.bind_ok], ?_⟩
        have := ct.begin (d := d) (i := i) (by rw [ht]; exact a) (by rw [ht]; exact b) (by rw [ht]; exact e)
        refine this.congr ?_
        intro j
        simp only [owe]
        split <;> omega
      cases room with
      | noJob =>
        exact ⟨{ x with turned := (d, i) :: x.turned }, by simp [Displays.act, step, feed, hd, hi, hs, hv', book],
          fun _ => c1⟩
      | noRecord =>
        cases hu : (x.st.fb i).user with
        | none =>
          exact ⟨{ x with turned := (d, i) :: x.turned }, by simp [Displays.act, step, feed, hd, hi, hs, hv', book, hu],
            fun _ => c1⟩
        | app n =>
          obtain ⟨t, et, ct⟩ := base hd hs hv' hi c1
          refine ⟨{ x with st := t, turned := (d, i) :: x.turned }, ?_, fun _ => ct⟩
          simp only [Displays.act, step, feed, hd, hi, hs, hv', book, hu, Bool.true_eq_false, if_false]
          rw [et]
          rfl
        | side k =>
          obtain ⟨t, et, ct⟩ := base hd hs hv' hi c1
          refine ⟨{ x with st := t, turned := (d, i) :: x.turned }, ?_, fun _ => ct⟩
          simp only [Displays.act, step, feed, hd, hi, hs, hv', book, hu, Bool.true_eq_false, if_false]
          rw [et]
          rfl
      | noStart =>
        obtain ⟨ca, _, _⟩ := c.attach hd hi
        exact ⟨{ x with st := Displays.attach d i x.st, turned := (d, i) :: x.turned },
          by simp [Displays.act, step, feed, hd, hi, hs, hv', book], fun _ => ca⟩
      | enough =>
        obtain ⟨ca, st, lv⟩ := c.attach hd hi
        obtain ⟨t, et, ct⟩ := base (s := Displays.attach d i x.st) (by rw [st.live]; exact hd) (by rw [st.srv]; exact hs)
          (by rw [st.server]; exact hv') (by rw [lv]; exact hi) ca
        refine ⟨{ x with st := t, turned := (d, i) :: x.turned }, ?_, fun _ => ct⟩
        simp only [Displays.act, step, feed, hd, hi, hs, hv', book, Bool.true_eq_false, if_false]
        rw [et]
        rfl
  | finish n =>
    cases hj : x.st.jobs[n]? with
    | none => exact ⟨x, by simp [Displays.act, step, finish, hj, book], fun _ => c⟩
    | some j =>
      obtain ⟨hd, hs, hv'⟩ := c.jobs j (List.mem_of_getElem? hj)
      have c1 := c.endJob hj
      -- what the job has is put into the books of encoders for as long as the display changes
      have c2 := c1.books (debt' := fun _ => 0) x.own (bump x.lent j.src) (by
        intro i
        simp only [bump, owe]
        split <;> simp <;> omega)
      obtain ⟨t, e, ct, st⟩ := c2.done hd hs hv' Option.none (by simp)
      have hl' : (t.fb j.src).live = true := ct.live_of_lent (by simp [bump])
      obtain ⟨r, er, u, cr⟩ := ct.unref hl'
      refine ⟨{ x with st := r }, ?_, fun _ => ?_⟩
      · simp only [Displays.act, step, finish, hj, book]
        rw [show onDone j.disp Option.none { x.st with jobs := x.st.jobs.eraseIdx n } = .ok t from e]
        simp only [Outcome.bind_ok, er]
      · refine cr.books x.own x.lent ?_
        intro i
        simp only [bump, owe]
        split
        · simp; omega
        · simp
  | lend d =>
    have hc : x.st.current = some d := hl
    have hd := c.live_of_current hc
    cases hsn : (x.st.disp d).shown with
    | none => exact ⟨x, by simp [Displays.act, step, hsn, book], fun _ => c⟩
    | some i =>
      have hi : (x.st.fb i).live = true := by
        rw [c.core.alive]
        have h := c.refs i
        have e := shownBy_set { x.st.disp d with shown := Option.none } (c.lt_of_live hd) i
        simp only [hsn] at e
        simp at e
        omega
      obtain ⟨t, e, _, ct⟩ := c.ref hi
      refine ⟨{ x with st := t, lent := bump x.lent i }, by simp [Displays.act, step, hsn, e, book], fun _ => ?_⟩
      refine ct.books x.own (bump x.lent i) ?_
      intro j
      simp only [bump, owe]
      split <;> simp <;> omega
  | back i =>
    have hp : 0 < x.lent i := hl
    obtain ⟨t, e, _, ct⟩ := c.unref (c.live_of_lent hp)
    refine ⟨{ x with lent := sink x.lent i, st := t }, by simp [Displays.act, step, e, book], fun _ => ?_⟩
    refine ct.books x.own (sink x.lent i) ?_
    intro j
    simp only [sink, owe]
    split
    · next h => subst h; simp; omega
    · simp

theorem reach_inv {x : Sess} (h : Reach x) : Inv (fun _ => 0) x := by
  induction h with
  | start => exact inv_start
  | next o _ hl e cf ih =>
    obtain ⟨y, ey, hy⟩ := ih.act hl cf.feeds
    rw [ey] at e
    cases e
    exact hy cf

/-! ## What holds of every history -/

theorem unrefFb_live {i : Nat} {s t : St} (e : unrefFb i s = .ok t) (d : Nat) :
    (t.disp d).live = (s.disp d).live := by
  unfold unrefFb at e
  split at e
  · exact absurd e (by simp)
  · split at e
    · unfold freeFb at e
      cases hu : (s.fb i).user with
      | none => simp [hu] at e; subst e; rfl
      | app n => simp [hu] at e; subst e; rfl
      | side k =>
        simp only [hu, Outcome.bind_eq_ok] at e
        obtain ⟨r, hr, e⟩ := e
        simp at e; subst e
        unfold dropSide at hr
        simp only at hr
        split at hr
        · exact absurd hr (by simp)
        · split at hr
          · exact absurd hr (by simp)
          · cases hr
            by_cases h : d = s.home k
            · subst h; simp [St.setDisp, St.setFb, St.say]
            · simp [St.setDisp, St.setFb, St.say, h]
    · cases e; rfl

theorem step_closed {P : St → Prop} {o : Op} {s t : St} (e : step o s = .ok t) (hP : P s)
    (ref : ∀ i s, (s.fb i).live = true → P s → P (s.setFb i { s.fb i with ref := (s.fb i).ref + 1 }))
    (unref : ∀ i s t, P s → unrefFb i s = .ok t → P t)
    (disp : ∀ d p s, p.live = (s.disp d).live → P s → P (s.setDisp d p))
    (gone : ∀ d s, (s.disp d).live = true → P s →
      P ((s.setDisp d { s.disp d with live := false, ref := 0 }).say (.gone d)))
    (misc : ∀ s c v j, P s → P { s with current := c, server := v, jobs := j })
    (att : ∀ d i r, o = .feed d i true r → ∀ s, (s.fb i).live = true → P s → P (attach d i s))
    (newFb : o = .newFb → P { s.setFb s.fbs { live := true, ref := 1 } with fbs := s.fbs + 1 })
    (newDisp : o = .newDisp → P { s.setDisp s.disps { live := true, ref := 1 } with disps := s.disps + 1 })
    (setUser : ∀ i n, o = .setUser i n → (s.fb i).live = true →
      P (s.setFb i { s.fb i with user := match n with | Option.none => .none | some n => .app n })) : P t := by
  have href : ∀ {i s t}, P s → refFb i s = .ok t → P t := by
    intro i s t h e
    unfold refFb at e
    split at e
    · next hl => cases e; exact ref i s hl h
    · exact absurd e (by simp)
  have hdref : ∀ {d s t}, P s → refDisp d s = .ok t → P t := by
    intro d s t h e
    unfold refDisp at e
    split at e
    · cases e; exact disp d _ s rfl h
    · exact absurd e (by simp)
  have hdrop : ∀ {d s t}, P s → dropShown d s = .ok t → P t ∧ (t.disp d).live = (s.disp d).live := by
    intro d s t h e
    unfold dropShown at e
    split at e
    · cases e; exact ⟨h, rfl⟩
    · next i _ =>
      simp only [Outcome.bind_eq_ok] at e
      obtain ⟨r, hr, e⟩ := e
      cases e
      exact ⟨disp d _ r rfl (unref i s r h hr), by simp [St.setDisp, unrefFb_live hr d]⟩
  have hdun : ∀ {d s t}, P s → unrefDisp d s = .ok t → P t := by
    intro d s t h e
    unfold unrefDisp at e
    split at e
    · exact absurd e (by simp)
    · next hl =>
      split at e
      · unfold freeDisp at e
        simp only [Outcome.bind_eq_ok] at e
        obtain ⟨r, hr, e⟩ := e
        cases e
        obtain ⟨a, b⟩ := hdrop h hr
        exact gone d r (by rw [b]; simpa using hl) a
      · cases e; exact disp d _ s rfl h
  have hdone : ∀ {d i s t}, P s → onDone d i s = .ok t → P t := by
    intro d i s t h e
    unfold onDone at e
    split at e
    · exact absurd e (by simp)
    · simp only [Outcome.bind_eq_ok] at e
      obtain ⟨r, hr, e⟩ := e
      obtain ⟨a, _⟩ := hdrop h hr
      cases i with
      | none =>
        simp only [Outcome.bind_ok] at e
        split at e
        · exact absurd e (by simp)
        · split at e
          · exact absurd e (by simp)
          · cases e; exact disp d _ r rfl a
      | some i =>
        simp only [Outcome.bind_eq_ok] at e
        obtain ⟨q, hq, e⟩ := e
        have hq' : P q := href (disp d { r.disp d with shown := some i } r rfl a) hq
        split at e
        · exact absurd e (by simp)
        · split at e
          · exact absurd e (by simp)
          · cases e; exact hq'
  cases o with
  | newFb => cases e; exact newFb rfl
  | newDisp => cases e; exact newDisp rfl
  | ref i => exact href hP e
  | unref i => exact unref i s t hP e
  | setUser i n =>
    unfold step at e
    simp only at e
    split at e
    · exact absurd e (by simp)
    · next hl => cases e; exact setUser i n rfl (by simpa using hl)
  | dref d => exact hdref hP e
  | dunref d => exact hdun hP e
  | add d =>
    unfold step at e
    simp only at e
    split at e
    · exact absurd e (by simp)
    · split at e
      · exact absurd e (by simp)
      · split at e
        · exact absurd e (by simp)
        · exact hdref (misc _ (some d) _ _ (disp d { s.disp d with server := true } s rfl hP)) e
  | remove d =>
    unfold step at e
    simp only at e
    split at e
    · exact absurd e (by simp)
    · split at e
      · cases e; exact hP
      · simp only [Outcome.bind_eq_ok] at e
        obtain ⟨r, hr, e⟩ := e
        cases e
        exact misc r Option.none r.server r.jobs (hdun hP hr)
  | del =>
    unfold step at e
    simp only at e
    split at e
    · exact absurd e (by simp)
    · split at e
      · cases e
        exact misc s Option.none false s.jobs hP
      · simp only [Outcome.bind_eq_ok] at e
        obtain ⟨r, hr, e⟩ := e
        cases e
        exact misc r Option.none false r.jobs (hdun hP hr)
  | feed d i turned room =>
    unfold step feed at e
    simp only at e
    split at e
    · exact absurd e (by simp)
    · split at e
      · exact absurd e (by simp)
      · next hi =>
        split at e
        · exact absurd e (by simp)
        · split at e
          · exact absurd e (by simp)
          · split at e
            · exact hdone hP e
            · next ht =>
              have ht : turned = true := by simpa using ht
              subst ht
              have hat := att d i room rfl s (by simpa using hi) hP
              have job : ∀ {q t : St}, P q → (do
                  let s ← refFb i q
                  Outcome.ok { s with jobs := s.jobs ++ [⟨d, i⟩] } : Outcome St) = .ok t → P t := by
                intro q t hq e
                simp only [Outcome.bind_eq_ok] at e
                obtain ⟨r, hr, e⟩ := e
                cases e
                exact misc r r.current r.server _ (href hq hr)
              cases room with
              | noJob => cases e; exact hP
              | noRecord =>
                simp only at e
                split at e
                · cases e; exact hP
                · exact job hP e
              | noStart => cases e; exact hat
              | enough => exact job hat e
  | finish n =>
    unfold step finish at e
    simp only at e
    split at e
    · cases e; exact hP
    · next j _ =>
      simp only [Outcome.bind_eq_ok] at e
      obtain ⟨r, hr, e⟩ := e
      exact unref j.src r t (hdone (misc s s.current s.server _ hP) hr) e
  | lend d =>
    unfold step at e
    simp only at e
    split at e
    · cases e; exact hP
    · exact href hP e
  | back i => exact unref i s t hP e

/-- what the log says, and what is attached -/
structure Tidy (set : Nat → Option Nat) (s : St) : Prop where
  low : ∀ i, (s.fb i).live = true → i < s.fbs
  dlow : ∀ d, (s.disp d).live = true → d < s.disps
  snone : ∀ i, s.fbs ≤ i → set i = Option.none
  user : ∀ i n, set i = some n → (s.fb i).user = .app n
  clean : ∀ i n, set i = some n → Ev.freed i ∈ s.log → [Ev.freed i, Ev.cleanup n] <:+: s.log
  freed : ∀ i, s.log.count (.freed i) = if i < s.fbs ∧ (s.fb i).live = false then 1 else 0
  gone : ∀ d, s.log.count (.gone d) = if d < s.disps ∧ (s.disp d).live = false then 1 else 0

theorem Tidy.fb {set : Nat → Option Nat} {s : St} (c : Tidy set s) {i : Nat} (f : Fb) (hl : f.live = (s.fb i).live)
    (hu : ∀ n, set i = some n → f.user = (s.fb i).user) : Tidy set (s.setFb i f) := by
  have lv : ∀ j, ((s.setFb i f).fb j).live = (s.fb j).live := by
    intro j
    by_cases h : j = i
    · subst h; simp [St.setFb, hl]
    · simp [St.setFb, h]
  refine ⟨?_, c.dlow, c.snone, ?_, c.clean, ?_, c.gone⟩
  · intro j hj
    rw [lv] at hj
    exact c.low j hj
  · intro j n hj
    by_cases h : j = i
    · subst h
      have := hu n hj
      simp [St.setFb, this, c.user j n hj]
    · simpa [St.setFb, h] using c.user j n hj
  · intro j
    rw [lv]
    exact c.freed j

theorem Tidy.disp {set : Nat → Option Nat} {s : St} (c : Tidy set s) {d : Nat} (p : Disp)
    (hl : p.live = (s.disp d).live) : Tidy set (s.setDisp d p) := by
  have lv : ∀ e, ((s.setDisp d p).disp e).live = (s.disp e).live := by
    intro e
    by_cases h : e = d
    · subst h; simp [St.setDisp, hl]
    · simp [St.setDisp, h]
  refine ⟨c.low, ?_, c.snone, c.user, c.clean, c.freed, ?_⟩
  · intro j hj
    rw [lv] at hj
    exact c.dlow j hj
  · intro j
    rw [lv]
    exact c.gone j

theorem Tidy.free {set : Nat → Option Nat} {s t : St} {i : Nat} (c : Tidy set s) (hl : (s.fb i).live = true)
    (e : freeFb i s = .ok t) : Tidy set t := by
  have hlt := c.low i hl
  have fin : ∀ {r : St}, Tidy set r → (r.fb i).live = true →
      (∀ n, set i = some n → ∃ l, r.log = .cleanup n :: l) →
      Tidy set ((r.setFb i { r.fb i with live := false, ref := 0 }).say (.freed i)) := by
    intro r cr hr hlog
    refine ⟨?_, cr.dlow, cr.snone, ?_, ?_, ?_, ?_⟩
    · intro j hj
      by_cases h : j = i
      · subst h; exact cr.low j hr
      · exact cr.low j (by simpa [St.setFb, St.say, h] using hj)
    · intro j n hj
      have := cr.user j n hj
      by_cases h : j = i
      · subst h; simpa [St.setFb, St.say] using this
      · simpa [St.setFb, St.say, h] using this
    · intro j n hj hm
      by_cases h : j = i
      · subst h
        obtain ⟨l, hl⟩ := hlog n hj
        exact ⟨[], l, by simp [St.say, St.setFb, hl]⟩
      · have hm' : Ev.freed j ∈ r.log := by simpa [St.say, St.setFb, h] using hm
        exact (cr.clean j n hj hm').trans (List.infix_cons (List.infix_refl _))
    · intro j
      have := cr.freed j
      by_cases h : j = i
      · subst h
        have := cr.low j hr
        simp [St.say, St.setFb, *]
      · simp [St.say, St.setFb, h, Ne.symm h, this]
    · intro d
      have := cr.gone d
      simpa [St.say, St.setFb] using this
  unfold freeFb at e
  cases hu : (s.fb i).user with
  | none =>
    simp only [hu, Outcome.bind_ok, Outcome.ok.injEq] at e; subst e
    have := fin c hl (fun n h => by have := c.user i n h; rw [hu] at this; exact absurd this (by simp))
    simpa only [hu] using this
  | app m =>
    simp only [hu, Outcome.bind_ok, Outcome.ok.injEq] at e; subst e
    refine fin (r := s.say (.cleanup m)) ?_ hl ?_
    · refine ⟨c.low, c.dlow, c.snone, c.user, ?_, ?_, ?_⟩
      · intro j n hj hm
        have hm' : Ev.freed j ∈ s.log := by simpa [St.say] using hm
        exact (c.clean j n hj hm').trans (List.infix_cons (List.infix_refl _))
      · intro j
        change (Ev.cleanup m :: s.log).count (Ev.freed j) = _
        rw [List.count_cons_of_ne (by simp)]
        exact c.freed j
      · intro j
        change (Ev.cleanup m :: s.log).count (Ev.gone j) = _
        rw [List.count_cons_of_ne (by simp)]
        exact c.gone j
    · intro n h
      have := c.user i n h
      rw [hu] at this
      cases this
      exact ⟨s.log, rfl⟩
  | side k =>
    simp only [hu, Outcome.bind_eq_ok] at e
    obtain ⟨r, hr, e⟩ := e
    simp at e; subst e
    unfold dropSide at hr
    simp only at hr
    split at hr
    · exact absurd hr (by simp)
    · split at hr
      · exact absurd hr (by simp)
      · cases hr
        have cd := c.disp (d := s.home k) { s.disp (s.home k) with chain := (s.disp (s.home k)).chain.erase k } rfl
        refine fin ⟨cd.low, cd.dlow, cd.snone, cd.user, cd.clean, cd.freed, cd.gone⟩ hl ?_
        intro n h
        have := c.user i n h
        rw [hu] at this
        exact absurd this (by simp)

theorem Tidy.unref {set : Nat → Option Nat} {s t : St} {i : Nat} (c : Tidy set s)
    (e : unrefFb i s = .ok t) : Tidy set t := by
  unfold unrefFb at e
  split at e
  · exact absurd e (by simp)
  · next hl =>
    split at e
    · exact c.free (by simpa using hl) e
    · cases e; exact c.fb _ rfl (fun _ _ => rfl)

theorem Tidy.act {x y : Sess} {o : Op} (c : Tidy x.set x.st) (e : act o x = .ok y) : Tidy y.set y.st := by
  unfold Displays.act at e
  simp only [Outcome.bind_eq_ok] at e
  obtain ⟨t, ht, e⟩ := e
  cases e
  by_cases hset : ∃ i n, o = .setUser i n
  · obtain ⟨i, n, rfl⟩ := hset
    have hl : (x.st.fb i).live = true := by
      unfold step at ht
      simp only at ht
      split at ht
      · exact absurd ht (by simp)
      · next hl => simpa using hl
    have hlt := c.low i hl
    obtain ⟨u, eu, u0, u1⟩ := setUser_ok (n := n) hl
    rw [eu] at ht
    cases ht
    have lv : ∀ j, ((x.st.setFb i { x.st.fb i with user := u }).fb j).live = (x.st.fb j).live := by
      intro j
      by_cases h : j = i
      · subst h; simp [St.setFb]
      · simp [St.setFb, h]
    refine ⟨?_, c.dlow, ?_, ?_, ?_, ?_, c.gone⟩
    · intro j hj
      exact c.low j (by rw [← lv]; exact hj)
    · intro j hj
      have hj' : x.st.fbs ≤ j := hj
      have h : j ≠ i := by omega
      simpa [book, h] using c.snone j hj'
    · intro j m hj
      by_cases h : j = i
      · subst h
        simp only [book, if_true] at hj
        simp [St.setFb, u1 m hj]
      · simp only [book, h, if_false] at hj
        simpa [St.setFb, h] using c.user j m hj
    · intro j m hj hm
      have hm' : Ev.freed j ∈ x.st.log := hm
      by_cases h : j = i
      · subst h
        have := c.freed j
        rw [if_neg (by simp [hl])] at this
        exact absurd hm' (List.count_eq_zero.mp this)
      · simp only [book, h, if_false] at hj
        exact c.clean j m hj hm'
    · intro j
      dsimp only
      rw [lv]
      exact c.freed j
  · have hs : (book o x).set = x.set := by
      unfold book
      split <;> first | rfl | skip
      · exact absurd ⟨_, _, rfl⟩ hset
      · split <;> rfl
    change Tidy (book o x).set t
    rw [hs]
    refine step_closed ht c (fun i s _ h => h.fb _ rfl (fun _ _ => rfl)) (fun i s t h e => h.unref e)
      (fun d p s hp h => h.disp p hp) ?_ (fun s _ _ _ h => ⟨h.low, h.dlow, h.snone, h.user, h.clean, h.freed, h.gone⟩)
      ?_ ?_ ?_ (fun i n h => absurd ⟨i, n, h⟩ hset)
    · intro d s hl h
      have hlt := h.dlow d hl
      refine ⟨h.low, ?_, h.snone, h.user, ?_, ?_, ?_⟩
      · intro e he
        by_cases h' : e = d
        · subst h'; exact hlt
        · exact h.dlow e (by simpa [St.setDisp, St.say, h'] using he)
      · intro j n hj hm
        have hm' : Ev.freed j ∈ s.log := by simpa [St.say, St.setDisp] using hm
        exact (h.clean j n hj hm').trans (List.infix_cons (List.infix_refl _))
      · intro j; simpa [St.say, St.setDisp] using h.freed j
      · intro e
        have := h.gone e
        by_cases h' : e = d
        · subst h'; simp [St.say, St.setDisp, *]
        · simp [St.say, St.setDisp, h', Ne.symm h', this]
    · intro d i r _ s hl h
      unfold attach
      split
      · next hu =>
        have h1 := h.fb (i := i) { s.fb i with user := .side s.sides } rfl (fun n hn => by
          have := h.user i n hn; rw [hu] at this; exact absurd this (by simp))
        have h2 := h1.disp (d := d) { s.disp d with chain := s.sides :: (s.disp d).chain } rfl
        exact ⟨h2.low, h2.dlow, h2.snone, h2.user, h2.clean, h2.freed, h2.gone⟩
      · exact h
    · intro _
      refine ⟨?_, c.dlow, ?_, ?_, c.clean, ?_, c.gone⟩
      · intro i hi
        by_cases h : i = x.st.fbs
        · subst h; exact Nat.lt_succ_self _
        · exact Nat.lt_succ_of_lt (c.low i (by simpa [St.setFb, h] using hi))
      · intro i hi
        have hi' : x.st.fbs + 1 ≤ i := hi
        exact c.snone i (by omega)
      · intro i n hi
        have h : i ≠ x.st.fbs := by
          intro h
          have := c.snone i (by omega)
          rw [hi] at this
          exact absurd this (by simp)
        simpa [St.setFb, h] using c.user i n hi
      · intro i
        have := c.freed i
        by_cases h : i = x.st.fbs
        · subst h
          rw [if_neg (by omega)] at this
          simpa [St.setFb] using this
        · have h' : i < x.st.fbs + 1 ↔ i < x.st.fbs := by omega
          simpa [St.setFb, h, h'] using this
    · intro _
      refine ⟨c.low, ?_, c.snone, c.user, c.clean, c.freed, ?_⟩
      · intro i hi
        by_cases h : i = x.st.disps
        · subst h; exact Nat.lt_succ_self _
        · exact Nat.lt_succ_of_lt (c.dlow i (by simpa [St.setDisp, h] using hi))
      · intro i
        have := c.gone i
        by_cases h : i = x.st.disps
        · subst h
          rw [if_neg (by omega)] at this
          simpa [St.setDisp] using this
        · have h' : i < x.st.disps + 1 ↔ i < x.st.disps := by omega
          simpa [St.setDisp, h, h'] using this

theorem plays_tidy {x : Sess} (h : Plays x) : Tidy x.set x.st := by
  induction h with
  | start => refine ⟨?_, ?_, ?_, ?_, ?_, ?_, ?_⟩ <;> intros <;> simp_all
  | next o _ _ e ih => exact ih.act e

theorem reach_plays {x : Sess} (h : Reach x) : Plays x := by
  induction h with
  | start => exact .start
  | next o _ hl e _ ih => exact .next o ih hl e

/-- every record belongs to a framebuffer, and so does what is attached by the library -/
structure Kept (turned : List (Nat × Nat)) (s : St) : Prop where
  low : ∀ i, (s.fb i).live = true → i < s.fbs
  held : ∀ k, s.held k = true → ∃ i, (s.fb i).live = true ∧ (s.fb i).user = .side k
  mark : ∀ i k, (s.fb i).user = .side k → ∃ d, (d, i) ∈ turned

theorem Kept.act {x y : Sess} {o : Op} (c : Kept x.turned x.st) (e : act o x = .ok y)
    (hs : ∀ i n, o = .setUser i n → ∀ d, (d, i) ∉ x.turned) : Kept y.turned y.st := by
  unfold Displays.act at e
  simp only [Outcome.bind_eq_ok] at e
  obtain ⟨t, ht, e⟩ := e
  cases e
  change Kept (book o x).turned t
  have hsub : ∀ p, p ∈ x.turned → p ∈ (book o x).turned := by
    intro p hp
    unfold book
    split <;> first | exact hp | skip
    · exact List.mem_cons_of_mem _ hp
    · split <;> exact hp
  have keepFb : ∀ {s : St} {i : Nat} (f : Fb), f.live = (s.fb i).live → f.user = (s.fb i).user →
      Kept (book o x).turned s → Kept (book o x).turned (s.setFb i f) := by
    intro s i f hl hu h
    have lv : ∀ j, ((s.setFb i f).fb j).live = (s.fb j).live ∧ ((s.setFb i f).fb j).user = (s.fb j).user := by
      intro j
      by_cases h : j = i
      · subst h; simp [St.setFb, hl, hu]
      · simp [St.setFb, h]
    refine ⟨fun j hj => h.low j (by rw [← (lv j).1]; exact hj), fun k hk => ?_,
      fun j k hj => h.mark j k (by rw [← (lv j).2]; exact hj)⟩
    obtain ⟨j, a, b⟩ := h.held k hk
    exact ⟨j, by rw [(lv j).1]; exact a, by rw [(lv j).2]; exact b⟩
  refine step_closed ht (P := Kept (book o x).turned) ⟨c.low, c.held, fun i k h => ?_⟩ (fun i s _ h => keepFb _ rfl rfl h)
    ?_ (fun d p s _ h => ⟨h.low, h.held, h.mark⟩) (fun d s _ h => ⟨h.low, h.held, h.mark⟩)
    (fun s _ _ _ h => ⟨h.low, h.held, h.mark⟩) ?_ ?_ (fun _ => ⟨c.low, c.held, fun i k h => ?_⟩) ?_
  · obtain ⟨d, h⟩ := c.mark i k h
    exact ⟨d, hsub _ h⟩
  · intro i s t h e
    unfold unrefFb at e
    split at e
    · exact absurd e (by simp)
    · split at e
      · unfold freeFb at e
        obtain ⟨r, et, hr'⟩ : ∃ r : St, t = (r.setFb i { r.fb i with live := false, ref := 0 }).say (.freed i) ∧
            r.fb = s.fb ∧ r.fbs = s.fbs ∧ ∀ k, r.held k = true → s.held k = true ∧ (s.fb i).user ≠ .side k := by
          cases hu : (s.fb i).user with
          | none =>
            simp only [hu, Outcome.bind_ok, Outcome.ok.injEq] at e
            exact ⟨s, by simp only [hu]; exact e.symm, rfl, rfl, by simp⟩
          | app n =>
            simp only [hu, Outcome.bind_ok, Outcome.ok.injEq] at e
            exact ⟨s.say (.cleanup n), e.symm, rfl, rfl, by simp [St.say]⟩
          | side k =>
            simp only [hu, Outcome.bind_eq_ok] at e
            obtain ⟨r, hr, e⟩ := e
            cases e
            refine ⟨r, rfl, ?_⟩
            unfold dropSide at hr
            simp only at hr
            split at hr
            · exact absurd hr (by simp)
            · split at hr
              · exact absurd hr (by simp)
              · cases hr
                refine ⟨rfl, rfl, fun k' hk => ?_⟩
                by_cases h : k' = k
                · simp [h] at hk
                · exact ⟨by simpa [h, St.setDisp] using hk, by simp [Ne.symm h]⟩
        subst et
        obtain ⟨r1, r2, r3⟩ := hr'
        refine ⟨?_, ?_, ?_⟩
        · intro j hj
          have hlt : (s.fb j).live = true := by
            by_cases h' : j = i
            · simp [St.setFb, St.say, h'] at hj
            · simpa [St.setFb, St.say, h', r1] using hj
          have := h.low j hlt
          simpa [St.say, St.setFb, r2] using this
        · intro k hk
          obtain ⟨a, b⟩ := r3 k hk
          obtain ⟨j, ha, hb⟩ := h.held k a
          have h' : j ≠ i := by
            intro h'
            subst h'
            exact b hb
          exact ⟨j, by simp [St.setFb, St.say, h', r1, ha], by simp [St.setFb, St.say, h', r1, hb]⟩
        · intro j k hj
          refine h.mark j k ?_
          by_cases h' : j = i
          · subst h'; simpa [St.setFb, St.say, r1] using hj
          · simpa [St.setFb, St.say, h', r1] using hj
      · cases e; exact keepFb _ rfl rfl h
  · rintro d i r rfl s hl h
    unfold attach
    split
    · next hu =>
      refine ⟨?_, ?_, ?_⟩
      · intro j hj
        refine h.low j ?_
        by_cases h' : j = i
        · subst h'; exact hl
        · simpa [St.setFb, St.setDisp, h'] using hj
      · intro k hk
        by_cases hk' : k = s.sides
        · exact ⟨i, by simp [St.setFb, St.setDisp, hl], by simp [St.setFb, St.setDisp, hk']⟩
        · obtain ⟨j, a, b⟩ := h.held k (by simpa [hk'] using hk)
          have h' : j ≠ i := by
            intro h'
            subst h'
            rw [hu] at b
            exact absurd b (by simp)
          exact ⟨j, by simp [St.setFb, St.setDisp, h', a], by simp [St.setFb, St.setDisp, h', b]⟩
      · intro j k hj
        by_cases h' : j = i
        · subst h'; exact ⟨d, by simp [book]⟩
        · exact h.mark j k (by simpa [St.setFb, St.setDisp, h'] using hj)
    · exact h
  · rintro rfl
    refine ⟨?_, ?_, ?_⟩
    · intro i hi
      by_cases h : i = x.st.fbs
      · subst h; exact Nat.lt_succ_self _
      · exact Nat.lt_succ_of_lt (c.low i (by simpa [St.setFb, h] using hi))
    · intro k hk
      obtain ⟨j, a, b⟩ := c.held k hk
      have h : j ≠ x.st.fbs := by have := c.low j a; omega
      exact ⟨j, by simp [St.setFb, h, a], by simp [St.setFb, h, b]⟩
    · intro j k hj
      by_cases h : j = x.st.fbs
      · simp [St.setFb, h] at hj
      · exact c.mark j k (by simpa [St.setFb, h] using hj)
  · obtain ⟨d, h⟩ := c.mark i k h
    exact ⟨d, hsub _ h⟩
  · rintro i n rfl hl
    have hx := hs i n rfl
    have hu : ∀ k, (x.st.fb i).user ≠ .side k := by
      intro k h
      obtain ⟨d, h⟩ := c.mark i k h
      exact hx d h
    refine ⟨?_, ?_, ?_⟩
    · intro j hj
      by_cases h : j = i
      · subst h; exact c.low j hl
      · exact c.low j (by simpa [St.setFb, h] using hj)
    · intro k hk
      obtain ⟨j, a, b⟩ := c.held k hk
      have h : j ≠ i := by
        intro h
        subst h
        exact hu k b
      exact ⟨j, by simp [St.setFb, h, a], by simp [St.setFb, h, b]⟩
    · intro j k hj
      by_cases h : j = i
      · subst h
        cases n <;> simp [St.setFb] at hj
      · exact c.mark j k (by simpa [St.setFb, h] using hj)

end Verif.Displays
