import Verif.Model.Userdata

/-!
# C117: data that the application attaches are cleaned up once, and not shown afterwards

`cleaned` reads off the calls that the application got which data were handed to a clean-up function; `attached` reads
off its own calls what it attached.  Neither refers to the state of the model.
-/

namespace Verif.Userdata

/-- the data that clean-up functions were called with -/
def cleaned (l : List Ev) : List Nat :=
  l.filterMap fun e => match e with | .clean (some d) => some d | _ => none

/-- the data that the application attached -/
def attached (ops : List Op) : List Nat :=
  ops.filterMap fun o => match o with | .setClient _ c => c.data | .setServer c => c.data | _ => none

@[simp] theorem cleaned_append (a b : List Ev) : cleaned (a ++ b) = cleaned a ++ cleaned b := by
  simp [cleaned]

@[simp] theorem cleaned_nil : cleaned [] = [] := rfl

/-- the data in the hands of the library -/
def heldBy (cs : List Client) : List Nat := cs.filterMap (·.common.data)

def held (s : State) : List Nat :=
  match s.server with
  | none => heldBy s.clients
  | some c => c.data.toList ++ heldBy s.clients

theorem cleaned_cleanUp (c : Common) : (cleaned (cleanUp c)).Sublist c.data.toList := by
  rcases c with ⟨_ | d, _ | _⟩ <;> simp [cleanUp, cleaned]

theorem cleaned_farewell (srv : Option Nat) (c : Client) :
    (cleaned (farewell srv c)).Sublist c.common.data.toList := by
  have : cleaned (farewell srv c) = cleaned (cleanUp c.common) := by
    unfold farewell
    rw [cleaned_append]
    cases c.fn <;> simp [cleaned]
  rw [this]
  exact cleaned_cleanUp c.common

theorem cleaned_flatMap (srv : Option Nat) (cs : List Client) :
    (cleaned (cs.flatMap (farewell srv))).Sublist (heldBy cs) := by
  induction cs with
  | nil => simp [heldBy]
  | cons c cs ih =>
    rw [List.flatMap_cons, cleaned_append]
    have : heldBy (c :: cs) = c.common.data.toList ++ heldBy cs := by
      unfold heldBy
      cases h : c.common.data <;> simp [h]
    rw [this]
    exact (cleaned_farewell srv c).append ih

theorem heldBy_append (a b : List Client) : heldBy (a ++ b) = heldBy a ++ heldBy b := by simp [heldBy]

theorem heldBy_perm {a b : List Client} (h : a.Perm b) : (heldBy a).Perm (heldBy b) := h.filterMap _

/-- numbers of clients are given once -/
def Numbered (s : State) : Prop := (s.clients.map (·.id)).Nodup ∧ ∀ c ∈ s.clients, c.id < s.next

theorem Numbered.step {s : State} (h : Numbered s) (o : Op) : Numbered (step s o) := by
  obtain ⟨srv, cs, n, l⟩ := s
  obtain ⟨hn, hl⟩ := h
  dsimp only at hn hl
  cases srv with
  | none => exact ⟨hn, hl⟩
  | some srv =>
    cases o with
    | connect =>
      refine ⟨?_, ?_⟩
      · dsimp only [Userdata.step, List.map_cons]
        refine List.nodup_cons.mpr ⟨?_, hn⟩
        intro hm
        obtain ⟨c, hc, he⟩ := List.mem_map.mp hm
        have := hl c hc
        dsimp only at he
        omega
      · intro c hc
        dsimp only [Userdata.step] at hc ⊢
        rcases List.mem_cons.mp hc with rfl | hc
        · simp
        · have := hl c hc
          omega
    | call i => exact ⟨hn, hl⟩
    | setServer d => exact ⟨hn, hl⟩
    | setClient i d =>
      refine ⟨?_, ?_⟩
      · dsimp only [Userdata.step]
        rw [List.map_map]
        have : ((fun x : Client => x.id) ∘ fun c : Client => if c.id = i then { c with common := d } else c)
            = fun x => x.id := by
          funext c
          dsimp only [Function.comp]
          split <;> rfl
        rw [this]
        exact hn
      · intro c hc
        dsimp only [Userdata.step] at hc ⊢
        obtain ⟨x, hx, rfl⟩ := List.mem_map.mp hc
        have := hl x hx
        split <;> exact this
    | setFn i d =>
      refine ⟨?_, ?_⟩
      · dsimp only [Userdata.step]
        rw [List.map_map]
        have : ((fun x : Client => x.id) ∘ fun c : Client => if c.id = i then { c with fn := d } else c)
            = fun x => x.id := by
          funext c
          dsimp only [Function.comp]
          split <;> rfl
        rw [this]
        exact hn
      · intro c hc
        dsimp only [Userdata.step] at hc ⊢
        obtain ⟨x, hx, rfl⟩ := List.mem_map.mp hc
        have := hl x hx
        split <;> exact this
    | close i =>
      refine ⟨?_, fun c hc => hl c (List.mem_filter.mp hc).1⟩
      exact hn.sublist (List.Sublist.map _ List.filter_sublist)
    | del => exact ⟨List.nodup_nil, fun c hc => by cases hc⟩

/-- the data that are held or have been cleaned up are all different, and were all attached -/
def Kept (U : List Nat) (s : State) : Prop :=
  (held s ++ cleaned s.log).Nodup ∧ ∀ d ∈ held s ++ cleaned s.log, d ∈ U

theorem Kept.sub {U : List Nat} {s t : State} (h : Kept U s)
    (hs : ∃ l, (held s ++ cleaned s.log).Perm l ∧ (held t ++ cleaned t.log).Sublist l) : Kept U t := by
  obtain ⟨l, hp, hs⟩ := hs
  exact ⟨(hp.nodup_iff.mp h.1).sublist hs, fun d hd => h.2 d (hp.mem_iff.mpr (hs.subset hd))⟩

/-- what the data become when one client's are replaced -/
theorem heldBy_set {cs : List Client} {i : Nat} (d : Common) (hn : (cs.map (·.id)).Nodup) :
    (heldBy (cs.map fun c => if c.id = i then { c with common := d } else c)).Sublist
      (heldBy cs) ∨
    ∃ a b, (heldBy (cs.map fun c => if c.id = i then { c with common := d } else c)) = a ++ d.data.toList ++ b ∧
      (a ++ b).Sublist (heldBy cs) := by
  induction cs with
  | nil => left; simp [heldBy]
  | cons c cs ih =>
    rw [List.map_cons] at hn
    obtain ⟨hc, hn⟩ := List.nodup_cons.mp hn
    by_cases hi : c.id = i
    · right
      have hrest : (cs.map fun c => if c.id = i then { c with common := d } else c) = cs := by
        conv => rhs; rw [← List.map_id cs]
        refine List.map_congr_left fun x hx => ?_
        rw [if_neg ?_]
        · rfl
        · intro hxi
          exact hc (List.mem_map.mpr ⟨x, hx, by rw [hxi, hi]⟩)
      refine ⟨[], heldBy cs, ?_, ?_⟩
      · rw [List.map_cons, hrest, if_pos hi]
        unfold heldBy
        cases hd : d.data <;> simp [hd]
      · have : heldBy (c :: cs) = c.common.data.toList ++ heldBy cs := by
          unfold heldBy
          cases h : c.common.data <;> simp [h]
        rw [this]
        exact List.sublist_append_right _ _
    · have e1 : heldBy (c :: cs) = c.common.data.toList ++ heldBy cs := by
        unfold heldBy
        cases h : c.common.data <;> simp [h]
      have e2 : heldBy ((c :: cs).map fun c => if c.id = i then { c with common := d } else c)
          = c.common.data.toList
            ++ heldBy (cs.map fun c => if c.id = i then { c with common := d } else c) := by
        rw [List.map_cons, if_neg hi]
        unfold heldBy
        cases h : c.common.data <;> simp [h]
      rw [e1, e2]
      rcases ih hn with h | ⟨a, b, he, hs⟩
      · left
        exact (List.append_sublist_append_left _).mpr h
      · right
        refine ⟨c.common.data.toList ++ a, b, by rw [he]; simp, ?_⟩
        rw [List.append_assoc]
        exact (List.append_sublist_append_left _).mpr hs

theorem nodup_insert {a b r : List Nat} {l : List Nat} {d : Option Nat} (hs : (a ++ b).Sublist l)
    (hn : (l ++ r).Nodup) (hd : ∀ x, d = some x → x ∉ l ++ r) :
    ((a ++ d.toList ++ b) ++ r).Nodup := by
  have h1 : ((a ++ b) ++ r).Nodup := hn.sublist (hs.append (List.Sublist.refl r))
  have hp : ((a ++ d.toList ++ b) ++ r).Perm (d.toList ++ ((a ++ b) ++ r)) := by
    simp only [List.append_assoc]
    exact List.perm_append_comm_assoc _ _ _
  rw [hp.nodup_iff]
  cases d with
  | none => exact h1
  | some x =>
    refine List.nodup_cons.mpr ⟨fun hm => hd x rfl ?_, h1⟩
    have hm : x ∈ (a ++ b) ++ r := by simpa using hm
    rcases List.mem_append.mp hm with h | h
    · exact List.mem_append_left _ (hs.subset h)
    · exact List.mem_append_right _ h

theorem Kept.step {U : List Nat} {s : State} (h : Kept U s) (hid : Numbered s) (o : Op)
    (hf : ∀ d ∈ attached [o], d ∉ U) : Kept (U ++ attached [o]) (step s o) := by
  have hw : Kept (U ++ attached [o]) s := ⟨h.1, fun d hd => List.mem_append_left _ (h.2 d hd)⟩
  obtain ⟨srv, cs, n, l⟩ := s
  cases srv with
  | none => exact hw
  | some srv =>
    cases o with
    | connect => exact hw
    | call i =>
      have : cleaned ((cs.filter (·.id == i)).map fun c => Ev.called i c.common.data srv.data) = [] := by
        unfold cleaned
        rw [List.filterMap_map]
        exact List.filterMap_eq_nil_iff.mpr fun x _ => rfl
      refine hw.sub ⟨_, List.Perm.refl _, ?_⟩
      dsimp only [Userdata.step, held]
      rw [cleaned_append, this, List.append_nil]
      exact List.Sublist.refl _
    | setServer d =>
      have hd : ∀ x, d.data = some x → x ∉ (heldBy cs ++ cleaned l) := by
        intro x hx hm
        refine hf x (by simp [attached, hx]) (h.2 x ?_)
        dsimp only [held]
        rw [List.append_assoc]
        exact List.mem_append_right _ hm
      have hn : (heldBy cs ++ cleaned l).Nodup := by
        have := h.1
        dsimp only [held] at this
        rw [List.append_assoc] at this
        exact this.sublist (List.sublist_append_right _ _)
      refine ⟨?_, ?_⟩
      · dsimp only [Userdata.step, held]
        exact nodup_insert (a := []) (b := heldBy cs) (List.Sublist.refl _) hn hd
      · intro x hx
        dsimp only [Userdata.step, held] at hx
        rw [List.append_assoc] at hx
        rcases List.mem_append.mp hx with hx | hx
        · refine List.mem_append_right _ ?_
          have : d.data = some x := by simpa using hx
          simp [attached, this]
        · refine List.mem_append_left _ (h.2 x ?_)
          dsimp only [held]
          rw [List.append_assoc]
          exact List.mem_append_right _ hx
    | setClient i d =>
      rcases heldBy_set (i := i) d hid.1 with hs | ⟨a, b, he, hs⟩
      · refine hw.sub ⟨_, List.Perm.refl _, ?_⟩
        dsimp only [Userdata.step, held]
        exact ((List.append_sublist_append_left _).mpr hs).append (List.Sublist.refl _)
      · have hd : ∀ x, d.data = some x → x ∉ ((srv.data.toList ++ heldBy cs) ++ cleaned l) := by
          intro x hx hm
          exact hf x (by simp [attached, hx]) (h.2 x hm)
        refine ⟨?_, ?_⟩
        · dsimp only [Userdata.step, held]
          rw [he, ← List.append_assoc, ← List.append_assoc]
          refine nodup_insert (a := srv.data.toList ++ a) (b := b) ?_ h.1 hd
          rw [List.append_assoc]
          exact (List.append_sublist_append_left _).mpr hs
        · intro x hx
          dsimp only [Userdata.step, held] at hx
          rw [he] at hx
          by_cases hdx : d.data = some x
          · refine List.mem_append_right _ ?_
            simp [attached, hdx]
          · refine List.mem_append_left _ (h.2 x ?_)
            dsimp only [held]
            have hsub : ∀ y, y ∈ a ∨ y ∈ b → y ∈ heldBy cs := fun y hy => hs.subset (List.mem_append.mpr hy)
            have hnd : x ∉ d.data.toList := by simpa using hdx
            simp only [List.mem_append] at hx ⊢
            rcases hx with (hx | (hx | hx) | hx) | hx
            · exact .inl (.inl hx)
            · exact .inl (.inr (hsub x (.inl hx)))
            · exact absurd hx hnd
            · exact .inl (.inr (hsub x (.inr hx)))
            · exact .inr hx
    | setFn i b =>
      refine hw.sub ⟨_, List.Perm.refl _, ?_⟩
      have : heldBy (cs.map fun c => if c.id = i then { c with fn := b } else c) = heldBy cs := by
        unfold heldBy
        rw [List.filterMap_map]
        congr 1
        funext c
        dsimp only [Function.comp]
        split <;> rfl
      dsimp only [Userdata.step, held]
      rw [this]
      exact List.Sublist.refl _
    | close i =>
      have hp : (cs.filter (·.id == i) ++ cs.filter (fun c => !(c.id == i))).Perm cs :=
        List.filter_append_perm _ cs
      have e : cs.filter (fun c => !(c.id == i)) = cs.filter (·.id != i) := rfl
      rw [e] at hp
      refine hw.sub ⟨srv.data.toList ++ heldBy (cs.filter (·.id != i)) ++ (cleaned l
        ++ heldBy (cs.filter (·.id == i))), ?_, ?_⟩
      · dsimp only [held]
        have h1 := heldBy_perm hp.symm
        rw [heldBy_append] at h1
        refine ((h1.append_left _).append_right _).trans ?_
        simp only [List.append_assoc]
        refine List.Perm.append_left _ ?_
        refine List.perm_append_comm.trans ?_
        simp only [List.append_assoc]
        exact List.Perm.refl _
      · dsimp only [Userdata.step, held]
        rw [cleaned_append]
        exact (List.append_sublist_append_left _).mpr
          ((List.append_sublist_append_left _).mpr (cleaned_flatMap _ _))
    | del =>
      refine hw.sub ⟨cleaned l ++ (srv.data.toList ++ heldBy cs), List.perm_append_comm, ?_⟩
      dsimp only [Userdata.step, held]
      rw [cleaned_append, cleaned_append, List.append_assoc]
      show (cleaned l ++ _).Sublist (cleaned l ++ _)
      exact (List.append_sublist_append_left _).mpr ((cleaned_cleanUp _).append (cleaned_flatMap _ _))

theorem attached_append (a b : List Op) : attached (a ++ b) = attached a ++ attached b := by simp [attached]

/-- both hold all along -/
theorem foldl_kept (ops : List Op) : ∀ s U, Kept U s → Numbered s → (∀ d ∈ U, d ∉ attached ops) →
    (attached ops).Nodup → Kept (U ++ attached ops) (ops.foldl step s) ∧ Numbered (ops.foldl step s) := by
  induction ops with
  | nil => intro s U h hid _ _; exact ⟨by simpa [attached] using h, hid⟩
  | cons o ops ih =>
    intro s U h hid hu hn
    have e : attached (o :: ops) = attached [o] ++ attached ops := attached_append [o] ops
    rw [e] at hu hn
    rw [e, ← List.append_assoc]
    obtain ⟨_, hn2, hdis⟩ := List.nodup_append.mp hn
    refine ih _ _ (h.step hid o ?_) (hid.step o) ?_ hn2
    · intro d hd hU
      exact hu d hU (List.mem_append_left _ hd)
    · intro d hd hm
      rcases List.mem_append.mp hd with hd | hd
      · exact hu d hd (List.mem_append_right _ hm)
      · exact hdis d hd d hm rfl

theorem run_kept (ops : List Op) (hn : (attached ops).Nodup) :
    Kept (attached ops) (run ops) ∧ Numbered (run ops) := by
  have := foldl_kept ops {} [] ⟨by simp [held, heldBy], by simp [held, heldBy]⟩ ⟨by simp, by simp⟩ (by simp) hn
  simpa [run] using this

/-- **C117**, nothing is cleaned up twice, nor what was not attached: whatever the application attaches and whenever it
does, if it does not attach the same data in two places, no clean-up function is called twice for the same data. -/
theorem c117_once (ops : List Op) (hn : (attached ops).Nodup) :
    (cleaned (run ops).log).Nodup ∧ ∀ d ∈ cleaned (run ops).log, d ∈ attached ops := by
  have h := (run_kept ops hn).1
  exact ⟨h.1.sublist (List.sublist_append_right _ _), fun d hd => h.2 d (List.mem_append_right _ hd)⟩

/-- two clients with data, one that goes by itself and one that the end of the server takes with it -/
example : (cleaned (run [.connect, .setServer ⟨some 9, true⟩, .setClient 0 ⟨some 1, true⟩, .connect,
    .setClient 1 ⟨some 2, true⟩, .call 1, .close 0, .del]).log) = [1, 9, 2] := by decide +kernel

/-- what is attached: a client, or the server -/
inductive Target where
  | client (i : Nat)
  | server
  deriving DecidableEq, Repr

/-- the call that attaches data with a clean-up function -/
def Target.attach : Target → Nat → Op
  | .client i, d => .setClient i ⟨some d, true⟩
  | .server, d => .setServer ⟨some d, true⟩

/-- an operation attaches something there -/
def Op.attaches : Op → Target → Bool
  | .setClient i _, .client j => i == j
  | .setServer _, .server => true
  | _, _ => false

/-- it is there -/
def Target.alive (s : State) : Target → Bool
  | .client i => s.clients.any (·.id == i)
  | .server => s.server.isSome

/-- the data are there, with a clean-up function, or have been cleaned up -/
def Safe (t : Target) (d : Nat) (s : State) : Prop :=
  (match t with
    | .client i => ∃ c ∈ s.clients, c.id = i ∧ c.common = ⟨some d, true⟩
    | .server => s.server = some ⟨some d, true⟩) ∨ d ∈ cleaned s.log

theorem cleaned_farewell_mem {srv : Option Nat} {d : Nat} {c : Client} {cs : List Client} (hc : c ∈ cs)
    (hd : c.common = ⟨some d, true⟩) : d ∈ cleaned (cs.flatMap (farewell srv)) := by
  unfold cleaned
  refine List.mem_filterMap.mpr ⟨.clean (some d), List.mem_flatMap.mpr ⟨c, hc, ?_⟩, rfl⟩
  unfold farewell cleanUp
  simp [hd]

theorem Safe.step {t : Target} {d : Nat} {s : State} (h : Safe t d s) {o : Op} (ho : o.attaches t = false) : Safe t d (step s o) := by
  rcases h with h | h
  · obtain ⟨srv, cs, n, l⟩ := s
    cases srv with
    | none => exact .inl h
    | some srv =>
      cases t with
      | server =>
        have hs : srv = ⟨some d, true⟩ := Option.some.inj h
        subst hs
        cases o with
        | setServer c => exact absurd ho (by simp [Op.attaches])
        | del => right; simp [Userdata.step, cleaned, cleanUp]
        | _ => exact .inl rfl
      | client i =>
        obtain ⟨c, hc, hi, hd⟩ := h
        dsimp only at hc
        cases o with
        | setClient j e =>
          left
          refine ⟨c, List.mem_map.mpr ⟨c, hc, if_neg ?_⟩, hi, hd⟩
          intro hj
          simp [Op.attaches, ← hj, hi] at ho
        | setFn j b =>
          left
          by_cases hj : c.id = j
          · exact ⟨{ c with fn := b }, List.mem_map.mpr ⟨c, hc, if_pos hj⟩, hi, hd⟩
          · exact ⟨c, List.mem_map.mpr ⟨c, hc, if_neg hj⟩, hi, hd⟩
        | connect => exact .inl ⟨c, List.mem_cons_of_mem _ hc, hi, hd⟩
        | close j =>
          by_cases hj : c.id = j
          · right
            dsimp only [Userdata.step]
            rw [cleaned_append]
            exact List.mem_append_right _
              (cleaned_farewell_mem (List.mem_filter.mpr ⟨hc, by simp [hj]⟩) hd)
          · exact .inl ⟨c, List.mem_filter.mpr ⟨hc, by simp [hj]⟩, hi, hd⟩
        | del =>
          right
          dsimp only [Userdata.step]
          rw [cleaned_append]
          exact List.mem_append_right _ (cleaned_farewell_mem hc hd)
        | call j => exact .inl ⟨c, hc, hi, hd⟩
        | setServer e => exact .inl ⟨c, hc, hi, hd⟩
  · right
    obtain ⟨srv, cs, n, l⟩ := s
    cases srv with
    | none => exact h
    | some srv =>
      have h' : d ∈ cleaned l := h
      cases o <;> simp only [Userdata.step, cleaned_append, List.mem_append] <;> simp only [h', true_or]

/-- no client outlasts the server -/
theorem run_empty (ops : List Op) : (run ops).server = none → (run ops).clients = [] := by
  suffices H : ∀ (ops : List Op) (s : State), (s.server = none → s.clients = []) →
      (ops.foldl step s).server = none → (ops.foldl step s).clients = [] from H ops {} (fun h => by cases h)
  intro ops
  induction ops with
  | nil => intro s h; exact h
  | cons o ops ih =>
    intro s h
    refine ih _ ?_
    obtain ⟨srv, cs, n, l⟩ := s
    cases srv with
    | none => exact h
    | some srv => cases o <;> simp [Userdata.step]

/-- data that were attached and that neither were replaced nor cleaned up are there -/
theorem attached_safe (pre mid : List Op) (t : Target) (d : Nat) (ht : t.alive (run pre) = true)
    (hp : ∀ o ∈ mid, o.attaches t = false) : Safe t d (run (pre ++ t.attach d :: mid)) := by
  have hrun : run (pre ++ t.attach d :: mid) = mid.foldl step (step (run pre) (t.attach d)) := by
    simp [run]
  have h0 : Safe t d (step (run pre) (t.attach d)) := by
    have he := run_empty pre
    generalize run pre = s at ht he
    obtain ⟨srv, cs, n, l⟩ := s
    cases srv with
    | none =>
      cases t with
      | server => simp [Target.alive] at ht
      | client i =>
        have : cs = [] := he rfl
        subst this
        simp [Target.alive] at ht
    | some srv =>
      left
      cases t with
      | server => rfl
      | client i =>
        simp only [Target.alive, List.any_eq_true, beq_iff_eq] at ht
        obtain ⟨c, hc, hi⟩ := ht
        exact ⟨{ c with common := ⟨some d, true⟩ }, List.mem_map.mpr ⟨c, hc, if_pos hi⟩, hi, rfl⟩
  have hsafe : ∀ (post : List Op) s, (∀ o ∈ post, o.attaches t = false) → Safe t d s →
      Safe t d (post.foldl step s) := by
    intro post
    induction post with
    | nil => intro s _ h; exact h
    | cons o post ih =>
      intro s ho h
      exact ih _ (fun o' h' => ho o' (List.mem_cons_of_mem _ h')) (h.step (ho o List.mem_cons_self))
  rw [hrun]
  exact hsafe mid _ hp h0

/-- **C117**, everything is cleaned up: what the application attaches to the server or to a client, with a clean-up
function, and does not replace, has been cleaned up exactly once when the server or the client is gone.  Partial:
data that are replaced are not cleaned up (`c117_replaced_violated`). -/
theorem c117_cleaned_partial (pre post : List Op) (t : Target) (d : Nat) (ht : t.alive (run pre) = true)
    (hp : ∀ o ∈ post, o.attaches t = false) (hn : (attached (pre ++ t.attach d :: post)).Nodup)
    (hgone : t.alive (run (pre ++ t.attach d :: post)) = false) :
    (cleaned (run (pre ++ t.attach d :: post)).log).count d = 1 := by
  have h := attached_safe pre post t d ht hp
  have hm : d ∈ cleaned (run (pre ++ t.attach d :: post)).log := by
    rcases h with h | h
    · exfalso
      cases t with
      | server => simp [Target.alive, h] at hgone
      | client i =>
        obtain ⟨c, hc, hi, _⟩ := h
        simp only [Target.alive, List.any_eq_false, beq_iff_eq] at hgone
        exact hgone c hc hi
    · exact h
  have h1 := (List.nodup_iff_count.mp (c117_once _ hn).1) d
  have h2 := List.count_pos_iff.mpr hm
  omega

/-- the second of two clients keeps its data until the server goes -/
example : (cleaned (run ([.connect, .connect] ++ Target.attach (.client 1) 5
    :: [.setServer ⟨some 3, false⟩, .call 1, .setClient 0 ⟨some 6, true⟩, .close 0, .del])).log).count 5 = 1 :=
  c117_cleaned_partial _ _ (.client 1) 5 (by decide +kernel) (by decide +kernel) (by decide +kernel)
    (by decide +kernel)

theorem held_unique {cs : List Client} {d : Nat} (hn : (heldBy cs).Nodup) {x y : Client} (hx : x ∈ cs) (hy : y ∈ cs)
    (dx : x.common.data = some d) (dy : y.common.data = some d) : x = y := by
  induction cs with
  | nil => cases hx
  | cons c cs ih =>
    have e : heldBy (c :: cs) = c.common.data.toList ++ heldBy cs := by
      unfold heldBy
      cases h : c.common.data <;> simp [h]
    rw [e] at hn
    obtain ⟨_, h2, h3⟩ := List.nodup_append.mp hn
    have hin : ∀ z ∈ cs, z.common.data = some d → d ∈ heldBy cs := fun z hz dz =>
      List.mem_filterMap.mpr ⟨z, hz, dz⟩
    rcases List.mem_cons.mp hx with ex | hx' <;> rcases List.mem_cons.mp hy with ey | hy'
    · rw [ex, ey]
    · exact absurd rfl (h3 d (by simp [← ex, dx]) d (hin y hy' dy))
    · exact absurd rfl (h3 d (by simp [← ey, dy]) d (hin x hx' dx))
    · exact ih h2 hx' hy'

/-- **C117** fails for data that are replaced: nvnc_set_userdata forgets the clean-up function that it overwrites.
Whatever happened before and whatever follows, data that have not been cleaned up when others take their place never
are. -/
theorem c117_replaced_violated (pre mid post : List Op) (t : Target) (d : Nat) (e : Nat)
    (ht : t.alive (run pre) = true) (hp : ∀ o ∈ mid, o.attaches t = false)
    (hd : d ∉ cleaned (run (pre ++ t.attach d :: mid)).log)
    (hn : (attached ((pre ++ t.attach d :: mid) ++ t.attach e :: post)).Nodup) :
    d ∉ cleaned (run ((pre ++ t.attach d :: mid) ++ t.attach e :: post)).log := by
  have hs := attached_safe pre mid t d ht hp
  rw [attached_append] at hn
  obtain ⟨hn1, hn2, hdis⟩ := List.nodup_append.mp hn
  obtain ⟨hk, hid⟩ := run_kept _ hn1
  have hda : d ∈ attached (pre ++ t.attach d :: mid) := by
    rw [attached_append]
    refine List.mem_append_right _ ?_
    cases t <;> simp [attached, Target.attach]
  have hpe : attached (t.attach e :: post) = e :: attached post := by
    cases t <;> simp [attached, Target.attach]
  rw [hpe] at hn2 hdis
  have hde : d ≠ e := hdis d hda e List.mem_cons_self
  have hrun : run ((pre ++ t.attach d :: mid) ++ t.attach e :: post)
      = post.foldl step (step (run (pre ++ t.attach d :: mid)) (t.attach e)) := by
    simp [run]
  rw [hrun]
  have hemp := run_empty (pre ++ t.attach d :: mid)
  generalize run (pre ++ t.attach d :: mid) = s at *
  have hs := hs.resolve_right hd
  have he : attached [t.attach e] = [e] := by cases t <;> simp [attached, Target.attach]
  have hk1 := hk.step hid (t.attach e) (by
    rw [he]
    intro x hx hm
    rw [List.mem_singleton.mp hx] at hm
    exact hdis e hm e List.mem_cons_self rfl)
  have hid1 := hid.step (t.attach e)
  -- what is held and has been cleaned up does not contain `d`
  have hno : d ∉ held (step s (t.attach e)) ++ cleaned (step s (t.attach e)).log := by
    obtain ⟨srv, cs, n, l⟩ := s
    have hn0 := hk.1
    cases t with
    | server =>
      have hsrv : srv = some ⟨some d, true⟩ := hs
      subst hsrv
      dsimp only [held] at hn0
      rw [List.append_assoc] at hn0
      have := (List.nodup_append.mp hn0).2.2 d (by simp)
      simp only [Target.attach, Userdata.step, held, List.mem_append]
      rintro ((hm | hm) | hm)
      · simp at hm
        exact hde hm
      · exact this d (List.mem_append_left _ hm) rfl
      · exact hd hm
    | client i =>
      obtain ⟨c, hc, hi, hcd⟩ := hs
      dsimp only at hc
      cases srv with
      | none =>
        have : cs = [] := hemp rfl
        subst this
        cases hc
      | some srv =>
        dsimp only [held] at hn0
        rw [List.append_assoc] at hn0
        obtain ⟨_, h2, h3⟩ := List.nodup_append.mp hn0
        have hheld : d ∈ heldBy cs := List.mem_filterMap.mpr ⟨c, hc, by rw [hcd]⟩
        simp only [Target.attach, Userdata.step, held, List.mem_append]
        rintro ((hm | hm) | hm)
        · exact h3 d hm d (List.mem_append_left _ hheld) rfl
        · obtain ⟨x', hx', hxd⟩ := List.mem_filterMap.mp hm
          obtain ⟨x, hx, rfl⟩ := List.mem_map.mp hx'
          by_cases hxi : x.id = i
          · rw [if_pos hxi] at hxd
            exact hde (Option.some.inj hxd).symm
          · rw [if_neg hxi] at hxd
            have := held_unique (List.nodup_append.mp h2).1 hx hc hxd (by rw [hcd])
            rw [this] at hxi
            exact hxi hi
        · exact hd hm
  have hfin := foldl_kept post _ (held (step s (t.attach e)) ++ cleaned (step s (t.attach e)).log)
    ⟨hk1.1, fun x hx => hx⟩ hid1 (by
      intro x hx hm
      have := hk1.2 x hx
      rw [he] at this
      rcases List.mem_append.mp this with h | h
      · exact hdis x h x (List.mem_cons_of_mem _ hm) rfl
      · rw [List.mem_singleton.mp h] at hm
        exact (List.nodup_cons.mp hn2).1 hm) (List.nodup_cons.mp hn2).2
  intro hm
  rcases List.mem_append.mp (hfin.1.2 d (List.mem_append_right _ hm)) with h | h
  · exact hno h
  · exact hdis d hda d (List.mem_cons_of_mem _ h) rfl

/-- data of the server that are replaced while a client is there -/
example : (5 : Nat) ∉ cleaned (run (([.connect] ++ Target.attach .server 5 :: [.call 0])
    ++ Target.attach .server 6 :: [.call 0, .del])).log :=
  c117_replaced_violated _ _ _ .server 5 6 (by decide +kernel) (by decide +kernel) (by decide +kernel)
    (by decide +kernel)

/-- what was said about all that was called for so far -/
def Shown (l : List Ev) : Prop :=
  ∀ p i mine srv q, l = p ++ .called i mine srv :: q →
    (∀ d, mine = some d → d ∉ cleaned p) ∧ ∀ d, srv = some d → d ∉ cleaned p

theorem Shown.nil : Shown [] := fun p i m v q h => by simp at h

theorem Shown.append {l e : List Ev} (h : Shown l)
    (he : ∀ i m v, Ev.called i m v ∈ e → (∀ d, m = some d → d ∉ cleaned (l ++ e)) ∧
      ∀ d, v = some d → d ∉ cleaned (l ++ e)) : Shown (l ++ e) := by
  intro p i m v q hpq
  rcases List.append_eq_append_iff.mp hpq.symm with ⟨a, hl, hr⟩ | ⟨a, hl, hr⟩
  · cases a with
    | nil =>
      simp at hl hr
      have := he i m v (by rw [← hr]; exact List.mem_cons_self)
      subst hl
      refine ⟨fun d hd hc => this.1 d hd ?_, fun d hd hc => this.2 d hd ?_⟩ <;>
        (rw [cleaned_append]; exact List.mem_append_left _ hc)
    | cons x a =>
      have hx := (List.cons.inj hr).1
      subst hx
      exact h p i m v a hl
  · have := he i m v (by rw [hr]; exact List.mem_append_right _ List.mem_cons_self)
    have hsub : ∀ d, d ∈ cleaned p → d ∈ cleaned (l ++ e) := by
      intro d hd
      rw [hl] at hd
      rw [hr]
      simp only [cleaned_append, List.mem_append] at hd ⊢
      rcases hd with hd | hd
      · exact .inl hd
      · exact .inr (.inl hd)
    exact ⟨fun d hd hc => this.1 d hd (hsub d hc), fun d hd hc => this.2 d hd (hsub d hc)⟩

theorem not_called_farewell {srv : Option Nat} {cs : List Client} {i : Nat} {m v : Option Nat} :
    Ev.called i m v ∉ cs.flatMap (farewell srv) := by
  intro h
  obtain ⟨c, _, hc⟩ := List.mem_flatMap.mp h
  unfold farewell cleanUp at hc
  cases hb : c.common.clean <;> cases hf : c.fn <;> simp [hb, hf] at hc

theorem Shown.step {U : List Nat} {s : State} (h : Shown s.log) (hk : Kept U s) (o : Op) :
    Shown (step s o).log := by
  obtain ⟨srv, cs, n, l⟩ := s
  cases srv with
  | none => exact h
  | some srv =>
    have hdis := (List.nodup_append.mp hk.1).2.2
    cases o with
    | call i =>
      dsimp only [Userdata.step]
      have hc0 : cleaned ((cs.filter (·.id == i)).map fun c => Ev.called i c.common.data srv.data) = [] := by
        unfold cleaned
        rw [List.filterMap_map]
        exact List.filterMap_eq_nil_iff.mpr fun x _ => rfl
      refine h.append ?_
      intro j m v hm
      obtain ⟨c, hc, he⟩ := List.mem_map.mp hm
      injection he with e1 e2 e3
      subst e1 e2 e3
      rw [cleaned_append, hc0, List.append_nil]
      refine ⟨fun d hd hcl => hdis d ?_ d hcl rfl, fun d hd hcl => hdis d ?_ d hcl rfl⟩
      · exact List.mem_append_right _ (List.mem_filterMap.mpr ⟨c, (List.mem_filter.mp hc).1, hd⟩)
      · refine List.mem_append_left _ ?_
        rw [hd]
        exact List.mem_singleton.mpr rfl
    | close i =>
      exact h.append fun j m v hm => absurd hm not_called_farewell
    | del =>
      dsimp only [Userdata.step]
      rw [List.append_assoc]
      refine h.append fun j m v hm => ?_
      rcases List.mem_append.mp hm with hm | hm
      · unfold cleanUp at hm
        split at hm <;> simp at hm
      · exact absurd hm not_called_farewell
    | _ => exact h

/-- **C117**, what callbacks are shown: in every callback that a client causes, nvnc_get_userdata gives, for the client
and for the server, data that have not been cleaned up.  Partial: the function of nvnc_set_client_cleanup_fn is left
out (`c117_close_violated`, `c117_del_violated`). -/
theorem c117_shown_partial (ops : List Op) (hn : (attached ops).Nodup) (p q : List Ev) (i : Nat)
    (mine srv : Option Nat) (hl : (run ops).log = p ++ .called i mine srv :: q) :
    (∀ d, mine = some d → d ∉ cleaned p) ∧ ∀ d, srv = some d → d ∉ cleaned p := by
  suffices H : ∀ (ops : List Op) s U, Kept U s → Numbered s → (∀ d ∈ U, d ∉ attached ops) →
      (attached ops).Nodup → Shown s.log → Shown (ops.foldl step s).log from
    H ops {} [] ⟨by simp [held, heldBy], by simp [held, heldBy]⟩ ⟨by simp, by simp⟩ (by simp) hn Shown.nil
      p i mine srv q hl
  intro ops
  induction ops with
  | nil => intro s U _ _ _ _ h; exact h
  | cons o ops ih =>
    intro s U hk hid hu hn h
    have e : attached (o :: ops) = attached [o] ++ attached ops := attached_append [o] ops
    rw [e] at hu hn
    obtain ⟨_, hn2, hdis⟩ := List.nodup_append.mp hn
    refine ih _ _ (hk.step hid o ?_) (hid.step o) ?_ hn2 (h.step hk o)
    · intro d hd hU
      exact hu d hU (List.mem_append_left _ hd)
    · intro d hd hm
      rcases List.mem_append.mp hd with hd | hd
      · exact hu d hd (List.mem_append_right _ hm)
      · exact hdis d hd d hm rfl

/-- a callback between the ends of two clients -/
example : (run [.connect, .setServer ⟨some 9, true⟩, .setClient 0 ⟨some 1, true⟩, .connect,
    .setClient 1 ⟨some 2, true⟩, .close 0, .call 1, .del]).log
    = [.clean (some 1)] ++ .called 1 (some 2) (some 9) :: [.clean (some 9), .clean (some 2)] := by decide +kernel

/-- **C117** fails where clients are closed: client_close cleans the data of the client up before it calls the function
of nvnc_set_client_cleanup_fn.  Whatever has happened, for every client that has both, that function is shown data that
have just been cleaned up. -/
theorem c117_close_violated (ops : List Op) (c : Client) (d : Nat) (srv : Common)
    (hs : (run ops).server = some srv) (hc : c ∈ (run ops).clients) (hd : c.common = ⟨some d, true⟩)
    (hf : c.fn = true) :
    ∃ p q, (run (ops ++ [.close c.id])).log = p ++ [.clean (some d), .bye c.id (some d) srv.data] ++ q := by
  have hr : run (ops ++ [.close c.id]) = step (run ops) (.close c.id) := by simp [run]
  rw [hr]
  generalize run ops = s at *
  obtain ⟨sv, cs, n, l⟩ := s
  dsimp only at hs hc
  subst hs
  have hm : c ∈ cs.filter (·.id == c.id) := List.mem_filter.mpr ⟨hc, by simp⟩
  obtain ⟨a, b, hab⟩ := List.append_of_mem hm
  refine ⟨l ++ a.flatMap (farewell srv.data), b.flatMap (farewell srv.data), ?_⟩
  dsimp only [Userdata.step]
  rw [hab]
  have : farewell srv.data c = [.clean (some d), .bye c.id (some d) srv.data] := by
    simp [farewell, cleanUp, hd, hf]
  simp [List.flatMap_append, List.flatMap_cons, this]

/-- the client that the theorem speaks of is there -/
example : ⟨0, ⟨some 4, true⟩, true⟩ ∈ (run [.connect, .setClient 0 ⟨some 4, true⟩, .setFn 0 true]).clients := by
  decide +kernel

/-- **C117** fails where the server is deleted: nvnc_del cleans the data of the server up before it closes the clients.
Whatever has happened, if the server has data with a clean-up function, the functions of nvnc_set_client_cleanup_fn
that are called then are all called after it and are shown those data. -/
theorem c117_del_violated (ops : List Op) (d : Nat) (hs : (run ops).server = some ⟨some d, true⟩) :
    ∃ q, (run (ops ++ [.del])).log = (run ops).log ++ .clean (some d) :: q ∧
      ∀ c ∈ (run ops).clients, c.fn = true → Ev.bye c.id c.common.data (some d) ∈ q := by
  have hr : run (ops ++ [.del]) = step (run ops) .del := by simp [run]
  rw [hr]
  generalize run ops = s at *
  obtain ⟨sv, cs, n, l⟩ := s
  dsimp only at hs
  subst hs
  refine ⟨cs.flatMap (farewell (some d)), by simp [Userdata.step, cleanUp], ?_⟩
  intro c hc hf
  exact List.mem_flatMap.mpr ⟨c, hc, by simp [farewell, hf]⟩

/-- one client without data of its own -/
example : (run [.connect, .setServer ⟨some 7, true⟩, .setFn 0 true, .del]).log
    = [.clean (some 7), .bye 0 none (some 7)] := by decide +kernel

end Verif.Userdata
