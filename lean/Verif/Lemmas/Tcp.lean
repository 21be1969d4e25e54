import Verif.Spec.Tcp

namespace Verif.Tcp

/-- head request against its submission, of which `part` has already been sent -/
def HeadMatch (part : Bytes) (src : Src) : Body → Prop
  | .data d => Poss src (part ++ d)
  | .exec f c => part = [] ∧ src = .exec f ∧ ∀ b, c = some b → ∃ t, b = f t

def QMatch : Bytes → List (Nat × Src) → List Req → Prop
  | part, [], [] => part = []
  | part, a :: as, r :: q => r.id = a.1 ∧ HeadMatch part a.2 r.body ∧ QMatch [] as q
  | _, _, _ => False

theorem QMatch.append {part acc q} (h : QMatch part acc q) (a : Nat × Src) (r : Req)
    (hid : r.id = a.1) (hm : HeadMatch [] a.2 r.body) : QMatch part (acc ++ [a]) (q ++ [r]) := by
  induction acc generalizing part q with
  | nil =>
    cases q with
    | nil => simp only [QMatch] at h; subst h; simp [QMatch, hid, hm]
    | cons => simp [QMatch] at h
  | cons x acc ih =>
    cases q with
    | nil => simp [QMatch] at h
    | cons y q =>
      simp only [QMatch] at h
      simp only [List.cons_append, QMatch]
      exact ⟨h.1, h.2.1, ih h.2.2⟩

theorem QMatch.ids {part acc q} (h : QMatch part acc q) : q.map Req.id = acc.map Prod.fst := by
  induction acc generalizing part q with
  | nil => cases q <;> simp_all [QMatch]
  | cons x acc ih =>
    cases q with
    | nil => simp [QMatch] at h
    | cons y q => simp only [QMatch] at h; simp [h.1, ih h.2.2]

theorem PossAll.append {as ps} (h : PossAll as ps) (a : Nat × Src) (p : Bytes) (hp : Poss a.2 p) :
    PossAll (as ++ [a]) (ps ++ [p]) := by
  induction as generalizing ps with
  | nil => cases ps <;> simp_all [PossAll]
  | cons x as ih => cases ps <;> simp_all [PossAll]

theorem PossAll.length {as ps} (h : PossAll as ps) : as.length = ps.length := by
  induction as generalizing ps with
  | nil => cases ps <;> simp_all [PossAll]
  | cons x as ih =>
    cases ps with
    | nil => simp [PossAll] at h
    | cons p ps => simp only [PossAll] at h; simp [ih h.2]

/-- `part` is the already sent beginning of the first of `rest` -/
def PartOf (part : Bytes) (rest : List (Nat × Src)) : Prop :=
  part = [] ∨ ∃ a tl p, rest = a :: tl ∧ Poss a.2 p ∧ part <+: p

theorem QMatch.partOf {part acc q} (h : QMatch part acc q) : PartOf part acc := by
  cases acc with
  | nil => cases q <;> simp_all [QMatch, PartOf]
  | cons a acc =>
    cases q with
    | nil => simp [QMatch] at h
    | cons r q =>
      simp only [QMatch] at h
      obtain ⟨_, hm, _⟩ := h
      unfold HeadMatch at hm
      split at hm
      · exact .inr ⟨a, acc, _, rfl, hm, List.prefix_append _ _⟩
      · exact .inl hm.1

def idsOk (acc : List (Nat × Src)) : Prop :=
  (acc.map Prod.fst).Nodup ∧ ∀ a ∈ acc, a.1 < acc.length

theorem idsOk.push {acc} (h : idsOk acc) (src : Src) : idsOk (acc ++ [(acc.length, src)]) := by
  obtain ⟨h1, h2⟩ := h
  constructor
  · simp only [List.map_append, List.map_cons, List.map_nil, List.nodup_append, h1, true_and]
    refine ⟨by simp, ?_⟩
    intro a ha b hb
    simp only [List.mem_map] at ha
    obtain ⟨x, hx, rfl⟩ := ha
    have := h2 x hx
    simp at hb; omega
  · intro a ha
    simp only [List.mem_append, List.mem_singleton] at ha
    rcases ha with ha | rfl
    · have := h2 a ha; simp; omega
    · simp

theorem idsOk.pushFront {acc} (h : idsOk acc) (src : Src) : idsOk ((acc.length, src) :: acc) := by
  obtain ⟨h1, h2⟩ := h
  constructor
  · simp only [List.map_cons, List.nodup_cons, h1, and_true, List.mem_map, not_exists, not_and]
    intro x hx e
    have := h2 x hx; omega
  · intro a ha
    simp only [List.mem_cons] at ha
    rcases ha with rfl | ha
    · simp
    · have := h2 a ha; simp; omega

/-- Invariant of the queue.  `w` is what the kernel has accepted beyond the bookkeeping. -/
structure InvAt (s : State) (dn rest : List (Nat × Src)) (ps : List Bytes) (part w : Bytes) : Prop where
  acc : s.accepted = dn ++ rest
  ids : idsOk s.accepted
  poss : PossAll dn ps
  wire : s.wire = ps.flatten ++ part ++ w
  opn : s.closed = false → s.log = dn.map (fun a => (a.1, Status.done)) ∧ QMatch part rest s.queue
  cls : s.closed = true → s.queue = [] ∧ PartOf part rest ∧
    s.log = dn.map (fun a => (a.1, Status.done)) ++ rest.map (fun a => (a.1, Status.failed))

def Inv (s : State) : Prop :=
  (∃ dn rest ps part, InvAt s dn rest ps part []) ∧
  (s.closed = false → s.cork = true → s.wire = [] ∧ s.log = [])

theorem failAll_ok {log q log'} (h : failAll log q = .ok log') :
    log' = log ++ q.map (fun r => (r.id, Status.failed)) := by
  induction q generalizing log with
  | nil => simp only [failAll, Outcome.ok.injEq] at h; simp [h]
  | cons r q ih =>
    simp only [failAll] at h
    split at h
    · cases h
    · rw [ih h]; simp

theorem close_inv {s s' dn rest ps part w} (h : InvAt s dn rest ps part w) (hc : close s = .ok s') :
    InvAt s' dn rest ps part w ∧ s'.closed = true ∧ (s.closed = false → s'.cork = true) := by
  unfold close at hc
  split at hc
  · rename_i hcl
    simp only [Outcome.ok.injEq] at hc; subst hc
    exact ⟨h, hcl, by simp [hcl]⟩
  · rename_i hcl
    split at hc
    · rename_i log hl
      simp only [Outcome.ok.injEq] at hc; subst hc
      have hcl : s.closed = false := by simpa using hcl
      obtain ⟨h1, h2⟩ := h.opn hcl
      refine ⟨⟨h.acc, h.ids, h.poss, h.wire, by simp, fun _ => ⟨rfl, h2.partOf, ?_⟩⟩, rfl, by simp⟩
      have := failAll_ok hl
      simp only [this, h1]
      congr 1
      have := h2.ids
      have e1 : s.queue.map (fun r => (r.id, Status.failed)) = (s.queue.map Req.id).map fun i => (i, Status.failed) := by
        simp
      have e2 : rest.map (fun a => (a.1, Status.failed)) = (rest.map Prod.fst).map fun i => (i, Status.failed) := by
        simp
      rw [e1, e2, this]
    · cases hc
    · cases hc

theorem enqueue_inv {s dn rest ps part w} (h : InvAt s dn rest ps part w) (src : Src) (cb : Reaction)
    (ho : s.closed = false) :
    InvAt (enqueue s src cb) dn (rest ++ [(s.accepted.length, src)]) ps part w := by
  obtain ⟨h1, h2⟩ := h.opn ho
  refine ⟨?_, ?_, h.poss, h.wire, ?_, ?_⟩
  · simp only [enqueue]; rw [h.acc]; simp
  · exact h.ids.push src
  · intro _
    refine ⟨h1, ?_⟩
    simp only [enqueue]
    refine h2.append _ _ rfl ?_
    cases src <;> simp [HeadMatch, Poss]
  · intro hc; simp [enqueue, ho] at hc

theorem react_inv {s s' dn rest ps part w} (cb : Reaction) (h : InvAt s dn rest ps part w)
    (hr : react cb s = .ok s') :
    (∃ rest', InvAt s' dn (rest ++ rest') ps part w) ∧ s'.wire = s.wire ∧
    (s'.closed = false → s.closed = false ∧ ∃ ex, s'.queue = s.queue ++ ex) := by
  induction cb generalizing s rest with
  | stop =>
    simp only [react, Outcome.ok.injEq] at hr; subst hr
    exact ⟨⟨[], by simpa using h⟩, rfl, fun hc => ⟨hc, [], by simp⟩⟩
  | close k ih =>
    simp only [react] at hr
    split at hr
    · rename_i s1 hs1
      obtain ⟨hi, hcl, _⟩ := close_inv h hs1
      obtain ⟨a, b, c⟩ := ih hi hr
      have hw : s1.wire = s.wire := by
        unfold close at hs1
        split at hs1
        · simp only [Outcome.ok.injEq] at hs1; rw [hs1]
        · split at hs1 <;> simp only [Outcome.ok.injEq, reduceCtorEq] at hs1; rw [← hs1]
      refine ⟨a, by rw [b, hw], fun hc => ?_⟩
      rw [(c hc).1] at hcl; cases hcl
    · cases hr
    · cases hr
  | send d cb k _ ihk =>
    simp only [react] at hr
    split at hr
    · exact ihk h hr
    · rename_i ho
      have ho : s.closed = false := by simpa using ho
      obtain ⟨⟨r', a⟩, b, c⟩ := ihk (enqueue_inv h (.data d) cb ho) hr
      refine ⟨⟨_, by rw [List.append_assoc] at a; exact a⟩, b, fun hc => ?_⟩
      obtain ⟨_, ex, hex⟩ := c hc
      exact ⟨ho, _, by rw [hex]; simp only [enqueue]; rw [List.append_assoc]⟩

/-- payloads of the queue's first `m` requests, all of which have one -/
def Front (m : Nat) (q : List Req) (w : Bytes) : Prop :=
  (∀ r ∈ q.take m, r.payload?.isSome) ∧ w <+: (q.take m).flatMap Req.payload

theorem payload_eq {r : Req} {p} (h : r.payload? = some p) : r.payload = p := by
  simp [Req.payload, h]

theorem headMatch_payload {part : Bytes} {src} {r : Req} {p} (h : HeadMatch part src r.body)
    (hp : r.payload? = some p) : Poss src (part ++ p) := by
  unfold Req.payload? at hp
  unfold HeadMatch at h
  split at hp
  · rename_i b hb
    simp only [hb] at h
    cases hp; exact h
  · rename_i f c hb
    simp only [hb] at h
    obtain ⟨h1, h2, h3⟩ := h
    obtain ⟨t, rfl⟩ := h3 p hp
    subst h1; subst h2
    exact ⟨t, by simp⟩

theorem drain_inv (n : Nat) : ∀ {s s' : State} {dn rest ps part w m l},
    InvAt s dn rest ps part w → s.closed = false → Front m s.queue w → 
    drain n w.length s = .ok (s', l) → l ≤ 0 →
    ∃ dn' rest' ps' part', InvAt s' dn' rest' ps' part' [] := by
  induction n with
  | zero =>
    intro s s' dn rest ps part w m l h ho hf hd hl
    simp only [drain, Outcome.ok.injEq, Prod.mk.injEq] at hd
    obtain ⟨rfl, rfl⟩ := hd
    have : w = [] := List.length_eq_zero_iff.mp (by omega)
    subst this
    exact ⟨_, _, _, _, h⟩
  | succ n ih =>
    intro s s' dn rest ps part w m l h ho hf hd hl
    simp only [drain] at hd
    split at hd
    · simp only [Outcome.ok.injEq, Prod.mk.injEq] at hd
      obtain ⟨rfl, rfl⟩ := hd
      have : w = [] := List.length_eq_zero_iff.mp (by omega)
      subst this
      exact ⟨_, _, _, _, h⟩
    · rename_i r q hq
      split at hd
      · cases hd
      · rename_i p hp
        obtain ⟨hlog, hqm⟩ := h.opn ho
        rw [hq] at hqm
        cases rest with
        | nil => simp [QMatch] at hqm
        | cons a rest =>
        simp only [QMatch] at hqm
        obtain ⟨hid, hhm, hqr⟩ := hqm
        have hposs := headMatch_payload hhm hp
        -- w against p
        have hwp : w.length = 0 ∨ ∃ m', m = m' + 1 := by
          cases m with
          | zero => left; have := hf.2; simp at this; simp [this]
          | succ m' => exact .inr ⟨m', rfl⟩
        split at hd
        · -- whole request written
          rename_i hge
          have hsplit : ∃ w' m', w = p ++ w' ∧ Front m' q w' := by
            rcases hwp with h0 | ⟨m', rfl⟩
            · have hp0 : p = [] := List.length_eq_zero_iff.mp (by omega)
              have hw0 : w = [] := List.length_eq_zero_iff.mp h0
              exact ⟨[], 0, by simp [hp0, hw0], by simp [Front]⟩
            · obtain ⟨f1, f2⟩ := hf
              rw [hq] at f1 f2
              simp only [List.take_succ_cons, List.flatMap_cons, payload_eq hp] at f2
              obtain ⟨t, ht⟩ := f2
              have hpw : p <+: w := by
                apply List.prefix_of_prefix_length_le (l₃ := w ++ t)
                · rw [ht]; exact List.prefix_append _ _
                · exact List.prefix_append _ _
                · omega
              obtain ⟨w', rfl⟩ := hpw
              refine ⟨w', m', rfl, fun r hr => f1 r (by simp [hr]), t, ?_⟩
              simpa [List.append_assoc] using ht
          obtain ⟨w', m', rfl, hf'⟩ := hsplit
          have hlen : ((p ++ w').length : Int) - p.length = w'.length := by simp; omega
          rw [hlen] at hd hge
          have hinv : InvAt { s with queue := q, log := s.log ++ [(r.id, Status.done)] }
              (dn ++ [a]) rest (ps ++ [part ++ p]) [] w' := by
            refine ⟨?_, h.ids, h.poss.append a _ hposs, ?_, ?_, ?_⟩
            · rw [h.acc]; simp
            · rw [h.wire]; simp
            · intro _
              refine ⟨?_, hqr⟩
              simp [hlog, hid]
            · intro hc; simp [ho] at hc
          split at hd
          · rename_i s1 hs1
            obtain ⟨⟨rest', ha⟩, hw, hop⟩ := react_inv r.onDone hinv hs1
            split at hd
            · simp only [Outcome.ok.injEq, Prod.mk.injEq] at hd
              obtain ⟨rfl, rfl⟩ := hd
              have : w' = [] := List.length_eq_zero_iff.mp (by omega)
              subst this
              exact ⟨_, _, _, _, ha⟩
            · rename_i hne
              split at hd
              · cases hd
              · rename_i hcl
                by_cases hc : s1.closed = true
                · -- rest empty, so w' = []
                  have hq0 : q = [] := by simpa [hc] using hcl
                  subst hq0
                  have := hf'.2
                  simp at this
                  simp [this] at hne
                · have hc : s1.closed = false := by simpa using hc
                  obtain ⟨_, ex, hex⟩ := hop hc
                  simp only at hex
                  refine ih (m := min m' q.length) ha hc ?_ hd hl
                  rw [hex]
                  have ht : (q ++ ex).take (min m' q.length) = q.take m' := by
                    rw [List.take_append_of_le_length (by omega), List.take_eq_take_iff]; omega
                  unfold Front
                  rw [ht]; exact hf'
          · cases hd
          · cases hd
        · -- partly written
          rename_i hlt
          simp only [Outcome.ok.injEq, Prod.mk.injEq] at hd
          obtain ⟨rfl, rfl⟩ := hd
          have hpre : w <+: p := by
            rcases hwp with h0 | ⟨m', rfl⟩
            · rw [List.length_eq_zero_iff.mp h0]; exact List.nil_prefix
            · obtain ⟨f1, f2⟩ := hf
              rw [hq] at f2
              simp only [List.take_succ_cons, List.flatMap_cons, payload_eq hp] at f2
              exact List.prefix_of_prefix_length_le f2 (List.prefix_append _ _) (by omega)
          obtain ⟨t, rfl⟩ := hpre
          refine ⟨dn, a :: rest, ps, part ++ w, h.acc, h.ids, h.poss, ?_, ?_, ?_⟩
          · rw [h.wire]; simp
          · intro _
            refine ⟨hlog, hid, ?_, hqr⟩
            have e : (((w ++ t).length : Int) + ((w.length : Int) - ((w ++ t).length : Int))).toNat = w.length := by
              omega
            rw [e]
            simp only [HeadMatch, List.drop_left, List.append_assoc]
            exact hposs
          · intro hc; simp [ho] at hc

theorem evalReqs_inv {part acc q} (now n : Nat) (h : QMatch part acc q) :
    QMatch part acc (evalReqs now n q) := by
  induction n generalizing part acc q with
  | zero => simpa [evalReqs] using h
  | succ n ih =>
    cases q with
    | nil => simpa [evalReqs] using h
    | cons r q =>
      cases acc with
      | nil => simp [QMatch] at h
      | cons a acc =>
        simp only [QMatch] at h
        simp only [evalReqs, QMatch]
        refine ⟨?_, ?_, ih h.2.2⟩
        · split <;> simp [h.1]
        · have hm := h.2.1
          split
          · exact hm
          · rename_i f c hb
            simp only [hb, HeadMatch] at hm
            simp only [HeadMatch]
            exact ⟨hm.1, hm.2.1, fun b hb => ⟨now, by simpa using hb.symm⟩⟩

theorem evalReqs_isSome (now n : Nat) (q : List Req) :
    ∀ r ∈ (evalReqs now n q).take n, r.payload?.isSome := by
  induction n generalizing q with
  | zero => simp
  | succ n ih =>
    cases q with
    | nil => simp [evalReqs]
    | cons r q =>
      simp only [evalReqs, List.take_succ_cons, List.mem_cons]
      rintro x (rfl | hx)
      · cases hb : r.body <;> simp [Req.payload?, hb]
      · exact ih q x hx

theorem setQueue_inv {s dn rest ps part w} (h : InvAt s dn rest ps part w) (ho : s.closed = false)
    (q : List Req) (hq : ∀ rest part, QMatch part rest s.queue → QMatch part rest q) :
    InvAt { s with queue := q } dn rest ps part w :=
  ⟨h.acc, h.ids, h.poss, h.wire, fun _ => ⟨(h.opn ho).1, hq _ _ (h.opn ho).2⟩,
    fun hc => by simp [ho] at hc⟩

theorem flush_inv {s s' : State} {k now} (h : ∃ dn rest ps part, InvAt s dn rest ps part [])
    (hk : s.cork = true → s.wire = [] ∧ s.log = []) (ho : s.closed = false)
    (hf : flush k now s = .ok s') : Inv s' := by
  unfold flush at hf
  split at hf
  · rename_i hc
    simp only [Outcome.ok.injEq] at hf; subst hf
    exact ⟨h, fun _ => hk⟩
  · rename_i hcork
    have hcork : s.cork = false := by simpa using hcork
    simp only at hf
    split at hf
    · simp only [Outcome.ok.injEq] at hf; subst hf
      exact ⟨h, fun _ => hk⟩
    · obtain ⟨dn, rest, ps, part, h⟩ := h
      have h1 := setQueue_inv h ho (evalReqs now iovMax s.queue) fun rest part hq => evalReqs_inv now iovMax hq
      split at hf
      · simp only [Outcome.ok.injEq] at hf; subst hf
        exact ⟨⟨_, _, _, _, ⟨h1.acc, h1.ids, h1.poss, h1.wire, h1.opn, h1.cls⟩⟩, by simp [hcork]⟩
      · unfold remoteClosed at hf
        split at hf
        · rename_i s1 hs1
          simp only [Outcome.ok.injEq] at hf; subst hf
          obtain ⟨hi, hcl, _⟩ := close_inv h1 hs1
          exact ⟨⟨_, _, _, _, ⟨hi.acc, hi.ids, hi.poss, hi.wire, hi.opn, hi.cls⟩⟩, by simp [hcl]⟩
        · cases hf
        · cases hf
      · simp only [Outcome.ok.injEq] at hf; subst hf
        exact ⟨⟨_, _, _, _, h1⟩, by simp [hcork]⟩
      · rename_i n
        generalize hvec : List.flatMap Req.payload (List.take iovMax (evalReqs now iovMax s.queue)) = vec at hf
        have hmin : min n vec.length = (vec.take (min n vec.length)).length := by simp
        split at hf
        · rename_i s1 left hd
          have hd' := hd
          rw [hmin] at hd'
          have h2 : InvAt { s with queue := evalReqs now iovMax s.queue, 
                                   wire := s.wire ++ vec.take (min n vec.length), cork := true }
              dn rest ps part (vec.take (min n vec.length)) :=
            ⟨h1.acc, h1.ids, h1.poss, by simp only; rw [h.wire]; simp, h1.opn, h1.cls⟩
          have hleft : left ≤ 0 := by
            split at hf
            · assumption
            · cases hf
          obtain ⟨dn', rest', ps', part', h3⟩ := drain_inv _ (m := iovMax) h2 ho
            ⟨evalReqs_isSome _ _ _, by rw [hvec]; exact List.take_prefix _ _⟩ (by simpa using hd') hleft
          rw [if_pos hleft] at hf
          simp only [Outcome.ok.injEq] at hf
          subst hf
          split
          · exact ⟨⟨_, _, _, _, ⟨h3.acc, h3.ids, h3.poss, h3.wire, h3.opn, h3.cls⟩⟩, by simp⟩
          · exact ⟨⟨_, _, _, _, ⟨h3.acc, h3.ids, h3.poss, h3.wire, h3.opn, h3.cls⟩⟩, by simp⟩
        · cases hf
        · cases hf

theorem possAll_nil {as} (h : PossAll as []) : as = [] := by
  cases as with
  | nil => rfl
  | cons => simp [PossAll] at h

theorem step_inv {s s' op k now} (h : Inv s) (hs : step s op k now = .ok s') : Inv s' := by
  obtain ⟨⟨dn, rest, ps, part, h⟩, hk⟩ := h
  unfold step at hs
  split at hs
  · split at hs
    · simp only [Outcome.ok.injEq] at hs; subst hs; exact ⟨⟨_, _, _, _, h⟩, hk⟩
    · rename_i ho
      have ho : s.closed = false := by simpa using ho
      exact flush_inv ⟨_, _, _, _, enqueue_inv h _ _ ho⟩ (by simpa [enqueue] using hk ho) (by simpa [enqueue] using ho) hs
  · split at hs
    · simp only [Outcome.ok.injEq] at hs; subst hs; exact ⟨⟨_, _, _, _, h⟩, hk⟩
    · rename_i ho
      have ho : s.closed = false := by simpa using ho
      exact flush_inv ⟨_, _, _, _, enqueue_inv h _ _ ho⟩ (by simpa [enqueue] using hk ho) (by simpa [enqueue] using ho) hs
  · split at hs
    · simp only [Outcome.ok.injEq] at hs; subst hs; exact ⟨⟨_, _, _, _, h⟩, hk⟩
    · rename_i ho
      have ho : s.closed = false := by
        cases hc : s.closed <;> simp_all
      exact flush_inv ⟨_, _, _, _, h⟩ (hk ho) ho hs
  · split at hs
    · simp only [Outcome.ok.injEq] at hs; subst hs; exact ⟨⟨_, _, _, _, h⟩, hk⟩
    · rename_i reply hcc
      have ho : s.closed = false := by cases hc : s.closed <;> simp_all
      have hcork : s.cork = true := by cases hc : s.cork <;> simp_all
      obtain ⟨hw, hl⟩ := hk ho hcork
      obtain ⟨hlog, hqm⟩ := h.opn ho
      have hdn : dn = [] := by
        rw [hl] at hlog; simpa using hlog.symm
      subst hdn
      have hwire := h.wire
      rw [hw] at hwire
      have hpart : part = [] := by
        have := congrArg List.length hwire
        simp at this
        exact List.length_eq_zero_iff.mp (by omega)
      subst hpart
      have hps : ps = [] := by
        have := h.poss.length; simpa using this.symm
      subst hps
      dsimp only at hs
      refine flush_inv ⟨[], (s.accepted.length, .data reply) :: s.accepted, [], [], ?_⟩ ?_ ?_ hs
      rotate_left 1
      · exact fun hc => Bool.noConfusion hc
      · exact ho
      refine ⟨rfl, h.ids.pushFront _, by simp [PossAll], by simp [hw], ?_, ?_⟩
      · intro _
        refine ⟨by simp [hl], rfl, by simp [HeadMatch, Poss], ?_⟩
        have := h.acc
        simp at this
        rw [this]; exact hqm
      · intro hc; simp [ho] at hc
  · obtain ⟨hi, hcl, _⟩ := close_inv h hs
    exact ⟨⟨_, _, _, _, hi⟩, by simp [hcl]⟩

theorem run_inv {s s' : State} {t h} (hi : Inv s) (hr : run s t h = .ok s') : Inv s' := by
  induction h generalizing s t with
  | nil => simp only [run, Outcome.ok.injEq] at hr; subst hr; exact hi
  | cons x h ih =>
    obtain ⟨op, k⟩ := x
    simp only [run] at hr
    split at hr
    · rename_i s1 hs1; exact ih (step_inv hi hs1) hr
    · cases hr
    · cases hr

theorem init_inv (c : Bool) : Inv { cork := c } :=
  ⟨⟨[], [], [], [], ⟨rfl, by simp [idsOk], trivial, rfl, fun _ => ⟨rfl, by simp [QMatch]⟩, by simp⟩⟩, by simp⟩

/-! ## No assertion failure, no undefined behaviour -/

theorem failAll_ne_abort (log q w) : failAll log q ≠ .abort w := by
  induction q generalizing log with
  | nil => simp [failAll]
  | cons r q ih => simp only [failAll]; split <;> simp [ih]

theorem close_ne_abort (s w) : close s ≠ .abort w := by
  unfold close
  split
  · simp
  · have := failAll_ne_abort s.log s.queue
    split <;> simp_all

theorem react_ne_abort (cb : Reaction) (s : State) (w : String) : react cb s ≠ .abort w := by
  induction cb generalizing s with
  | stop => simp [react]
  | close k ih =>
    simp only [react]
    have := close_ne_abort s
    split <;> simp_all
  | send d cb k _ ih => simp only [react]; exact ih _

theorem react_queue {cb : Reaction} {s s' : State} (h : react cb s = .ok s') (hc : s'.closed = false) :
    s.closed = false ∧ ∃ ex, s'.queue = s.queue ++ ex := by
  induction cb generalizing s with
  | stop => simp only [react, Outcome.ok.injEq] at h; subst h; exact ⟨hc, [], by simp⟩
  | close k ih =>
    simp only [react] at h
    split at h
    · rename_i s1 hs1
      have h1 := (ih h).1
      unfold close at hs1
      split at hs1
      · simp only [Outcome.ok.injEq] at hs1; subst hs1; exact ih h
      · split at hs1
        · simp only [Outcome.ok.injEq] at hs1; subst hs1; simp at h1
        · cases hs1
        · cases hs1
    · cases h
    · cases h
  | send d cb k _ ih =>
    simp only [react] at h
    split at h
    · exact ih h
    · rename_i ho
      obtain ⟨h1, ex, h2⟩ := ih h
      exact ⟨by simpa using ho, _, by rw [h2]; simp only [enqueue]; rw [List.append_assoc]⟩

/-- how `drain` treats the first request -/
theorem front_tail {r : Req} {q p m w} (hf : Front m (r :: q) w) (hp : r.payload? = some p)
    (hge : (w.length : Int) - p.length ≥ 0) :
    ∃ w', w = p ++ w' ∧ Front (m - 1) q w' := by
  cases m with
  | zero =>
    have hw0 : w = [] := by have := hf.2; simpa using this
    have hp0 : p = [] := List.length_eq_zero_iff.mp (by rw [hw0] at hge; simp only [List.length_nil] at hge; omega)
    exact ⟨[], by simp [hp0, hw0], by simp [Front]⟩
  | succ m' =>
    obtain ⟨f1, f2⟩ := hf
    simp only [List.take_succ_cons, List.flatMap_cons, payload_eq hp] at f2
    obtain ⟨t, ht⟩ := f2
    have hpw : p <+: w := by
      apply List.prefix_of_prefix_length_le (l₃ := w ++ t)
      · rw [ht]; exact List.prefix_append _ _
      · exact List.prefix_append _ _
      · omega
    obtain ⟨w', rfl⟩ := hpw
    refine ⟨w', rfl, fun r hr => f1 r (by simp at hr ⊢; exact .inr hr), t, ?_⟩
    simpa [List.append_assoc] using ht

theorem Front.extend {m q w} (h : Front m q w) (ex : List Req) : Front (min m q.length) (q ++ ex) w := by
  have ht : (q ++ ex).take (min m q.length) = q.take m := by
    rw [List.take_append_of_le_length (by omega), List.take_eq_take_iff]; omega
  unfold Front
  rw [ht]; exact h

/-- what `drain` can end with -/
theorem drain_left (n : Nat) : ∀ {s : State} {w m}, Front m s.queue w → m ≤ n →
    (∀ s' l, drain n w.length s = .ok (s', l) → l ≤ 0) ∧
    (∀ why, drain n w.length s ≠ .abort why) := by
  induction n with
  | zero =>
    intro s w m hf hm
    have : w = [] := by
      have : m = 0 := by omega
      subst this; have := hf.2; simpa using this
    subst this
    simp [drain]
  | succ n ih =>
    intro s w m hf hm
    simp only [drain]
    cases hq : s.queue with
    | nil =>
      have : w = [] := by have := hf.2; rw [hq] at this; simpa using this
      subst this
      simp
    | cons r q =>
      rw [hq] at hf
      simp only
      cases hp : r.payload? with
      | none => simp
      | some p =>
        simp only
        by_cases hge : (w.length : Int) - p.length ≥ 0
        · rw [if_pos hge]
          obtain ⟨w', rfl, hf'⟩ := front_tail hf hp hge
          have hlen : ((p ++ w').length : Int) - p.length = w'.length := by simp; omega
          rw [hlen]
          cases hr : react r.onDone { s with queue := q, log := s.log ++ [(r.id, Status.done)] } with
          | ub => simp
          | abort => exact absurd hr (react_ne_abort _ _ _)
          | ok s1 =>
            simp only
            split
            · refine ⟨fun s' l e => ?_, by simp⟩
              simp only [Outcome.ok.injEq, Prod.mk.injEq] at e; omega
            · split
              · simp
              · rename_i hne hcl
                by_cases hc : s1.closed = true
                · have hq0 : q = [] := by simpa [hc] using hcl
                  subst hq0
                  have := hf'.2
                  simp at this
                  simp [this] at hne
                · have hc : s1.closed = false := by simpa using hc
                  obtain ⟨_, ex, hex⟩ := react_queue hr hc
                  exact ih (m := min (m - 1) q.length) (by rw [hex]; exact hf'.extend ex) (by omega)
        · rw [if_neg hge]
          refine ⟨fun s' l e => ?_, by simp⟩
          simp only [Outcome.ok.injEq, Prod.mk.injEq] at e; omega

theorem evalReqs_length (now n : Nat) (q : List Req) : (evalReqs now n q).length = q.length := by
  induction n generalizing q with
  | zero => simp [evalReqs]
  | succ n ih => cases q <;> simp [evalReqs, ih]

theorem flush_front (now n : Nat) (s : State) :
    let q := evalReqs now iovMax s.queue
    let vec := (q.take iovMax).flatMap Req.payload
    Front (min iovMax q.length) q (vec.take (min n vec.length)) ∧
    min n vec.length = (vec.take (min n vec.length)).length := by
  intro q vec
  refine ⟨⟨?_, ?_⟩, ?_⟩
  · intro r hr
    apply evalReqs_isSome now iovMax s.queue
    have : q.take (min iovMax q.length) = q.take iovMax := by rw [List.take_eq_take_iff]; omega
    rwa [this] at hr
  · have : q.take (min iovMax q.length) = q.take iovMax := by rw [List.take_eq_take_iff]; omega
    rw [this]; exact List.take_prefix _ _
  · simp

theorem flush_ne_abort (k now s w) : flush k now s ≠ .abort w := by
  unfold flush
  split
  · simp
  · simp only
    split
    · simp
    · split
      · simp
      · unfold remoteClosed
        have := close_ne_abort { s with queue := evalReqs now iovMax s.queue }
        split <;> simp_all
      · simp
      · rename_i n
        obtain ⟨hf, hl⟩ := flush_front now n s
        generalize hvec : List.flatMap Req.payload (List.take iovMax (evalReqs now iovMax s.queue)) = vec at *
        have hd := drain_left (evalReqs now iovMax s.queue).length
          (s := { s with queue := evalReqs now iovMax s.queue, wire := s.wire ++ vec.take (min n vec.length), cork := true })
          hf (by omega)
        rw [← hl] at hd
        split
        · rename_i s1 l hd1
          have := hd.1 _ _ hd1
          rw [if_pos this]; simp
        · simp
        · rename_i w1 hd1
          exact absurd hd1 (hd.2 _)

theorem step_ne_abort (s op k now w) : step s op k now ≠ .abort w := by
  unfold step
  split
  · split <;> simp [flush_ne_abort]
  · split <;> simp [flush_ne_abort]
  · split <;> simp [flush_ne_abort]
  · split <;> simp [flush_ne_abort]
  · exact close_ne_abort _ _

/-- every queued request carries its payload and its callback does not close the stream -/
def Tame (q : List Req) : Prop := ∀ r ∈ q, (∃ b, r.body = .data b) ∧ r.onDone.NoClose

theorem failAll_tame {log q} (h : Tame q) : ∃ l, failAll log q = .ok l := by
  induction q generalizing log with
  | nil => exact ⟨_, rfl⟩
  | cons r q ih =>
    obtain ⟨⟨b, hb⟩, _⟩ := h r (by simp)
    simp only [failAll, Req.payload?, hb]
    exact ih fun x hx => h x (by simp [hx])

theorem close_tame {s} (h : Tame s.queue) : ∃ s', close s = .ok s' ∧ Tame s'.queue := by
  unfold close
  split
  · exact ⟨s, rfl, h⟩
  · obtain ⟨l, hl⟩ := failAll_tame (log := s.log) h
    simp only [hl]
    exact ⟨_, rfl, by simp [Tame]⟩

theorem enqueue_tame {s d cb} (h : Tame s.queue) (hc : cb.NoClose) : Tame (enqueue s (.data d) cb).queue := by
  intro r hr
  simp only [enqueue, List.mem_append, List.mem_singleton] at hr
  rcases hr with hr | rfl
  · exact h r hr
  · exact ⟨⟨d, rfl⟩, hc⟩

theorem react_tame {cb : Reaction} {s : State} (h : Tame s.queue) (hc : cb.NoClose) :
    ∃ s', react cb s = .ok s' ∧ Tame s'.queue ∧ s'.closed = s.closed := by
  induction cb generalizing s with
  | stop => exact ⟨s, rfl, h, rfl⟩
  | close k => simp [Reaction.NoClose] at hc
  | send d cb k _ ih =>
    simp only [Reaction.NoClose] at hc
    simp only [react]
    split
    · exact ih h hc.2
    · obtain ⟨s', h1, h2, h3⟩ := ih (enqueue_tame h hc.1) hc.2
      exact ⟨s', h1, h2, h3⟩

theorem drain_tame (n : Nat) : ∀ {s : State} {left}, Tame s.queue → s.closed = false →
    ∃ s' l, drain n left s = .ok (s', l) ∧ Tame s'.queue := by
  induction n with
  | zero => intro s left h _; exact ⟨s, left, rfl, h⟩
  | succ n ih =>
    intro s left h ho
    simp only [drain]
    cases hq : s.queue with
    | nil => exact ⟨s, left, rfl, h⟩
    | cons r q =>
      have hr := h r (by simp [hq])
      obtain ⟨⟨b, hb⟩, hcb⟩ := hr
      have hq' : Tame q := fun x hx => h x (by simp [hq, hx])
      simp only [Req.payload?, hb]
      split
      · obtain ⟨s1, h1, h2, h3⟩ := react_tame (s := { s with queue := q, log := s.log ++ [(r.id, Status.done)] }) hq' hcb
        simp only [h1]
        split
        · exact ⟨_, _, rfl, h2⟩
        · simp only [ho] at h3
          simp only [h3, Bool.false_and]
          exact ih h2 h3
      · refine ⟨_, _, rfl, ?_⟩
        intro x hx
        simp only [List.mem_cons] at hx
        rcases hx with rfl | hx
        · exact ⟨⟨_, rfl⟩, hcb⟩
        · exact hq' x hx

theorem evalReqs_tame {now n q} (h : Tame q) : evalReqs now n q = q := by
  induction n generalizing q with
  | zero => simp [evalReqs]
  | succ n ih =>
    cases q with
    | nil => simp [evalReqs]
    | cons r q =>
      obtain ⟨⟨b, hb⟩, _⟩ := h r (by simp)
      simp only [evalReqs, hb]
      rw [ih fun x hx => h x (by simp [hx])]

theorem flush_tame {k now s} (h : Tame s.queue) (ho : s.closed = false) :
    ∃ s', flush k now s = .ok s' ∧ Tame s'.queue := by
  have hne := flush_ne_abort k now s
  unfold flush at hne ⊢
  split
  · exact ⟨s, rfl, h⟩
  · rename_i hck
    rw [if_neg hck] at hne
    simp only [evalReqs_tame h] at hne ⊢
    split
    · exact ⟨s, rfl, h⟩
    · rename_i hem
      rw [if_neg hem] at hne
      split
      · exact ⟨_, rfl, h⟩
      · unfold remoteClosed
        obtain ⟨s1, h1, h2⟩ := close_tame h
        simp only [h1]
        exact ⟨_, rfl, h2⟩
      · exact ⟨_, rfl, h⟩
      · rename_i n
        obtain ⟨s1, l, h1, h2⟩ := drain_tame s.queue.length
          (s := { s with wire := s.wire ++ ((s.queue.take iovMax).flatMap Req.payload).take (min n ((s.queue.take iovMax).flatMap Req.payload).length), cork := true })
          (left := (min n ((s.queue.take iovMax).flatMap Req.payload).length : Nat)) h ho
        simp only [h1] at hne ⊢
        split
        · refine ⟨_, rfl, ?_⟩
          split <;> exact h2
        · rename_i hl
          rw [if_neg hl] at hne
          exact absurd rfl (hne _)

theorem step_tame {s op k now} (h : Tame s.queue) (h1 : op.NoExec) (h2 : op.NoCloseCb) :
    ∃ s', step s op k now = .ok s' ∧ Tame s'.queue := by
  unfold step
  split
  · split
    · exact ⟨s, rfl, h⟩
    · rename_i ho
      exact flush_tame (enqueue_tame h h2) (by simpa [enqueue] using ho)
  · simp [Op.NoExec] at h1
  · split
    · exact ⟨s, rfl, h⟩
    · rename_i ho
      exact flush_tame h (by cases hc : s.closed <;> simp_all)
  · split
    · exact ⟨s, rfl, h⟩
    · rename_i reply ho
      apply flush_tame
      · intro r hr
        simp only [List.mem_cons] at hr
        rcases hr with rfl | hr
        · exact ⟨⟨_, rfl⟩, trivial⟩
        · exact h r hr
      · cases hc : s.closed <;> simp_all
  · exact close_tame h

theorem run_tame {s : State} {t hist} (h : Tame s.queue)
    (hh : ∀ x ∈ hist, x.1.NoExec ∧ x.1.NoCloseCb) : ∃ s', run s t hist = .ok s' ∧ Tame s'.queue := by
  induction hist generalizing s t with
  | nil => exact ⟨s, rfl, h⟩
  | cons x hist ih =>
    obtain ⟨op, k⟩ := x
    obtain ⟨s1, h1, h2⟩ := step_tame (k := k) (now := t) h (hh (op, k) (by simp)).1 (hh (op, k) (by simp)).2
    simp only [run, h1]
    exact ih h2 fun x hx => hh x (by simp [hx])

/-! ## Wake-ups -/

/-- `drain` ends below zero only by asking for writability -/
theorem drain_poll (n : Nat) : ∀ {s s' : State} {left l}, drain n left s = .ok (s', l) → left ≥ 0 → l < 0 →
    s'.pollW = true := by
  induction n with
  | zero => intro s s' left l h h0 hl; simp [drain] at h; omega
  | succ n ih =>
    intro s s' left l h h0 hl
    simp only [drain] at h
    split at h
    · simp at h; omega
    · split at h
      · cases h
      · split at h
        · rename_i hge
          split at h
          · split at h
            · simp at h; omega
            · split at h
              · cases h
              · exact ih h hge hl
          · cases h
          · cases h
        · simp only [Outcome.ok.injEq, Prod.mk.injEq] at h
          rw [← h.1]

/-- what `drain` subtracts is a number of whole requests -/
theorem drain_zero (n : Nat) : ∀ {s s' : State} {w m}, Front m s.queue w → m ≤ n →
    drain n w.length s = .ok (s', 0) → ∃ j, w.length = ((s.queue.take j).flatMap Req.payload).length := by
  induction n with
  | zero =>
    intro s s' w m hf hm h
    exact ⟨0, by simp [drain] at h; simp [h]⟩
  | succ n ih =>
    intro s s' w m hf hm h
    simp only [drain] at h
    cases hq : s.queue with
    | nil => rw [hq] at h; simp at h; exact ⟨0, by simp [h]⟩
    | cons r q =>
      rw [hq] at hf h
      simp only at h
      cases hp : r.payload? with
      | none => simp [hp] at h
      | some p =>
        simp only [hp] at h
        by_cases hge : (w.length : Int) - p.length ≥ 0
        · rw [if_pos hge] at h
          obtain ⟨w', rfl, hf'⟩ := front_tail hf hp hge
          have hlen : ((p ++ w').length : Int) - p.length = w'.length := by simp; omega
          rw [hlen] at h
          split at h
          · rename_i s1 hr
            split at h
            · rename_i h0
              refine ⟨1, ?_⟩
              simp only [List.take_succ_cons, List.take_zero, List.flatMap_cons, List.flatMap_nil, payload_eq hp, List.length_append, List.length_nil]; omega
            · split at h
              · cases h
              · rename_i hne hcl
                by_cases hc : s1.closed = true
                · have hq0 : q = [] := by simpa [hc] using hcl
                  subst hq0
                  have := hf'.2
                  simp at this
                  simp [this] at hne
                · have hc : s1.closed = false := by simpa using hc
                  obtain ⟨_, ex, hex⟩ := react_queue hr hc
                  simp only at hex
                  -- the boundary lies among the requests that were there before
                  have hf2 := hf'.extend ex
                  rw [← hex] at hf2
                  obtain ⟨j, hj⟩ := ih hf2 (by omega) h
                  rw [hex] at hj
                  by_cases hjq : j ≤ q.length
                  · refine ⟨j + 1, ?_⟩
                    rw [List.take_append_of_le_length hjq] at hj
                    simp only [List.take_succ_cons, List.flatMap_cons, payload_eq hp, List.length_append, hj]
                  · refine ⟨q.length + 1, ?_⟩
                    have hle : w'.length ≤ (q.flatMap Req.payload).length := by
                      have := hf'.2.length_le
                      refine Nat.le_trans this ?_
                      conv => rhs; rw [← List.take_append_drop (m - 1) q]
                      rw [List.flatMap_append]; simp
                    have hge2 : (q.flatMap Req.payload).length ≤ w'.length := by
                      rw [hj, List.take_append, List.flatMap_append, List.take_of_length_le (by omega)]
                      simp
                    simp only [List.take_succ_cons, List.flatMap_cons, payload_eq hp, List.length_append, List.take_length]
                    omega
          · cases h
          · cases h
        · rw [if_neg hge] at h
          simp only [Outcome.ok.injEq, Prod.mk.injEq] at h; omega

/-! ## What was accepted -/

theorem QMatch.total {part rest q} (h : QMatch part rest q) (t : Nat) :
    ∃ qs, PossAll rest qs ∧ part ++ q.flatMap (Req.bytesAt t) = qs.flatten := by
  induction q generalizing part rest with
  | nil =>
    cases rest with
    | nil => simp only [QMatch] at h; exact ⟨[], trivial, by simp [h]⟩
    | cons => simp [QMatch] at h
  | cons r q ih =>
    cases rest with
    | nil => simp [QMatch] at h
    | cons a rest =>
      simp only [QMatch] at h
      obtain ⟨qs, h1, h2⟩ := ih h.2.2
      refine ⟨(part ++ r.bytesAt t) :: qs, ⟨?_, h1⟩, ?_⟩
      · have hm := h.2.1
        unfold HeadMatch at hm
        unfold Req.bytesAt
        split at hm
        · rename_i hb; simp only [hb]; exact hm
        · rename_i hb; simp only [hb]; rw [hm.2.1, hm.1]; exact ⟨t, by simp⟩
      · simp only [List.nil_append] at h2
        simp [h2]

theorem PossAll.concat {as bs ps qs} (h1 : PossAll as ps) (h2 : PossAll bs qs) :
    PossAll (as ++ bs) (ps ++ qs) := by
  induction as generalizing ps with
  | nil => cases ps <;> simp_all [PossAll]
  | cons a as ih =>
    cases ps with
    | nil => simp [PossAll] at h1
    | cons p ps => simp only [PossAll, List.cons_append] at h1 ⊢; exact ⟨h1.1, ih h1.2⟩

theorem poss_exists (src : Src) : ∃ p, Poss src p := by
  cases src with
  | data b => exact ⟨b, rfl⟩
  | exec f => exact ⟨f 0, 0, rfl⟩

theorem possAll_exists (as : List (Nat × Src)) : ∃ ps, PossAll as ps := by
  induction as with
  | nil => exact ⟨[], trivial⟩
  | cons a as ih =>
    obtain ⟨ps, h⟩ := ih
    obtain ⟨p, hp⟩ := poss_exists a.2
    exact ⟨p :: ps, hp, h⟩

theorem PartOf.total {part rest} (h : PartOf part rest) :
    ∃ qs, PossAll rest qs ∧ part <+: qs.flatten := by
  rcases h with rfl | ⟨a, tl, p, rfl, hp, hpre⟩
  · obtain ⟨qs, h⟩ := possAll_exists rest
    exact ⟨qs, h, List.nil_prefix⟩
  · obtain ⟨qs, h⟩ := possAll_exists tl
    refine ⟨p :: qs, ⟨hp, h⟩, ?_⟩
    rw [List.flatten_cons]; exact hpre.trans (List.prefix_append _ _)

theorem PossAll.data {as ps} (h : PossAll as ps) (hd : ∀ a ∈ as, ∃ b, a.2 = .data b) :
    ps = as.map fun a => a.2.bytes := by
  induction as generalizing ps with
  | nil => cases ps <;> simp_all [PossAll]
  | cons a as ih =>
    cases ps with
    | nil => simp [PossAll] at h
    | cons p ps =>
      simp only [PossAll] at h
      obtain ⟨b, hb⟩ := hd a (by simp)
      rw [hb] at h
      simp only [List.map_cons, hb, Src.bytes]
      rw [ih h.2 fun x hx => hd x (by simp [hx])]
      exact congrArg (· :: _) h.1

/-- no queued request's callback does anything -/
def Silent (q : List Req) : Prop := ∀ r ∈ q, r.onDone = .stop

theorem drain_silent (n : Nat) : ∀ {s s' : State} {left l}, drain n left s = .ok (s', l) → Silent s.queue →
    Silent s'.queue ∧ s'.accepted = s.accepted ∧ s'.closed = s.closed ∧ s'.cork = s.cork := by
  induction n with
  | zero => intro s s' left l h hs; simp [drain] at h; simp [← h.1, hs]
  | succ n ih =>
    intro s s' left l h hs
    simp only [drain] at h
    split at h
    · simp at h; simp [← h.1, hs]
    · rename_i r q hq
      have hs' : Silent q := fun x hx => hs x (by simp [hq, hx])
      have hr : r.onDone = .stop := hs r (by simp [hq])
      split at h
      · cases h
      · split at h
        · rw [hr] at h
          simp only [react] at h
          split at h
          · simp only [Outcome.ok.injEq, Prod.mk.injEq] at h
            rw [← h.1]; exact ⟨hs', rfl, rfl, rfl⟩
          · split at h
            · cases h
            · have := ih h hs'
              exact this
        · simp only [Outcome.ok.injEq, Prod.mk.injEq] at h
          rw [← h.1]
          refine ⟨?_, rfl, rfl, rfl⟩
          intro x hx
          simp only [List.mem_cons] at hx
          rcases hx with rfl | hx
          · exact hr
          · exact hs' x hx

theorem evalReqs_silent {now n q} (h : Silent q) : Silent (evalReqs now n q) := by
  induction n generalizing q with
  | zero => simpa [evalReqs] using h
  | succ n ih =>
    cases q with
    | nil => simpa [evalReqs] using h
    | cons r q =>
      intro x hx
      simp only [evalReqs, List.mem_cons] at hx
      rcases hx with rfl | hx
      · split <;> simp [h r]
      · exact ih (fun y hy => h y (by simp [hy])) x hx

theorem close_accepted {s s'} (h : close s = .ok s') :
    s'.accepted = s.accepted ∧ (s'.queue = [] ∨ s' = s) ∧ s'.closed = true := by
  unfold close at h
  split at h
  · simp only [Outcome.ok.injEq] at h; subst h; simp_all
  · split at h
    · simp only [Outcome.ok.injEq] at h; subst h; simp
    · cases h
    · cases h

theorem flush_silent {k now s s'} (h : flush k now s = .ok s') (hs : Silent s.queue) (hc : s.cork = false) :
    Silent s'.queue ∧ s'.accepted = s.accepted ∧ (s'.closed = false → s'.cork = false) := by
  unfold flush at h
  rw [if_neg (by simp [hc])] at h
  simp only at h
  split at h
  · simp only [Outcome.ok.injEq] at h; subst h; exact ⟨hs, rfl, fun _ => hc⟩
  · have hs1 := evalReqs_silent (now := now) (n := iovMax) hs
    split at h
    · simp only [Outcome.ok.injEq] at h; subst h; exact ⟨hs1, rfl, fun _ => hc⟩
    · unfold remoteClosed at h
      split at h
      · rename_i s1 h1
        simp only [Outcome.ok.injEq] at h; subst h
        obtain ⟨a, b, c⟩ := close_accepted h1
        refine ⟨?_, a, ?_⟩
        · rcases b with b | b
          · simp [b, Silent]
          · rw [b]; exact hs1
        · simp [c]
      · cases h
      · cases h
    · simp only [Outcome.ok.injEq] at h; subst h; exact ⟨hs1, rfl, fun _ => hc⟩
    · split at h
      · rename_i s1 l hd
        obtain ⟨a, b, c, d⟩ := drain_silent _ hd hs1
        split at h
        · simp only [Outcome.ok.injEq] at h; subst h
          split <;> exact ⟨a, b, fun _ => rfl⟩
        · cases h
      · cases h
      · cases h

theorem step_silent {s s' op k now} (h : step s op k now = .ok s') (hq : op.Quiet)
    (hs : Silent s.queue) (hc : s.closed = false → s.cork = false) :
    Silent s'.queue ∧ (s'.closed = false → s'.cork = false) ∧
    (s'.closed = false → s.closed = false) ∧
    (s.closed = false → s'.accepted.map Prod.snd = s.accepted.map Prod.snd ++ op.submission.toList) := by
  unfold step at h
  split at h
  · split at h
    · rename_i hcl
      simp only [Outcome.ok.injEq] at h; subst h
      exact ⟨hs, hc, id, fun h => by simp [h] at hcl⟩
    · rename_i d cb ho
      have ho : s.closed = false := by simpa using ho
      simp only [Op.Quiet] at hq; subst hq
      obtain ⟨a, b, c⟩ := flush_silent h (by
        intro r hr
        simp only [enqueue, List.mem_append, List.mem_singleton] at hr
        rcases hr with hr | rfl
        · exact hs r hr
        · rfl) (hc ho)
      exact ⟨a, c, fun _ => ho, fun _ => by simp [b, enqueue, Op.submission]⟩
  · split at h
    · rename_i hcl
      simp only [Outcome.ok.injEq] at h; subst h
      exact ⟨hs, hc, id, fun h => by simp [h] at hcl⟩
    · rename_i f ho
      have ho : s.closed = false := by simpa using ho
      obtain ⟨a, b, c⟩ := flush_silent h (by
        intro r hr
        simp only [enqueue, List.mem_append, List.mem_singleton] at hr
        rcases hr with hr | rfl
        · exact hs r hr
        · rfl) (hc ho)
      exact ⟨a, c, fun _ => ho, fun _ => by simp [b, enqueue, Op.submission]⟩
  · split at h
    · simp only [Outcome.ok.injEq] at h; subst h
      exact ⟨hs, hc, id, fun h => by simp [Op.submission]⟩
    · rename_i hn
      have ho : s.closed = false := by cases hcl : s.closed <;> simp_all
      obtain ⟨a, b, c⟩ := flush_silent h hs (hc ho)
      exact ⟨a, c, fun _ => ho, fun _ => by simp [b, Op.submission]⟩
  · split at h
    · simp only [Outcome.ok.injEq] at h; subst h
      exact ⟨hs, hc, id, fun h => by simp [Op.submission]⟩
    · rename_i hn
      have ho : s.closed = false := by cases hcl : s.closed <;> simp_all
      exact absurd (.inr (by simp [hc ho])) hn
  · obtain ⟨a, b, c⟩ := close_accepted h
    refine ⟨?_, by simp [c], by simp [c], fun _ => by simp [a, Op.submission]⟩
    rcases b with b | b
    · simp [b, Silent]
    · rw [b]; exact hs

theorem run_silent {s s' : State} {t hist} (h : run s t hist = .ok s') (hq : ∀ x ∈ hist, x.1.Quiet)
    (hs : Silent s.queue) (hc : s.closed = false → s.cork = false) (ho : s'.closed = false) :
    s.closed = false ∧ 
    s'.accepted.map Prod.snd = s.accepted.map Prod.snd ++ hist.filterMap (fun x => x.1.submission) := by
  induction hist generalizing s t with
  | nil => simp only [run, Outcome.ok.injEq] at h; subst h; simp [ho]
  | cons x hist ih =>
    obtain ⟨op, k⟩ := x
    simp only [run] at h
    split at h
    · rename_i s1 h1
      obtain ⟨a, b, c, d⟩ := step_silent h1 (hq (op, k) (by simp)) hs hc
      obtain ⟨e, f⟩ := ih h (fun x hx => hq x (by simp [hx])) a b
      have ho := c e
      refine ⟨ho, ?_⟩
      rw [f, d ho, List.filterMap_cons]
      cases op.submission <;> simp
    · cases h
    · cases h

/-! ## Waiting for writability -/

/-- where `drain` stops when nothing is left over and no callback does anything -/
theorem drain_stop (n : Nat) : ∀ {s s' : State} {left : Int}, drain n left s = .ok (s', 0) → left ≥ 0 →
    Silent s.queue → s.queue.length ≤ n → s.queue ≠ [] →
    ∃ j, 0 < j ∧ j ≤ s.queue.length ∧ s'.queue = s.queue.drop j ∧
      left = ((s.queue.take j).flatMap Req.payload).length ∧
      ∀ i, 0 < i → i < j → left > ((s.queue.take i).flatMap Req.payload).length := by
  induction n with
  | zero => intro s s' left _ _ _ hn hne; exact absurd (List.length_eq_zero_iff.1 (by omega)) hne
  | succ n ih =>
    intro s s' left h h0 hs hn hne
    simp only [drain] at h
    cases hq : s.queue with
    | nil => exact absurd hq hne
    | cons r q =>
      rw [hq] at h hn hs
      simp only at h
      have hr : r.onDone = .stop := hs r (by simp)
      cases hp : r.payload? with
      | none => simp [hp] at h
      | some p =>
        simp only [hp] at h
        by_cases hge : left - p.length ≥ 0
        · rw [if_pos hge, hr] at h
          simp only [react] at h
          split at h
          · rename_i h1
            simp only [Outcome.ok.injEq, Prod.mk.injEq] at h
            refine ⟨1, by omega, by simp, by rw [← h.1]; rfl, ?_, fun i h2 h3 => by omega⟩
            simp only [List.take_succ_cons, List.take_zero, List.flatMap_cons, List.flatMap_nil,
              payload_eq hp, List.length_append, List.length_nil]
            omega
          · rename_i h1
            split at h
            · cases h
            · by_cases hq0 : q = []
              · subst hq0
                exfalso
                cases n <;> simp [drain] at h <;> omega
              · obtain ⟨j, g1, g2, g3, g4, g5⟩ := ih h hge (fun x hx => hs x (by simp [hx]))
                  (by simp at hn; exact hn) hq0
                simp only at g2 g3 g4 g5
                refine ⟨j + 1, by omega, by simp; omega, by rw [g3]; rfl, ?_, ?_⟩
                · simp only [List.take_succ_cons, List.flatMap_cons, payload_eq hp, List.length_append]
                  omega
                · intro i h2 h3
                  cases i with
                  | zero => omega
                  | succ i =>
                    simp only [List.take_succ_cons, List.flatMap_cons, payload_eq hp, List.length_append]
                    cases i with
                    | zero => simp; omega
                    | succ i =>
                      have := g5 (i + 1) (by omega) (by omega)
                      omega
        · rw [if_neg hge] at h
          simp only [Outcome.ok.injEq, Prod.mk.injEq] at h
          omega

theorem evalReqs_bytes (now n : Nat) (q : List Req) :
    ((evalReqs now n q).take n).map Req.payload = (q.take n).map (Req.bytesAt now) := by
  induction n generalizing q with
  | zero => simp
  | succ n ih =>
    cases q with
    | nil => simp [evalReqs]
    | cons r q =>
      simp only [evalReqs, List.take_succ_cons, List.map_cons, ih, List.cons.injEq, and_true]
      unfold Req.payload Req.payload? Req.bytesAt
      cases hb : r.body <;> simp [hb]

theorem flush_waits {k now s s'} (h : flush k now s = .ok s') (hs : Silent s.queue) (hc : s.cork = false)
    (hk : ¬ Strands (s.queue.map (Req.bytesAt now)) k) (ho : s'.closed = false) :
    s'.queue = [] ∨ s'.pollW = true := by
  unfold flush at h
  rw [if_neg (by simp [hc])] at h
  simp only at h
  have hl := evalReqs_length now iovMax s.queue
  split at h
  · rename_i he
    simp only [Outcome.ok.injEq] at h; subst h
    rw [List.isEmpty_iff.mp he] at hl
    exact .inl (List.length_eq_zero_iff.mp hl.symm)
  · rename_i hne
    split at h
    · simp only [Outcome.ok.injEq] at h; subst h; exact .inr rfl
    · unfold remoteClosed at h
      split at h
      · rename_i s1 h1
        simp only [Outcome.ok.injEq] at h; subst h
        obtain ⟨_, _, c⟩ := close_accepted h1
        simp only at ho
        rw [c] at ho
        cases ho
      · cases h
      · cases h
    · exact absurd (.inl rfl) hk
    · rename_i n
      obtain ⟨hf, hlen⟩ := flush_front now n s
      have hs1 := evalReqs_silent (now := now) (n := iovMax) hs
      have hpay : ∀ i, i ≤ iovMax →
          (((evalReqs now iovMax s.queue).take i).flatMap Req.payload).length =
            ((s.queue.map (Req.bytesAt now)).take i).flatten.length := by
        intro i hi
        have := congrArg (List.take i) (evalReqs_bytes now iovMax s.queue)
        rw [← List.map_take, ← List.map_take, List.take_take, List.take_take, Nat.min_eq_left hi] at this
        rw [List.flatMap_def, this, List.map_take]
      generalize hvec : List.flatMap Req.payload (List.take iovMax (evalReqs now iovMax s.queue)) = vec at *
      split at h
      · rename_i s1 l hd
        split at h
        · rename_i hle
          simp only [Outcome.ok.injEq] at h
          by_cases hl0 : l = 0
          · subst hl0
            obtain ⟨j, g1, g2, g3, g4, g5⟩ := drain_stop _ hd (by omega) hs1 (Nat.le_refl _)
              (by simpa using hne)
            simp only at g2 g3 g4 g5
            left
            have hq : s'.queue = s1.queue := by
              subst h
              split <;> rfl
            rw [hq, g3]
            by_cases hj : j < (evalReqs now iovMax s.queue).length
            · exfalso
              have hji : j ≤ iovMax := by
                apply Nat.le_of_not_lt
                intro hlt
                have := g5 iovMax (by decide) hlt
                rw [hvec] at this
                omega
              refine hk (.inr ⟨n, j, rfl, g1, by simpa [hl] using hj, ?_⟩)
              rw [← hpay j hji]
              have := hpay iovMax (Nat.le_refl _)
              rw [hvec] at this
              show min n ((s.queue.map (Req.bytesAt now)).take iovMax).flatten.length = _
              rw [← this]
              omega
            · exact List.drop_of_length_le (by omega)
          · have := drain_poll _ hd (by omega) (by omega)
            rw [if_neg (by simp [hl0])] at h
            subst h; exact .inr this
        · cases h
      · cases h
      · cases h

theorem step_waits {s s' op k now} (h : step s op k now = .ok s') (hq : op.Quiet)
    (hs : Silent s.queue) (hc : s.closed = false → s.cork = false)
    (hw : s.closed = false → s.queue = [] ∨ s.pollW = true)
    (hk : ¬ Strands (op.offers now s) k) (ho : s'.closed = false) : s'.queue = [] ∨ s'.pollW = true := by
  unfold step at h
  split at h
  · split at h
    · rename_i hcl
      simp only [Outcome.ok.injEq] at h; subst h
      rw [hcl] at ho; cases ho
    · rename_i d cb hcl
      simp only [Op.Quiet] at hq; subst hq
      refine flush_waits h ?_ (hc (by simpa using hcl)) ?_ ho
      · intro r hr
        simp only [enqueue, List.mem_append, List.mem_singleton] at hr
        rcases hr with hr | rfl
        · exact hs r hr
        · rfl
      · simpa [enqueue, Op.offers, Req.bytesAt] using hk
  · split at h
    · rename_i hcl
      simp only [Outcome.ok.injEq] at h; subst h
      rw [hcl] at ho; cases ho
    · rename_i f hcl
      refine flush_waits h ?_ (hc (by simpa using hcl)) ?_ ho
      · intro r hr
        simp only [enqueue, List.mem_append, List.mem_singleton] at hr
        rcases hr with hr | rfl
        · exact hs r hr
        · rfl
      · simpa [enqueue, Op.offers, Req.bytesAt] using hk
  · split at h
    · simp only [Outcome.ok.injEq] at h; subst h
      exact hw ho
    · rename_i hn
      exact flush_waits h hs (hc (by cases hcl : s.closed <;> simp_all)) hk ho
  · split at h
    · simp only [Outcome.ok.injEq] at h; subst h
      exact hw ho
    · rename_i hn
      have hcl : s.closed = false := by cases hcl : s.closed <;> simp_all
      exact absurd (.inr (by simp [hc hcl])) hn
  · obtain ⟨_, _, c⟩ := close_accepted h
    rw [c] at ho; cases ho

theorem run_waits {t hist} : ∀ {s s' : State}, run s t hist = .ok s' → (∀ x ∈ hist, x.1.Quiet) →
    Silent s.queue → (s.closed = false → s.cork = false) →
    (s.closed = false → s.queue = [] ∨ s.pollW = true) →
    (∀ pre op k post u, hist = pre ++ (op, k) :: post → run s t pre = .ok u →
      ¬ Strands (op.offers (t + pre.length) u) k) →
    s'.closed = false → s'.queue = [] ∨ s'.pollW = true := by
  induction hist generalizing t with
  | nil => intro s s' h _ _ _ hw _ ho; simp only [run, Outcome.ok.injEq] at h; subst h; exact hw ho
  | cons x hist ih =>
    intro s s' h hq hs hc hw hk ho
    obtain ⟨op, k⟩ := x
    simp only [run] at h
    split at h
    · rename_i s1 h1
      obtain ⟨a, b, c, d⟩ := step_silent h1 (hq (op, k) (by simp)) hs hc
      refine ih h (fun x hx => hq x (by simp [hx])) a b
        (step_waits h1 (hq (op, k) (by simp)) hs hc hw (hk [] op k hist s rfl rfl)) ?_ ho
      intro pre op2 k2 post u h2 h3
      have := hk ((op, k) :: pre) op2 k2 post u (by rw [h2]; rfl) (by simp only [run, h1]; exact h3)
      rw [show t + ((op, k) :: pre).length = t + 1 + pre.length by simp; omega] at this
      exact this
    · cases h
    · cases h

/-- everything is written -/
theorem drain_all (n : Nat) : ∀ {s : State}, Silent s.queue → s.queue.length ≤ n → s.queue ≠ [] →
    (∀ r ∈ s.queue, r.payload?.isSome ∧ r.payload ≠ []) → s.closed = false →
    ∃ s', drain n ((s.queue.flatMap Req.payload).length : Int) s = .ok (s', 0) ∧ s'.queue = [] ∧
      s'.wire = s.wire ∧ s'.closed = false := by
  induction n with
  | zero => intro s _ hn hne; exact absurd (List.length_eq_zero_iff.1 (by omega)) hne
  | succ n ih =>
    intro s hs hn hne hp ho
    cases hq : s.queue with
    | nil => exact absurd hq hne
    | cons r q =>
      rw [hq] at hs hn hp
      obtain ⟨h1, h2⟩ := hp r (by simp)
      obtain ⟨p, h1⟩ := Option.isSome_iff_exists.1 h1
      have hr : r.onDone = .stop := hs r (by simp)
      have hpe := payload_eq h1
      simp only [drain, hq, h1, List.flatMap_cons, hpe, List.length_append]
      rw [if_pos (by omega), hr]
      simp only [react]
      by_cases hq0 : q = []
      · subst hq0
        rw [if_pos (by simp)]
        refine ⟨{ s with queue := [], log := s.log ++ [(r.id, .done)] }, by simp, rfl, rfl, ho⟩
      · have hpos : (q.flatMap Req.payload).length ≠ 0 := by
          cases q with
          | nil => exact absurd rfl hq0
          | cons a q =>
            have := (hp a (by simp)).2
            intro h0
            simp only [List.flatMap_cons, List.length_append] at h0
            exact this (List.length_eq_zero_iff.1 (by omega))
        rw [if_neg (by omega), if_neg (by simp [ho])]
        have := ih (s := { s with queue := q, log := s.log ++ [(r.id, .done)] })
          (fun x hx => hs x (by simp [hx])) (by simpa using hn) hq0 (fun x hx => hp x (by simp [hx])) ho
        simp only at this
        rw [show (((p.length + (q.flatMap Req.payload).length : Nat) : Int) - p.length) =
          ((q.flatMap Req.payload).length : Int) by omega]
        exact this

theorem run_quiet {t hist} : ∀ {s s' : State}, run s t hist = .ok s' → (∀ x ∈ hist, x.1.Quiet) →
    Silent s.queue → (s.closed = false → s.cork = false) →
    Silent s'.queue ∧ (s'.closed = false → s'.cork = false) := by
  induction hist generalizing t with
  | nil => intro s s' h _ hs hc; simp only [run, Outcome.ok.injEq] at h; subst h; exact ⟨hs, hc⟩
  | cons x hist ih =>
    intro s s' h hq hs hc
    obtain ⟨op, k⟩ := x
    simp only [run] at h
    split at h
    · rename_i s1 h1
      obtain ⟨a, b, c, d⟩ := step_silent h1 (hq (op, k) (by simp)) hs hc
      exact ih h (fun x hx => hq x (by simp [hx])) a b
    · cases h
    · cases h

theorem flush_all {now n s} (hs : Silent s.queue) (hc : s.cork = false) (ho : s.closed = false)
    (hl : s.queue.length ≤ iovMax) (hn : (s.queue.flatMap (Req.bytesAt now)).length ≤ n)
    (hne : ∀ r ∈ s.queue, r.bytesAt now ≠ []) : ∃ s', flush (.sent n) now s = .ok s' ∧ s'.queue = [] ∧
      s'.wire = s.wire ++ s.queue.flatMap (Req.bytesAt now) := by
  have hlen := evalReqs_length now iovMax s.queue
  have hb := evalReqs_bytes now iovMax s.queue
  rw [List.take_of_length_le (by omega), List.take_of_length_le hl] at hb
  have hvec : (evalReqs now iovMax s.queue).flatMap Req.payload = s.queue.flatMap (Req.bytesAt now) := by
    rw [List.flatMap_def, List.flatMap_def, hb]
  unfold flush
  rw [if_neg (by simp [hc])]
  simp only
  split
  · rename_i he
    rw [List.isEmpty_iff.mp he] at hlen
    have := List.length_eq_zero_iff.mp hlen.symm
    exact ⟨s, rfl, this, by simp [this]⟩
  · rename_i he
    obtain ⟨s1, h1, h2, h3, h4⟩ := drain_all (evalReqs now iovMax s.queue).length
      (s := { s with queue := evalReqs now iovMax s.queue, wire := s.wire ++ s.queue.flatMap (Req.bytesAt now),
                     cork := true })
      (evalReqs_silent hs) (Nat.le_refl _) (by simpa using he) (by
        intro r hr
        refine ⟨evalReqs_isSome now iovMax s.queue r
          (by rw [List.take_of_length_le (by omega)]; exact hr), ?_⟩
        have : r.payload ∈ s.queue.map (Req.bytesAt now) := by
          rw [← hb]; exact List.mem_map_of_mem hr
        obtain ⟨x, hx, hx2⟩ := List.mem_map.1 this
        rw [← hx2]
        exact hne x hx) ho
    simp only at h1
    rw [List.take_of_length_le (l := evalReqs now iovMax s.queue) (by omega), hvec, Nat.min_eq_right hn,
      List.take_length]
    rw [hvec] at h1
    rw [h1]
    refine ⟨_, rfl, ?_, ?_⟩
    · split <;> exact h2
    · split <;> exact h3

end Verif.Tcp
