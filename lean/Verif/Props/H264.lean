import Verif.Spec.H264
import Verif.Props.Vec

/-!
# C57 and C69 to C72: the H.264 encoder
-/

namespace Verif.H264
open Verif.Vec Verif.Enc

/-! ## Packets -/

theorem init_ok {m : Heap} (h : Plenty m) (n : Nat) : (init m n).2 = true ∧ Ok (init m n).1 ∧ (init m n).1.len = 0 := by
  unfold init
  generalize e : reserve m n { data := [], len := 0, cap := 0 } = q
  obtain ⟨v, r⟩ := q
  obtain ⟨a, b, -, -, -, f⟩ := reserve_ok (v := { data := [], len := 0, cap := 0 }) ⟨rfl, by simp⟩ e
  refine ⟨?_, a, b⟩
  cases r
  · have := h n
    rw [f rfl] at this
    cases this
  · rfl

theorem append_ok {m : Heap} (h : Plenty m) {b : Bytes} {v : Vec} (hv : Ok v) (hl : v.len + b.length < sizeT / 2) :
    ∃ v', Vec.step (.append m b) v = .ok (v', true) ∧ Ok v' ∧ v'.bytes = v.bytes ++ b ∧ v'.len = v.len + b.length := by
  rcases step_ok (o := .append m b) hv hl with ⟨why, hfast, -⟩ | ⟨v', r, e, o, hb, -, hr⟩
  · cases hfast
  · cases hr h
    have hb : v'.bytes = v.bytes ++ b := hb
    have := bytes_length o
    rw [hb, List.length_append, bytes_length hv] at this
    exact ⟨v', e, o, hb, this.symm⟩

theorem zero_ok {m : Heap} (h : Plenty m) {n : Nat} {v : Vec} (hv : Ok v) (hl : v.len + n < sizeT / 2) :
    ∃ v', Vec.step (.appendZero m n) v = .ok (v', true) ∧ Ok v' ∧ v'.len = v.len + n := by
  rcases step_ok (o := .appendZero m n) hv hl with ⟨why, hfast, -⟩ | ⟨v', r, e, o, hb, -, hr⟩
  · cases hfast
  · cases hr h
    have hb : v'.bytes = v.bytes ++ List.replicate n 0 := hb
    have := bytes_length o
    rw [hb, List.length_append, bytes_length hv, List.length_replicate] at this
    exact ⟨v', e, o, this.symm⟩

theorem initPending_ok {m m' m'' : Heap} (h : Plenty m) (h' : Plenty m') (h'' : Plenty m'') :
    ∃ v, initPending m m' m'' = .ok (v, true) ∧ Ok v ∧ v.len = 20 := by
  obtain ⟨a, b, c⟩ := init_ok h 4096
  unfold initPending
  generalize init m 4096 = q at *
  obtain ⟨v, r⟩ := q
  simp only at a b c
  subst a
  obtain ⟨v1, e1, o1, l1⟩ := zero_ok h' (n := 12) b (by rw [c]; decide)
  obtain ⟨v2, e2, o2, l2⟩ := zero_ok h'' (n := 8) o1 (by rw [l1, c]; decide)
  exact ⟨v2, by simp only [e1, e2, Outcome.bind_ok], o2, by omega⟩

theorem copyPacket_ok {m m' : Heap} (h : Plenty m) (h' : Plenty m') {out : Bytes} (hl : out.length < 4294967296) :
    copyPacket m m' out = .ok out := by
  obtain ⟨-, b, c⟩ := init_ok h out.length
  obtain ⟨v, e, -, hb, -⟩ := append_ok h' (b := out) b (by rw [c]; unfold sizeT; omega)
  unfold copyPacket
  rw [e]
  show Outcome.ok v.bytes = _
  rw [hb]
  unfold Vec.bytes
  rw [c]
  rfl

theorem headers_length (o : Oh) (n f : Nat) : (headers o n f).length = 20 := rfl

theorem read_headers {o : Oh} {n : Nat} (hx : o.x < 65536) (hy : o.y < 65536) (hw : o.width < 65536) (hh : o.height < 65536)
    {l rest : Bytes} (hl : l.length = n) (hn : n < 4294967296) :
    readRect (headers o n 0 ++ l ++ rest) = some (⟨o.x, o.y, o.width, o.height, 50, 0, l⟩, rest) := by
  unfold headers be16 be32
  simp only [List.cons_append, List.nil_append, readRect]
  rw [rd32_be32 n hn, rd16_be16 _ hx, rd16_be16 _ hy, rd16_be16 _ hw, rd16_be16 _ hh, rd32_be32 50 (by decide),
    rd32_be32 0 (by decide)]
  rw [if_pos (by simp; omega), ← hl, List.take_left' rfl, List.drop_left' rfl]

theorem pull_ok {a : Mem} (h1 : Plenty a.init) (h2 : Plenty a.rect) (h3 : Plenty a.header) (hf : a.frame = true) {o : Oh}
    (hv : Ok o.pending) {h out : Bytes} (hb : o.pending.bytes = h ++ out) (hh : h.length = 20) (ho : out ≠ [])
    (hl : out.length < 4294967296) :
    ∃ v, pull a o = .ok ({ o with pts := none, needsReset := false, pending := v },
        some ⟨headers o out.length 0 ++ out, 1, o.width % 65536, o.height % 65536, o.pts⟩) ∧ Ok v ∧ v.len = 20 := by
  have hlen := bytes_length hv
  rw [hb, List.length_append, hh] at hlen
  have hpos := List.length_pos_iff.mpr ho
  have hs : payloadSize o.pending.len = out.length := by
    unfold payloadSize
    rw [if_pos (by omega)]
    omega
  have hm := hv.mem
  have hc := hv.len
  obtain ⟨v, e, k1, k2⟩ := initPending_ok h1 h2 h3
  refine ⟨v, ?_, k1, k2⟩
  unfold pull
  rw [hs, if_neg (by omega)]
  have hfl : (if o.needsReset = true then resetContext else 0) = 0 := by unfold resetContext; split <;> rfl
  rw [hfl, writeAt_ok (by rw [headers_length]; omega), Outcome.bind_ok, readAt_ok (by
    simp only [List.length_append, List.length_take, List.length_drop, headers_length]; omega), Outcome.bind_ok, e]
  simp only [Outcome.bind_ok, hf, if_true]
  have hd : (List.drop 0 (List.take 0 o.pending.data ++ headers o out.length 0 ++
      List.drop (0 + (headers o out.length 0).length) o.pending.data)).take o.pending.len =
      headers o out.length 0 ++ out := by
    rw [List.take_zero, List.nil_append, List.drop_zero, headers_length, Nat.zero_add]
    have ht : o.pending.data.take o.pending.len = h ++ out := hb
    have hdr : (o.pending.data.drop 20).take out.length = out := by
      rw [List.take_drop, hlen, ht, ← hh, List.drop_left' rfl]
    rw [← hlen, ← headers_length o out.length 0, List.take_length_add_append, headers_length, hdr]
  rw [hd]

/-! ## C57 -/

/-- the codec's frames are of the encoder's size -/
def Fits (o : Oh) (e : Ff) : Prop :=
  ∀ fb, e.current = some fb ∨ fb ∈ e.queue → fb.width = o.width ∧ fb.height = o.height ∧ fb.format = o.format

structure OhOk (x y : Nat) (o : Oh) : Prop where
  x : o.x = x
  y : o.y = y
  size : o.width < 65536 ∧ o.height < 65536
  ok : Ok o.pending
  len : o.pending.len = 20
  fits : ∀ e, o.encoder = some e → Fits o e

theorem schedule_mem (e : Ff) : ∀ fb, (schedule e).1.current = some fb ∨ fb ∈ (schedule e).1.queue →
    e.current = some fb ∨ fb ∈ e.queue := by
  intro fb h
  unfold schedule at h
  split at h
  · exact h
  · exact h
  · rename_i h1 h2
    rw [h2]
    rcases h with h | h
    · cases h
      exact .inr List.mem_cons_self
    · exact .inr (List.mem_cons_of_mem _ h)

theorem schedule_effs (e : Ff) : (schedule e).2 = [] ∨ ∃ i k, (schedule e).2 = [.start i k] := by
  unfold schedule
  split
  · exact .inl rfl
  · exact .inl rfl
  · exact .inr ⟨_, _, rfl⟩

/-- the two lists belong together -/
def Match (x y : Nat) (es : List Eff) : Prop :=
  (finished es).length = (codedOf es).length ∧ ∀ p ∈ (codedOf es).zip (finished es), Carries x y p.1 p.2

theorem match_append {x y : Nat} {es es' : List Eff} (h : Match x y es) (h' : Match x y es') : Match x y (es ++ es') := by
  unfold Match finished codedOf at *
  rw [List.filterMap_append, List.filterMap_append]
  refine ⟨by rw [List.length_append, List.length_append, h.1, h'.1], ?_⟩
  rw [List.zip_append h.1.symm]
  intro p hp
  rcases List.mem_append.mp hp with hp | hp
  · exact h.2 p hp
  · exact h'.2 p hp

theorem match_nil (x y : Nat) : Match x y [] := ⟨rfl, nofun⟩

/-- nothing coded, nothing handed on -/
theorem match_quiet {x y : Nat} {es : List Eff} (h1 : finished es = []) (h2 : codedOf es = []) : Match x y es := by
  unfold Match
  rw [h1, h2]
  exact ⟨rfl, nofun⟩

theorem schedule_match (x y : Nat) (e : Ff) : Match x y (schedule e).2 := by
  rcases schedule_effs e with h | ⟨i, k, h⟩ <;> rw [h] <;> exact match_quiet rfl rfl

theorem handlePacket_ok {a : Mem} (r3 : Plenty a.append) (r4 : Plenty a.init) (r5 : Plenty a.rect) (r6 : Plenty a.header)
    (r7 : a.frame = true) {o : Oh} {out : Bytes} {pts : Nat} (hv : Ok o.pending) (hlen : o.pending.len = 20) (ho : out ≠ [])
    (hl : out.length < 4294967296) :
    ∃ v, handlePacket a out pts o = .ok ({ o with pts := none, needsReset := false, pending := v },
        [.finish (some ⟨headers o out.length 0 ++ out, 1, o.width % 65536, o.height % 65536, some pts⟩)]) ∧ Ok v ∧ v.len = 20 := by
  obtain ⟨v, e2, k1, k2, -⟩ := append_ok r3 (b := out) hv (by rw [hlen]; unfold sizeT; omega)
  have hbl := bytes_length hv
  obtain ⟨v', e3, k3, k4⟩ := pull_ok (a := a) r4 r5 r6 r7
    (o := { o with pending := v, pts := some pts })
    (h := o.pending.bytes) (out := out) k1 k2 (by omega) ho hl
  refine ⟨v', ?_, k3, k4⟩
  unfold handlePacket
  rw [if_neg (by omega), e2, Outcome.bind_ok]
  simp only
  rw [e3]
  rfl

theorem done_match {x y : Nat} {fb : Fb} {out : Bytes} {es0 : List Eff} {r : Option Frame} (ho : out ≠ [])
    (hq : codedOf es0 = [] ∧ finished es0 = []) (hc : Carries x y (fb, out) r) :
    Match x y ([.release fb.id, .coded fb out] ++ es0 ++ [.finish r]) := by
  have hco : codedOf ([.release fb.id, .coded fb out] ++ es0 ++ [.finish r]) = [(fb, out)] := by
    unfold codedOf at hq ⊢
    rw [List.filterMap_append, List.filterMap_append, hq.1]
    simp [ho]
  have hfi : finished ([.release fb.id, .coded fb out] ++ es0 ++ [.finish r]) = [r] := by
    unfold finished at hq ⊢
    rw [List.filterMap_append, List.filterMap_append, hq.2]
    rfl
  unfold Match
  rw [hco, hfi]
  refine ⟨rfl, fun p hp => ?_⟩
  cases List.mem_singleton.mp hp
  exact hc

theorem workDone_ok {x y : Nat} (hx : x < 65536) (hy : y < 65536) {a : Mem} {out : Bytes} (hr : (Ev.done out a).Roomy) {o o' : Oh}
    {es : List Eff} (h : OhOk x y o) (e : workDone a out o = .ok (o', es)) : OhOk x y o' ∧ Match x y es := by
  unfold workDone at e
  split at e
  · cases e
    exact ⟨h, match_nil x y⟩
  · rename_i f hf
    split at e
    · cases e
      exact ⟨h, match_nil x y⟩
    · rename_i fb hc
      have hfit := h.fits f hf
      split at e
      · rename_i ho
        subst ho
        cases e
        refine ⟨⟨h.x, h.y, h.size, h.ok, h.len, fun g hg => ?_⟩, match_quiet rfl rfl⟩
        cases hg
        exact fun fb' h' => hfit fb' (h'.elim nofun .inr)
      · rename_i ho
        obtain ⟨r1, r2, r3, r4, r5, r6, r7, r8⟩ := hr
        rw [copyPacket_ok r1 r2 r8, Outcome.bind_ok] at e
        have hmem := schedule_mem { f with current := none }
        have heff := schedule_effs { f with current := none }
        generalize schedule { f with current := none } = q at e hmem heff
        obtain ⟨f', es0⟩ := q
        simp only at e hmem heff
        obtain ⟨⟨o1, es1⟩, e1, e⟩ := Outcome.bind_eq_ok.mp e
        cases e
        obtain ⟨v', e3, k3, k4⟩ := handlePacket_ok (a := a) r3 r4 r5 r6 r7 (o := { o with encoder := some f' })
          (pts := fb.pts) h.ok h.len ho r8
        rw [e3] at e1
        cases e1
        obtain ⟨hw, hh, -⟩ := hfit fb (.inl hc)
        obtain ⟨sw, sh⟩ := h.size
        refine ⟨⟨h.x, h.y, h.size, k3, k4, fun g hg => ?_⟩, ?_⟩
        · cases hg
          intro fb' h'
          exact hfit fb' ((hmem fb' h').elim nofun .inr)
        · refine done_match ho ⟨?_, ?_⟩ ⟨_, rfl, rfl, by simp only; omega, by simp only; omega, rfl, fun rest => ?_⟩
          · rcases heff with h | ⟨i, k, h⟩ <;> rw [h] <;> rfl
          · rcases heff with h | ⟨i, k, h⟩ <;> rw [h] <;> rfl
          · have := read_headers (o := { o with encoder := some f' }) (n := out.length) (l := out) (rest := rest)
              (by rw [h.x]; exact hx) (by rw [h.y]; exact hy) sw sh rfl r8
            rw [this]
            simp only
            rw [h.x, h.y, hw, hh]

theorem ffFeed_ok {fb : Fb} {e e' : Ff} {es : List Eff} (h : ffFeed fb e = .ok (e', es)) :
    fb.gbm = true ∧ fb.normal = true ∧ e' = (schedule { e with queue := e.queue ++ [fb] }).1 ∧
      es = .hold fb.id :: (schedule { e with queue := e.queue ++ [fb] }).2 := by
  unfold ffFeed at h
  split at h
  · cases h
  · rename_i h1
    split at h
    · cases h
    · rename_i h2
      rw [Bool.not_eq_false] at h1 h2
      cases h
      exact ⟨h1, h2, rfl, rfl⟩

/-- what encoding a frame does -/
theorem encode_cases {created : Bool} {fb : Fb} {o o' : Oh} {old : Option Ff} {es : List Eff}
    (e : encode created fb o = .ok (o', old, es)) :
    (created = false ∧ o' = o ∧ old = none ∧ es = [.refused]) ∨
    (created = true ∧ ∃ o1 e1, resize true fb o = some (o1, old, e1) ∧ ∃ e2, encodeWith fb o1 = .ok (o', e2) ∧ es = e1 ++ e2) ∨
    (fb.width = o.width ∧ fb.height = o.height ∧ fb.format = o.format ∧ o.qualityChanged = false ∧ old = none ∧
      encodeWith fb o = .ok (o', es)) := by
  unfold encode at e
  split at e
  · split at e
    · rename_i hr
      cases e
      unfold resize at hr
      split at hr
      · cases hr
      · rename_i hc
        exact .inl ⟨by simpa using hc, rfl, rfl, rfl⟩
    · rename_i o1 old1 e1 hr
      obtain ⟨⟨o2, e2⟩, h1, h2⟩ := Outcome.bind_eq_ok.mp e
      cases h2
      have hc : created = true := by
        unfold resize at hr
        split at hr
        · assumption
        · cases hr
      subst hc
      exact .inr (.inl ⟨rfl, o1, e1, hr, e2, h1, rfl⟩)
  · rename_i hn
    obtain ⟨⟨o2, e2⟩, h1, h2⟩ := Outcome.bind_eq_ok.mp e
    cases h2
    refine .inr (.inr ⟨?_, ?_, ?_, ?_, rfl, h1⟩)
    · exact Classical.byContradiction fun h => hn (.inl h)
    · exact Classical.byContradiction fun h => hn (.inr (.inl h))
    · exact Classical.byContradiction fun h => hn (.inr (.inr (.inl h)))
    · rw [← Bool.not_eq_true]
      exact fun h => hn (.inr (.inr (.inr h)))

theorem encodeWith_ok {fb : Fb} {o o' : Oh} {es : List Eff} (e : encodeWith fb o = .ok (o', es)) :
    ∃ f f', o.encoder = some f ∧ ffFeed fb f = .ok (f', es) ∧ o' = { o with encoder := some f' } := by
  unfold encodeWith at e
  split at e
  · cases e
  · split at e
    · cases e
    · rename_i f hf
      obtain ⟨⟨f', es'⟩, h1, h2⟩ := Outcome.bind_eq_ok.mp e
      cases h2
      exact ⟨f, f', hf, h1, rfl⟩

theorem encodeWith_inv {x y : Nat} {fb : Fb} {o o' : Oh} {es : List Eff} (h : OhOk x y o) (hw : fb.width = o.width)
    (hh : fb.height = o.height) (hf : fb.format = o.format) (e : encodeWith fb o = .ok (o', es)) :
    OhOk x y o' ∧ Match x y es := by
  obtain ⟨f, f', h1, h2, rfl⟩ := encodeWith_ok e
  obtain ⟨-, -, rfl, h4⟩ := ffFeed_ok h2
  refine ⟨⟨h.x, h.y, h.size, h.ok, h.len, fun g hg => ?_⟩, ?_⟩
  · cases hg
    intro fb' h'
    rcases schedule_mem _ fb' h' with h' | h'
    · exact h.fits f h1 fb' (.inl h')
    · rcases List.mem_append.mp h' with h' | h'
      · exact h.fits f h1 fb' (.inr h')
      · cases List.mem_singleton.mp h'
        exact ⟨hw, hh, hf⟩
  · rw [h4]
    have := match_append (x := x) (y := y) (es := [Eff.hold fb.id]) (match_quiet rfl rfl)
      (schedule_match x y { f with queue := f.queue ++ [fb] })
    exact this

theorem resize_ok {fb : Fb} {o o1 : Oh} {old : Option Ff} {e1 : List Eff} (h : resize true fb o = some (o1, old, e1)) :
    o1 = { o with encoder := some (ffCreate fb.width fb.height fb.format (qp o.quality)), width := fb.width,
                  height := fb.height, format := fb.format, needsReset := true, qualityChanged := false } ∧
    old = o.encoder.bind ffDestroy ∧ e1 = [.create fb.width fb.height fb.format (qp o.quality)] := by
  cases h
  exact ⟨rfl, rfl, rfl⟩

theorem encode_inv {x y : Nat} {created : Bool} {fb : Fb} {o o' : Oh} {old : Option Ff} {es : List Eff} (hs : fb.Small)
    (h : OhOk x y o) (e : encode created fb o = .ok (o', old, es)) : OhOk x y o' ∧ Match x y es := by
  rcases encode_cases e with ⟨-, rfl, -, rfl⟩ | ⟨-, o1, e1, h1, e2, h2, rfl⟩ | ⟨h1, h2, h3, -, -, h4⟩
  · exact ⟨h, match_quiet rfl rfl⟩
  · obtain ⟨rfl, -, rfl⟩ := resize_ok h1
    have hk : OhOk x y { o with encoder := some (ffCreate fb.width fb.height fb.format (qp o.quality)), width := fb.width, height := fb.height, format := fb.format, needsReset := true, qualityChanged := false } :=
      ⟨h.x, h.y, hs, h.ok, h.len, fun g hg => by
        cases hg
        intro fb' h'
        rcases h' with h' | h' <;> cases h'⟩
    obtain ⟨k1, k2⟩ := encodeWith_inv hk rfl rfl rfl h2
    exact ⟨k1, match_append (match_quiet rfl rfl) k2⟩
  · exact encodeWith_inv h h1 h2 h3 h4

def SysOk (x y : Nat) (s : Sys) : Prop := ∀ o, s.oh = some o → OhOk x y o

theorem step_inv {x y : Nat} (hx : x < 65536) (hy : y < 65536) {s s' : Sys} {ev : Ev} {es : List Eff} (hr : ev.Roomy) (h : SysOk x y s)
    (e : step s ev = .ok (s', es)) : SysOk x y s' ∧ Match x y es := by
  cases ev with
  | encode fb c =>
    unfold step at e
    simp only at e
    split at e
    · cases e
      exact ⟨h, match_nil x y⟩
    · rename_i o ho
      obtain ⟨⟨o', old, es'⟩, h1, h2⟩ := Outcome.bind_eq_ok.mp e
      cases h2
      obtain ⟨k1, k2⟩ := encode_inv hr (h o ho) h1
      exact ⟨fun o hq => by cases hq; exact k1, k2⟩
  | done out a =>
    unfold step at e
    simp only at e
    split at e
    · cases e
      exact ⟨h, match_nil x y⟩
    · rename_i o ho
      obtain ⟨⟨o', es'⟩, h1, h2⟩ := Outcome.bind_eq_ok.mp e
      cases h2
      obtain ⟨k1, k2⟩ := workDone_ok hx hy hr (h o ho) h1
      exact ⟨fun o hq => by cases hq; exact k1, k2⟩
  | oldDone i out =>
    unfold step at e
    simp only at e
    split at e
    · cases e
      exact ⟨h, match_nil x y⟩
    · rename_i f hf
      cases e
      refine ⟨h, ?_⟩
      cases f.current <;> exact match_quiet rfl rfl
  | quality v =>
    cases e
    refine ⟨fun o ho => ?_, match_nil x y⟩
    obtain ⟨o1, h1, rfl⟩ := Option.map_eq_some_iff.mp ho
    have := h o1 h1
    exact ⟨this.x, this.y, this.size, this.ok, this.len, this.fits⟩
  | key =>
    unfold step at e
    simp only at e
    split at e
    · cases e
      exact ⟨h, match_nil x y⟩
    · rename_i o ho
      obtain ⟨o', h1, h2⟩ := Outcome.bind_eq_ok.mp e
      cases h2
      have := h o ho
      unfold requestKey at h1
      split at h1
      · cases h1
      · rename_i f hf
        cases h1
        exact ⟨fun o hq => by
          cases hq
          exact ⟨this.x, this.y, this.size, this.ok, this.len, fun g hg => by cases hg; exact this.fits f hf⟩, match_quiet rfl rfl⟩
  | destroy =>
    unfold step at e
    simp only at e
    split at e
    · cases e
      exact ⟨h, match_nil x y⟩
    · cases e
      exact ⟨nofun, match_nil x y⟩

theorem run_inv {x y : Nat} (hx : x < 65536) (hy : y < 65536) : ∀ (evs : List Ev) {s s' : Sys} {es : List Eff},
    (∀ ev ∈ evs, ev.Roomy) → SysOk x y s → run s evs = .ok (s', es) → SysOk x y s' ∧ Match x y es
  | [], s, s', es, _, h, e => by
    cases e
    exact ⟨h, match_nil x y⟩
  | ev :: evs, s, s', es, hr, h, e => by
    rw [run] at e
    obtain ⟨⟨s1, es1⟩, h1, e⟩ := Outcome.bind_eq_ok.mp e
    obtain ⟨⟨s2, es2⟩, h2, e⟩ := Outcome.bind_eq_ok.mp e
    cases e
    obtain ⟨k1, k2⟩ := step_inv hx hy (hr ev List.mem_cons_self) h h1
    obtain ⟨k3, k4⟩ := run_inv hx hy evs (fun ev' h' => hr ev' (List.mem_cons_of_mem _ h')) k1 h2
    exact ⟨k3, match_append k2 k4⟩

theorem new_ok {x y : Nat} {m m' m'' : Heap} (h : Plenty m) (h' : Plenty m') (h'' : Plenty m'') :
    ∃ o, new x y m m' m'' = .ok (some o) ∧ OhOk x y o ∧ o.encoder = none ∧ o.width = 0 ∧ o.height = 0 ∧ o.format = 0 ∧
      o.quality = 6 ∧ o.qualityChanged = false := by
  obtain ⟨v, e, k1, k2⟩ := initPending_ok h h' h''
  refine ⟨_, by unfold new; rw [e]; rfl, ⟨rfl, rfl, ⟨Nat.zero_lt_succ _, Nat.zero_lt_succ _⟩, k1, k2, fun _ h => by cases h⟩, rfl, rfl, rfl, rfl, rfl, rfl⟩

/-- **C57** (part): from the creation of an encoder on, whatever is done with it, the frames that are handed on are
those that the codec gave, in order; each is one rectangle of the size of its picture whose length is
that of the codec's data, so that a client can tell what follows.

What is missing: memory may be short, see `c57_memory_violated`. -/
theorem c57_rects_partial {x y : Nat} (hx : x < 65536) (hy : y < 65536) {m m' m'' : Heap} (h : Plenty m) (h' : Plenty m')
    (h'' : Plenty m'') {o : Oh} (hn : new x y m m' m'' = .ok (some o)) {evs : List Ev} (hr : ∀ ev ∈ evs, ev.Roomy) {s : Sys} {es : List Eff}
    (e : run ⟨some o, []⟩ evs = .ok (s, es)) :
    (finished es).length = (codedOf es).length ∧ ∀ p ∈ (codedOf es).zip (finished es), Carries x y p.1 p.2 := by
  obtain ⟨o1, k1, k2, -⟩ := new_ok (x := x) (y := y) h h' h''
  rw [hn] at k1
  cases k1
  exact (run_inv hx hy evs hr (fun o1 hq => by cases hq; exact k2) e).2

/-! ## Examples -/

def okHeap : Heap := fun _ => some fun _ => 0xAA
def noHeap : Heap := fun _ => none
theorem okHeap_plenty : Plenty okHeap := fun _ => rfl

def okMem : Mem := ⟨okHeap, okHeap, okHeap, okHeap, okHeap, okHeap, true⟩
def demoFb (i w h : Nat) : Fb := ⟨i, w, h, 7, 1000 * i, true, true⟩

/-- a new encoder and what happens to it -/
def session (evs : List Ev) : Outcome (List Eff) := do
  match ← new 0 0 okHeap okHeap okHeap with
  | none => .ok []
  | some o => do
    let (_, es) ← run ⟨some o, []⟩ evs
    .ok es

def rectOf : Option Frame → Option (Rect × Bytes)
  | some fr => readRect fr.payload
  | none => none

/-- the sizes of the streams begun -/
def sizes (es : List Eff) : List (Nat × Nat) :=
  es.filterMap fun e => match e with
    | .create w h _ _ => some (w, h)
    | _ => none

/-- three frames, the second of another size -/
def demoEvs : List Ev :=
  [.encode (demoFb 1 64 48) true, .done [0, 0, 1] okMem, .encode (demoFb 2 32 48) true, .done [0, 0, 0, 5] okMem, .key, .quality 3,
    .encode (demoFb 3 32 48) true, .done [0, 7] okMem]

example : (do let es ← session demoEvs; .ok ((finished es).map rectOf)) = .ok
    [some (⟨0, 0, 64, 48, 50, 0, [0, 0, 1]⟩, []), some (⟨0, 0, 32, 48, 50, 0, [0, 0, 0, 5]⟩, []),
      some (⟨0, 0, 32, 48, 50, 0, [0, 7]⟩, [])] := by decide +kernel

example : ∀ ev ∈ demoEvs, ev.Roomy := by
  simp [demoEvs, Ev.Roomy, Fb.Small, demoFb, okMem, okHeap_plenty]

/-- C57 is violated when there is no memory for a copy of the codec's data: no frame is handed on but NULL,
which finish_fb_update, server.c 2507, does not expect -/
theorem c57_memory_violated : (do
    let es ← session [.encode (demoFb 1 64 48) true, .done [0, 0, 1] { okMem with copy := noHeap, copy' := noHeap }]
    .ok (finished es)) = .ok [none] := by decide +kernel

/-- C57 is violated when there is no memory for the next packet: the length of the one after it wraps -/
theorem c57_pending_violated : session [.encode (demoFb 1 64 48) true, .done [0, 0, 1] { okMem with init := noHeap },
    .encode (demoFb 2 64 48) true, .done [0, 0, 1] okMem] = .ub "write out of bounds" := by decide +kernel

/-- C69 is violated: the second of these rectangles begins a new stream, and does not say so; ResetContext is
bit 0 of the flags -/
theorem c69_reset_violated : (do
    let es ← session demoEvs
    .ok (sizes es, (finished es).map fun r => (rectOf r).map fun (q : Rect × Bytes) => q.1.flags.testBit 0)) = .ok
    ([(64, 48), (32, 48), (32, 48)], [some false, some false, some false]) := by decide +kernel

/-! ## C70 -/

theorem step_defined {x y : Nat} {b : Bool} {s : Sys} {ev : Ev} {evs : List Ev} (hr : ev.Roomy)
    (h : SysOk x y s) (hb : ∀ o, s.oh = some o → (b = true → o.encoder ≠ none) ∧ (o.encoder = none → o.width = 0))
    (ho : Orderly b (ev :: evs)) : ∃ s' es b', step s ev = .ok (s', es) ∧ Orderly b' evs ∧
      ∀ o, s'.oh = some o → (b' = true → o.encoder ≠ none) ∧ (o.encoder = none → o.width = 0) := by
  cases ev with
  | encode fb c =>
    obtain ⟨g1, g2, g3, g4, g5, g6⟩ := ho
    unfold step
    simp only
    split
    · rename_i hs
      exact ⟨_, _, true, rfl, g6, fun o hq => by rw [hs] at hq; cases hq⟩
    · rename_i o hs
      obtain ⟨b1, b2⟩ := hb o hs
      have feed : ∀ f : Ff, ∃ f' es, ffFeed fb f = .ok (f', es) := by
        intro f
        unfold ffFeed
        rw [if_neg (by rw [g1]; decide), if_neg (by rw [g2]; decide)]
        exact ⟨_, _, rfl⟩
      have key : ∃ o' old es, encode c fb o = .ok (o', old, es) ∧ o'.encoder ≠ none := by
        unfold encode
        split
        · cases c with
          | false =>
            refine ⟨_, _, _, rfl, b1 ?_⟩
            cases b
            · cases g5 rfl
            · rfl
          | true =>
            obtain ⟨f', es', hf⟩ := feed (ffCreate fb.width fb.height fb.format (qp o.quality))
            unfold resize
            simp only [if_true]
            unfold encodeWith
            rw [if_neg (by simp only; omega)]
            simp only
            rw [hf]
            exact ⟨_, _, _, rfl, nofun⟩
        · rename_i hn
          have hw : fb.width = o.width := Classical.byContradiction fun h => hn (.inl h)
          have hh : fb.height = o.height := Classical.byContradiction fun h => hn (.inr (.inl h))
          unfold encodeWith
          rw [if_neg (by omega)]
          cases he : o.encoder with
          | none =>
            have := b2 he
            omega
          | some f =>
            obtain ⟨f', es', hf⟩ := feed f
            simp only
            rw [hf]
            exact ⟨_, _, _, rfl, nofun⟩
      obtain ⟨o', old, es, k1, k2⟩ := key
      rw [k1]
      refine ⟨_, _, true, rfl, g6, fun o hq => ?_⟩
      cases hq
      exact ⟨fun _ => k2, fun hn => absurd hn k2⟩
  | done out a =>
    unfold step
    simp only
    split
    · exact ⟨_, _, b, rfl, ho, hb⟩
    · rename_i o hs
      have hk := h o hs
      obtain ⟨b1, b2⟩ := hb o hs
      unfold workDone
      split
      · exact ⟨_, _, b, rfl, ho, fun o' hq => by cases hq; exact ⟨b1, b2⟩⟩
      · rename_i f hf
        split
        · exact ⟨_, _, b, rfl, ho, fun o' hq => by cases hq; exact ⟨b1, b2⟩⟩
        · split
          · exact ⟨_, _, b, rfl, ho, fun o' hq => by cases hq; exact ⟨fun _ => nofun, nofun⟩⟩
          · rename_i fb hc hne
            obtain ⟨r1, r2, r3, r4, r5, r6, r7, r8⟩ := hr
            rw [copyPacket_ok r1 r2 r8, Outcome.bind_ok]
            generalize schedule { f with current := none } = q
            obtain ⟨f', es0⟩ := q
            simp only
            obtain ⟨v', e3, -, -⟩ := handlePacket_ok (a := a) r3 r4 r5 r6 r7 (o := { o with encoder := some f' })
              (pts := fb.pts) hk.ok hk.len hne r8
            rw [e3]
            exact ⟨_, _, b, rfl, ho, fun o' hq => by cases hq; exact ⟨fun _ => nofun, nofun⟩⟩
  | oldDone i out =>
    unfold step
    simp only
    split
    · exact ⟨_, _, b, rfl, ho, hb⟩
    · exact ⟨_, _, b, rfl, ho, hb⟩
  | quality v =>
    refine ⟨_, _, b, rfl, ho, fun o hq => ?_⟩
    obtain ⟨o1, h1, rfl⟩ := Option.map_eq_some_iff.mp hq
    exact hb o1 h1
  | key =>
    obtain ⟨rfl, ho⟩ := ho
    unfold step
    simp only
    split
    · exact ⟨_, _, true, rfl, ho, hb⟩
    · rename_i o hs
      obtain ⟨b1, b2⟩ := hb o hs
      unfold requestKey
      cases hf : o.encoder with
      | none => exact absurd hf (b1 rfl)
      | some f => exact ⟨_, _, true, rfl, ho, fun o' hq => by cases hq; exact ⟨fun _ => nofun, nofun⟩⟩
  | destroy =>
    unfold step
    simp only
    split
    · exact ⟨_, _, b, rfl, ho, hb⟩
    · exact ⟨_, _, b, rfl, ho, nofun⟩

theorem run_defined {x y : Nat} (hx : x < 65536) (hy : y < 65536) : ∀ (evs : List Ev) {b : Bool} {s : Sys}, (∀ ev ∈ evs, ev.Roomy) →
    SysOk x y s → (∀ o, s.oh = some o → (b = true → o.encoder ≠ none) ∧ (o.encoder = none → o.width = 0)) → Orderly b evs →
    ∃ r, run s evs = .ok r
  | [], b, s, _, _, _, _ => ⟨_, rfl⟩
  | ev :: evs, b, s, hr, h, hb, ho => by
    obtain ⟨s', es, b', k1, k2, k3⟩ := step_defined (hr ev List.mem_cons_self) h hb ho
    obtain ⟨k4, -⟩ := step_inv hx hy (hr ev List.mem_cons_self) h k1
    obtain ⟨⟨s2, es2⟩, k5⟩ := run_defined hx hy evs (fun ev' h' => hr ev' (List.mem_cons_of_mem _ h')) k4 k3 k2
    exact ⟨(s2, es ++ es2), by rw [run, k1, Outcome.bind_ok]; simp only; rw [k5]; rfl⟩

/-- **C70** (part): a client's H.264 encoder does not crash the server, whatever is done with it, as long as a codec could
be created when it was first used, and a key frame is not asked for before.

What is missing: a codec may not be available for a frame's format or size, see `c70_key_violated`. -/
theorem c70_defined_partial {x y : Nat} (hx : x < 65536) (hy : y < 65536) {m m' m'' : Heap} (h : Plenty m) (h' : Plenty m')
    (h'' : Plenty m'') {evs : List Ev} (hr : ∀ ev ∈ evs, ev.Roomy) (ho : Orderly false evs) :
    ∃ o r, new x y m m' m'' = .ok (some o) ∧ run ⟨some o, []⟩ evs = .ok r := by
  obtain ⟨o, k1, k2, k3, k4, -⟩ := new_ok (x := x) (y := y) h h' h''
  obtain ⟨r, k5⟩ := run_defined (b := false) (s := ⟨some o, []⟩) hx hy evs hr (fun o1 hq => by cases hq; exact k2)
    (fun o1 hq => by cases hq; exact ⟨nofun, fun _ => k4⟩) ho
  exact ⟨o, r, k1, k5⟩

example : Orderly false demoEvs := by simp [demoEvs, Orderly, demoFb]

/-- C70 is violated when no codec can be created, for example because of the format of the frame: encoding fails,
and the client's next request for all of the screen dereferences NULL -/
theorem c70_key_violated : session [.encode (demoFb 1 64 48) false, .key] = .ub "NULL encoder" := by decide +kernel

/-- C70 is violated by a framebuffer that is empty, whatever was done with the encoder before, if a codec for it can be
created: an assertion fails -/
theorem c70_empty_violated {s : Sys} {o : Oh} (hs : s.oh = some o) {fb : Fb} (hf : fb.width = 0 ∨ fb.height = 0) :
    step s (.encode fb true) = .abort "self->width && self->height" := by
  unfold step
  simp only [hs]
  have h : encode true fb o = .abort "self->width && self->height" := by
    unfold encode
    split
    · unfold resize
      simp only [if_true]
      unfold encodeWith
      rw [if_pos hf]
      rfl
    · rename_i hn
      have hw : fb.width = o.width := Classical.byContradiction fun h => hn (.inl h)
      have hh : fb.height = o.height := Classical.byContradiction fun h => hn (.inr (.inl h))
      unfold encodeWith
      rw [if_pos (by omega)]
      rfl
  rw [h]
  rfl

example : session [.encode (demoFb 1 64 48) true, .done [0] okMem, .encode (demoFb 2 64 0) true] =
    .abort "self->width && self->height" := by decide +kernel

/-! ## C71 -/

/-- the number of jobs of the codec in use -/
def jobs (s : Sys) : Nat := ((s.oh.bind Oh.encoder).bind Ff.current).toList.length

/-- the codec has a job exactly while an update is being made, and never more -/
def Idle (b : Bool) (s : Sys) : Prop :=
  ∀ o, s.oh = some o → (o.encoder = none → b = false) ∧ ∀ e, o.encoder = some e → e.queue = [] ∧ b = e.current.isSome

structure Tidy (s : Sys) (es : List Eff) (s' : Sys) : Prop where
  starts : starts es = holds es
  uses : ∀ i, (inUse s).count i + (holds es).count i = (releases es).count i + (inUse s').count i
  lives : s'.oh ≠ none → s.oh ≠ none ∧ jobs s + (holds es).length = (finished es).length + jobs s'

theorem tidy_refl (s : Sys) : Tidy s [] s := ⟨rfl, fun i => by simp [holds, releases], fun h => ⟨h, by simp [holds, finished]⟩⟩

theorem tidy_trans {s s' s'' : Sys} {es es' : List Eff} (h : Tidy s es s') (h' : Tidy s' es' s'') : Tidy s (es ++ es') s'' := by
  obtain ⟨a1, a2, a3⟩ := h
  obtain ⟨b1, b2, b3⟩ := h'
  have q1 : H264.starts (es ++ es') = H264.starts es ++ H264.starts es' := List.filterMap_append ..
  have q2 : holds (es ++ es') = holds es ++ holds es' := List.filterMap_append ..
  have q3 : releases (es ++ es') = releases es ++ releases es' := List.filterMap_append ..
  have q4 : finished (es ++ es') = finished es ++ finished es' := List.filterMap_append ..
  refine ⟨by rw [q1, q2, a1, b1], fun i => ?_, fun h => ?_⟩
  · have := a2 i
    have := b2 i
    rw [q2, q3, List.count_append, List.count_append]
    omega
  · obtain ⟨c1, c2⟩ := b3 h
    obtain ⟨c3, c4⟩ := a3 c1
    refine ⟨c3, ?_⟩
    rw [q2, q4, List.length_append, List.length_append]
    omega

theorem count_old {l : List Ff} {i : Nat} {e : Ff} (h : l[i]? = some e) (j : Nat) :
    (l.filterMap fun e => e.current.map Fb.id).count j =
      ((l.eraseIdx i).filterMap fun e => e.current.map Fb.id).count j + (e.current.map Fb.id).toList.count j := by
  induction l generalizing i with
  | nil => cases h
  | cons b l ih =>
    cases i with
    | zero =>
      cases h
      rw [List.eraseIdx_cons_zero]
      cases hb : e.current <;> simp [hb, List.count_cons]
    | succ i =>
      rw [List.eraseIdx_cons_succ]
      have := ih h
      cases hb : b.current <;> simp [hb, List.count_cons] <;> omega

theorem idle_busy {o : Oh} {f' : Ff} {fb : Fb} (q1 : o.encoder = some f') (q2 : f'.queue = []) (q3 : f'.current = some fb) :
    (o.encoder = none → true = false) ∧ ∀ e, o.encoder = some e → e.queue = [] ∧ true = e.current.isSome := by
  rw [q1]
  refine ⟨nofun, fun g hg => ?_⟩
  cases hg
  exact ⟨q2, by rw [q3]; rfl⟩

/-- a job is begun by a codec that has none -/
theorem feed_idle {fb : Fb} {o o' : Oh} {es : List Eff} {f : Ff} (hf : o.encoder = some f) (hq : f.queue = []) (hc : f.current = none)
    (e : encodeWith fb o = .ok (o', es)) :
    es = [.hold fb.id, .start fb.id f.nextKey] ∧ ∃ f', o'.encoder = some f' ∧ f'.queue = [] ∧ f'.current = some fb := by
  obtain ⟨g, f', h1, h2, rfl⟩ := encodeWith_ok e
  rw [hf] at h1
  cases h1
  obtain ⟨-, -, rfl, rfl⟩ := ffFeed_ok h2
  have : schedule { f with queue := f.queue ++ [fb] } = ({ f with current := some fb, queue := [], nextKey := false }, [.start fb.id f.nextKey]) := by
    unfold schedule
    simp only [hq, hc, List.nil_append]
  rw [this]
  exact ⟨rfl, _, rfl, rfl, rfl⟩

theorem step_tidy {x y : Nat} {s s' : Sys} {ev : Ev} {es : List Eff} {b : Bool} (hr : ev.Roomy) (hg : ev.Gives) (h : SysOk x y s)
    (hi : Idle b s) (hp : (∃ fb c, ev = .encode fb c) → b = false) (e : step s ev = .ok (s', es)) :
    Idle (busy b es) s' ∧ Tidy s es s' := by
  cases ev with
  | encode fb c =>
    cases hp ⟨fb, c, rfl⟩
    unfold step at e
    simp only at e
    split at e
    · cases e
      exact ⟨hi, tidy_refl s⟩
    · rename_i o ho
      obtain ⟨⟨o', old, es'⟩, h1, h2⟩ := Outcome.bind_eq_ok.mp e
      cases h2
      obtain ⟨i1, i2⟩ := hi o ho
      have hcur : ∀ f, o.encoder = some f → f.current = none := by
        intro f hf
        have := (i2 f hf).2
        cases hc : f.current with
        | none => rfl
        | some _ => rw [hc] at this; cases this
      have hold : o.encoder.bind ffDestroy = none := by
        cases hf : o.encoder with
        | none => rfl
        | some f => exact (by unfold ffDestroy; simp only [hcur f hf] : ffDestroy f = none)
      have hj : (s.oh.bind Oh.encoder).bind Ff.current = none := by
        rw [ho]
        cases hf : o.encoder with
        | none => simp [hf]
        | some f => simp [hf, hcur f hf]
      rcases encode_cases h1 with ⟨-, rfl, rfl, rfl⟩ | ⟨-, o1, e1, k1, e2, k2, rfl⟩ | ⟨-, -, -, -, rfl, k2⟩
      · have hs : (⟨some o', s.old ++ (none : Option Ff).toList⟩ : Sys) = s := by
          obtain ⟨_, _⟩ := s
          cases ho
          simp
        rw [hs]
        exact ⟨hi, rfl, fun i => by simp [holds, releases], fun h => ⟨h, by simp [holds, finished]⟩⟩
      · obtain ⟨rfl, rfl, rfl⟩ := resize_ok k1
        obtain ⟨rfl, f', q1, q2, q3⟩ := feed_idle (f := ffCreate fb.width fb.height fb.format (qp o.quality)) rfl rfl rfl k2
        refine ⟨fun o2 hq => ?_, rfl, fun i => ?_, fun _ => ⟨by rw [ho]; nofun, ?_⟩⟩
        · cases hq
          exact idle_busy q1 q2 q3
        · unfold inUse
          rw [hj, hold]
          simp [holds, releases, q1, q3, List.count_cons]
        · unfold jobs
          rw [hj]
          simp [holds, finished, q1, q3]
      · cases hf : o.encoder with
        | none =>
          obtain ⟨f, f', q1, -⟩ := encodeWith_ok k2
          rw [hf] at q1
          cases q1
        | some f =>
          obtain ⟨rfl, f', q1, q2, q3⟩ := feed_idle hf (i2 f hf).1 (hcur f hf) k2
          refine ⟨fun o2 hq => ?_, rfl, fun i => ?_, fun _ => ⟨by rw [ho]; nofun, ?_⟩⟩
          · cases hq
            exact idle_busy q1 q2 q3
          · unfold inUse
            rw [hj]
            simp [holds, releases, q1, q3, List.count_cons]
          · unfold jobs
            rw [hj]
            simp [holds, finished, q1, q3]
  | done out a =>
    unfold step at e
    simp only at e
    split at e
    · cases e
      exact ⟨hi, tidy_refl s⟩
    · rename_i o ho
      obtain ⟨⟨o', es'⟩, h1, h2⟩ := Outcome.bind_eq_ok.mp e
      cases h2
      obtain ⟨i1, i2⟩ := hi o ho
      have hk := h o ho
      have hs : (⟨some o, s.old⟩ : Sys) = s := by
        obtain ⟨_, _⟩ := s
        cases ho
        rfl
      unfold workDone at h1
      split at h1
      · cases h1
        rw [hs]
        exact ⟨hi, tidy_refl s⟩
      · rename_i f hf
        split at h1
        · cases h1
          rw [hs]
          exact ⟨hi, tidy_refl s⟩
        · rename_i fb hc
          rw [if_neg hg] at h1
          obtain ⟨r1, r2, r3, r4, r5, r6, r7, r8⟩ := hr
          rw [copyPacket_ok r1 r2 r8, Outcome.bind_ok] at h1
          have hsch : schedule { f with current := none } = ({ f with current := none }, []) := by
            unfold schedule
            simp only [(i2 f hf).1]
          rw [hsch] at h1
          simp only at h1
          obtain ⟨v', e3, -, -⟩ := handlePacket_ok (a := a) r3 r4 r5 r6 r7 (o := { o with encoder := some { f with current := none } })
            (pts := fb.pts) hk.ok hk.len hg r8
          rw [e3] at h1
          cases h1
          refine ⟨fun o2 hq => ?_, rfl, fun i => ?_, fun _ => ⟨by rw [ho]; nofun, ?_⟩⟩
          · cases hq
            exact ⟨nofun, fun g hg => by cases hg; exact ⟨(i2 f hf).1, rfl⟩⟩
          · unfold inUse
            rw [ho]
            simp [holds, releases, hf, hc, List.count_cons]
            omega
          · unfold jobs
            rw [ho]
            simp [holds, finished, hf, hc]
  | oldDone i out =>
    unfold step at e
    simp only at e
    split at e
    · cases e
      exact ⟨hi, tidy_refl s⟩
    · rename_i f hf
      cases e
      refine ⟨?_, ?_, fun j => ?_, fun h => ⟨h, ?_⟩⟩
      · have : busy b (f.current.map fun fb => Eff.release fb.id).toList = b := by cases f.current <;> rfl
        rw [this]
        exact hi
      · cases f.current <;> rfl
      · have := count_old hf j
        unfold inUse
        rw [List.count_append, List.count_append, this]
        cases f.current <;> simp [holds, releases] <;> omega
      · have : holds (f.current.map fun fb => Eff.release fb.id).toList = [] := by cases f.current <;> rfl
        rw [this]
        have : finished (f.current.map fun fb => Eff.release fb.id).toList = [] := by cases f.current <;> rfl
        rw [this]
        simp [jobs]
  | quality v =>
    cases e
    have hm : ((s.oh.map (setQuality v)).bind Oh.encoder) = s.oh.bind Oh.encoder := by cases s.oh <;> rfl
    refine ⟨fun o ho => ?_, rfl, fun i => ?_, fun h => ⟨fun hn => h (by rw [hn]; rfl), ?_⟩⟩
    · obtain ⟨o1, h1, rfl⟩ := Option.map_eq_some_iff.mp ho
      exact hi o1 h1
    · unfold inUse
      rw [hm]
      simp [holds, releases]
    · unfold jobs
      rw [hm]
      simp [holds, finished]
  | key =>
    unfold step at e
    simp only at e
    split at e
    · cases e
      exact ⟨hi, tidy_refl s⟩
    · rename_i o ho
      obtain ⟨o', h1, h2⟩ := Outcome.bind_eq_ok.mp e
      cases h2
      unfold requestKey at h1
      split at h1
      · cases h1
      · rename_i f hf
        cases h1
        refine ⟨fun o2 hq => ?_, rfl, fun i => ?_, fun _ => ⟨by rw [ho]; nofun, ?_⟩⟩
        · cases hq
          exact ⟨nofun, fun g hg => by cases hg; exact (hi o ho).2 f hf⟩
        · unfold inUse
          rw [ho]
          simp [holds, releases, hf]
        · unfold jobs
          rw [ho]
          simp [holds, finished, hf]
  | destroy =>
    unfold step at e
    simp only at e
    split at e
    · cases e
      exact ⟨hi, tidy_refl s⟩
    · rename_i o ho
      cases e
      refine ⟨nofun, rfl, fun i => ?_, fun h => absurd rfl h⟩
      unfold inUse
      rw [ho]
      cases hf : o.encoder with
      | none => simp [holds, releases, hf]
      | some f =>
        cases hc : f.current with
        | none => simp [holds, releases, hf, hc, ffDestroy]
        | some fb =>
          simp [holds, releases, hf, hc, ffDestroy, List.count_cons]

theorem run_tidy {x y : Nat} (hx : x < 65536) (hy : y < 65536) : ∀ (evs : List Ev) {b : Bool} {s s' : Sys} {es : List Eff},
    (∀ ev ∈ evs, ev.Roomy) → (∀ ev ∈ evs, ev.Gives) → SysOk x y s → Idle b s → polite b s evs = true → run s evs = .ok (s', es) →
    Tidy s es s'
  | [], b, s, s', es, _, _, _, _, _, e => by
    cases e
    exact tidy_refl _
  | ev :: evs, b, s, s', es, hr, hg, h, hi, hp, e => by
    rw [run] at e
    obtain ⟨⟨s1, es1⟩, h1, e⟩ := Outcome.bind_eq_ok.mp e
    obtain ⟨⟨s2, es2⟩, h2, e⟩ := Outcome.bind_eq_ok.mp e
    cases e
    obtain ⟨k1, -⟩ := step_inv hx hy (hr ev List.mem_cons_self) h h1
    rw [polite, h1, Bool.and_eq_true] at hp
    obtain ⟨k2, k3⟩ := step_tidy (b := b) (hr ev List.mem_cons_self) (hg ev List.mem_cons_self) h hi (fun ⟨fb, c, hq⟩ => by
      have := hp.1
      rw [hq] at this
      simpa [Ev.isEncode] using this) h1
    exact tidy_trans k3 (run_tidy hx hy evs (fun ev' h' => hr ev' (List.mem_cons_of_mem _ h'))
      (fun ev' h' => hg ev' (List.mem_cons_of_mem _ h')) k1 k2 hp.2 h2)

/-- **C71** (part): when the server asks for one frame at a time, as it does, every frame that an encoder accepts is
given to the codec at once and in order; every hold on a frame is released, except on those still in use;
and as long as the encoder lives, an update is finished for each of them but the one that is being coded.

What is missing: a codec may give nothing for a frame, see `c71_stall_violated`. -/
theorem c71_frames_partial {x y : Nat} (hx : x < 65536) (hy : y < 65536) {m m' m'' : Heap} (h : Plenty m) (h' : Plenty m')
    (h'' : Plenty m'') {o : Oh} (hn : new x y m m' m'' = .ok (some o)) {evs : List Ev} (hr : ∀ ev ∈ evs, ev.Roomy)
    (hg : ∀ ev ∈ evs, ev.Gives) (hp : polite false ⟨some o, []⟩ evs = true) {s : Sys} {es : List Eff} (e : run ⟨some o, []⟩ evs = .ok (s, es)) :
    starts es = holds es ∧ (∀ i, (holds es).count i = (releases es).count i + (inUse s).count i) ∧
      ∀ o', s.oh = some o' → (holds es).length =
        (finished es).length + (match o'.encoder with | some f => if f.current.isSome then 1 else 0 | none => 0) := by
  obtain ⟨o1, k1, k2, k3, -⟩ := new_ok (x := x) (y := y) h h' h''
  rw [hn] at k1
  cases k1
  obtain ⟨t1, t2, t3⟩ := run_tidy (b := false) hx hy evs hr hg (fun o1 hq => by cases hq; exact k2)
    (fun o1 hq => by
      cases hq
      exact ⟨fun _ => rfl, fun f hf => by rw [k3] at hf; cases hf⟩) hp e
  refine ⟨t1, fun i => ?_, fun o' ho => ?_⟩
  · have := t2 i
    simpa [inUse, k3] using this
  · obtain ⟨-, t4⟩ := t3 (by rw [ho]; nofun)
    simp only [jobs, ho, Option.bind_some, k3, Option.bind_none, Option.toList_none, List.length_nil, Nat.zero_add] at t4
    rw [t4]
    cases o'.encoder with
    | none => rfl
    | some f => cases hc : f.current <;> simp [hc]

example : (do
    match ← new 0 0 okHeap okHeap okHeap with
    | none => .ok none
    | some o => do
      let (s, es) ← run ⟨some o, []⟩ (demoEvs ++ ([.encode (demoFb 4 32 48) true] : List Ev))
      .ok (some (polite false ⟨some o, []⟩ (demoEvs ++ ([.encode (demoFb 4 32 48) true] : List Ev)), holds es, releases es, inUse s))) =
    .ok (some (true, [1, 2, 3, 4], [1, 2, 3], [4])) := by decide +kernel

example : ∀ ev ∈ demoEvs, ev.Gives := by simp [demoEvs, Ev.Gives]

/-- C71 is violated when the codec gives nothing for a frame: the update is never finished, and the client gets no more -/
theorem c71_stall_violated : session [.encode (demoFb 1 64 48) true, .done [] okMem] = .ok
    [.create 64 48 7 18, .hold 1, .start 1 true, .release 1, .coded (demoFb 1 64 48) []] := by decide +kernel

/-- C71 is violated when an encoder is destroyed with frames in its queue: they are never released -/
theorem c71_queue_violated : session [.encode (demoFb 1 64 48) true, .encode (demoFb 2 64 48) true, .destroy, .oldDone 0 [0]] = .ok
    [.create 64 48 7 18, .hold 1, .start 1 true, .hold 2, .release 1] := by decide +kernel

/-! ## Key frames -/

/-- a key frame is due -/
def due (s : Sys) : Bool := ((s.oh.bind Oh.encoder).map Ff.nextKey).getD true

theorem schedule_keys (e : Ff) : KeysRight e.nextKey (schedule e).2 ∧
    ∀ es, KeysRight (schedule e).1.nextKey es → KeysRight e.nextKey ((schedule e).2 ++ es) := by
  unfold schedule
  split
  · exact ⟨trivial, fun _ h => h⟩
  · exact ⟨trivial, fun _ h => h⟩
  · exact ⟨⟨rfl, trivial⟩, fun _ h => ⟨rfl, h⟩⟩

theorem encodeWith_keys {fb : Fb} {o o' : Oh} {f : Ff} {es : List Eff} (hf : o.encoder = some f) (e : encodeWith fb o = .ok (o', es)) :
    ∃ f', o'.encoder = some f' ∧ ∀ rest, KeysRight f'.nextKey rest → KeysRight f.nextKey (es ++ rest) := by
  obtain ⟨g, f', h1, h2, rfl⟩ := encodeWith_ok e
  rw [hf] at h1
  cases h1
  obtain ⟨-, -, rfl, rfl⟩ := ffFeed_ok h2
  exact ⟨_, rfl, fun rest h => (schedule_keys { f with queue := f.queue ++ [fb] }).2 rest h⟩

theorem keys_quiet : ∀ {es : List Eff} (b : Bool), starts es = [] → KeysRight b es
  | [], _, _ => trivial
  | e :: es, b, h => by
    cases e with
    | start i k => cases h
    | create w h' f q => exact keys_quiet (es := es) true h
    | asked => exact keys_quiet (es := es) true h
    | refused => exact keys_quiet (es := es) b h
    | hold i => exact keys_quiet (es := es) b h
    | release i => exact keys_quiet (es := es) b h
    | coded fb out => exact keys_quiet (es := es) b h
    | finish r => exact keys_quiet (es := es) b h

theorem pull_encoder {a : Mem} {o o' : Oh} {r : Option Frame} (e : pull a o = .ok (o', r)) :
    o'.encoder = o.encoder ∧ o'.width = o.width ∧ o'.height = o.height ∧ o'.format = o.format ∧ o'.quality = o.quality ∧
      o'.qualityChanged = o.qualityChanged := by
  unfold pull at e
  split at e
  · cases e
    exact ⟨rfl, rfl, rfl, rfl, rfl, rfl⟩
  · obtain ⟨_, -, e⟩ := Outcome.bind_eq_ok.mp e
    obtain ⟨_, -, e⟩ := Outcome.bind_eq_ok.mp e
    obtain ⟨_, -, e⟩ := Outcome.bind_eq_ok.mp e
    cases e
    exact ⟨rfl, rfl, rfl, rfl, rfl, rfl⟩

theorem handlePacket_effs {a : Mem} {data : Bytes} {pts : Nat} {o o' : Oh} {es : List Eff}
    (e : handlePacket a data pts o = .ok (o', es)) :
    (o'.encoder = o.encoder ∧ o'.width = o.width ∧ o'.height = o.height ∧ o'.format = o.format ∧ o'.quality = o.quality ∧
      o'.qualityChanged = o.qualityChanged) ∧ (es = [] ∨ ∃ r, es = [.finish r]) := by
  unfold handlePacket at e
  split at e
  · cases e
    exact ⟨⟨rfl, rfl, rfl, rfl, rfl, rfl⟩, .inl rfl⟩
  · obtain ⟨_, -, e⟩ := Outcome.bind_eq_ok.mp e
    obtain ⟨⟨o1, r⟩, h1, e⟩ := Outcome.bind_eq_ok.mp e
    cases e
    have := pull_encoder h1
    exact ⟨this, .inr ⟨r, rfl⟩⟩

/-- what the end of a job does -/
theorem workDone_effs {a : Mem} {out : Bytes} {o o' : Oh} {es : List Eff} (e : workDone a out o = .ok (o', es)) :
    (o' = o ∧ es = []) ∨ ∃ f f' fb es0 es1, o.encoder = some f ∧ o'.encoder = some f' ∧ f'.qp = f.qp ∧
      (o'.width = o.width ∧ o'.height = o.height ∧ o'.format = o.format ∧ o'.quality = o.quality ∧
        o'.qualityChanged = o.qualityChanged) ∧
      es = [.release fb, es0] ++ es1 ∧ (∃ p q, es0 = .coded p q) ∧
      ∀ rest, KeysRight f'.nextKey rest → KeysRight f.nextKey (es1 ++ rest) ∧ ∀ c, lastCreate c (es1 ++ rest) = lastCreate c rest := by
  unfold workDone at e
  split at e
  · cases e
    exact .inl ⟨rfl, rfl⟩
  · rename_i f hf
    split at e
    · cases e
      exact .inl ⟨rfl, rfl⟩
    · rename_i fb hc
      split at e
      · cases e
        exact .inr ⟨f, { f with current := none }, fb.id, .coded fb out, [], hf, rfl, rfl, ⟨rfl, rfl, rfl, rfl, rfl⟩, rfl, ⟨_, _, rfl⟩, fun rest h => ⟨h, fun _ => rfl⟩⟩
      · obtain ⟨data, -, e⟩ := Outcome.bind_eq_ok.mp e
        have hs := (schedule_keys { f with current := none }).2
        have he := schedule_effs { f with current := none }
        have hq : (schedule { f with current := none }).1.qp = f.qp := by unfold schedule; split <;> rfl
        generalize schedule { f with current := none } = q at e hs he hq
        obtain ⟨f', es0⟩ := q
        simp only at e hs he hq
        obtain ⟨⟨o1, es1⟩, h1, e⟩ := Outcome.bind_eq_ok.mp e
        cases e
        obtain ⟨⟨k1, k2⟩, k3⟩ := handlePacket_effs h1
        refine .inr ⟨f, f', fb.id, .coded fb out, es0 ++ es1, hf, k1, hq, k2, by simp, ⟨_, _, rfl⟩, fun rest h => ⟨?_, ?_⟩⟩
        · rw [List.append_assoc]
          apply hs
          rcases k3 with rfl | ⟨r, rfl⟩
          · exact h
          · exact h
        · intro c
          rcases he with rfl | ⟨i, k, rfl⟩ <;> rcases k3 with rfl | ⟨r, rfl⟩ <;> rfl

theorem step_keys {s s' : Sys} {ev : Ev} {es : List Eff} (e : step s ev = .ok (s', es)) {rest : List Eff}
    (hk : s'.oh = none → starts rest = []) (ht : s'.oh ≠ none → KeysRight (due s') rest) :
    (s.oh = none → starts (es ++ rest) = []) ∧ (s.oh ≠ none → KeysRight (due s) (es ++ rest)) := by
  cases ev with
  | encode fb c =>
    unfold step at e
    simp only at e
    split at e
    · cases e
      exact ⟨hk, ht⟩
    · rename_i o ho
      obtain ⟨⟨o', old, es'⟩, h1, h2⟩ := Outcome.bind_eq_ok.mp e
      cases h2
      refine ⟨fun h => (by rw [ho] at h; cases h), fun _ => ?_⟩
      have ht := ht nofun
      rcases encode_cases h1 with ⟨-, rfl, rfl, rfl⟩ | ⟨-, o1, e1, k1, e2, k2, rfl⟩ | ⟨-, -, -, -, rfl, k2⟩
      · have : due s = due ⟨some o', s.old ++ (none : Option Ff).toList⟩ := by unfold due; rw [ho]
        rw [this]
        exact ht
      · obtain ⟨rfl, rfl, rfl⟩ := resize_ok k1
        obtain ⟨f', q1, q2⟩ := encodeWith_keys (f := ffCreate fb.width fb.height fb.format (qp o.quality)) rfl k2
        exact q2 rest (by simpa [due, q1] using ht)
      · obtain ⟨f, -, hf, -⟩ := encodeWith_ok k2
        obtain ⟨f', q1, q2⟩ := encodeWith_keys hf k2
        have := q2 rest (by simpa [due, q1] using ht)
        simpa [due, ho, hf] using this
  | done out a =>
    unfold step at e
    simp only at e
    split at e
    · cases e
      exact ⟨hk, ht⟩
    · rename_i o ho
      obtain ⟨⟨o', es'⟩, h1, h2⟩ := Outcome.bind_eq_ok.mp e
      cases h2
      refine ⟨fun h => (by rw [ho] at h; cases h), fun _ => ?_⟩
      have ht := ht nofun
      rcases workDone_effs h1 with ⟨rfl, rfl⟩ | ⟨f, f', fb, es0, es1, hf, q1, -, -, rfl, ⟨p, q, rfl⟩, q2⟩
      · have : due s = due ⟨some o', s.old⟩ := by unfold due; rw [ho]
        rw [this]
        exact ht
      · have := (q2 rest (by simpa [due, q1] using ht)).1
        have hd : due s = f.nextKey := by simp [due, ho, hf]
        rw [hd]
        exact this
  | oldDone i out =>
    unfold step at e
    simp only at e
    split at e
    · cases e
      exact ⟨hk, ht⟩
    · rename_i f hf
      cases e
      cases f.current
      · exact ⟨hk, ht⟩
      · exact ⟨hk, ht⟩
  | quality v =>
    cases e
    have hm : due s = due ⟨s.oh.map (setQuality v), s.old⟩ := by unfold due; cases s.oh <;> rfl
    refine ⟨fun h => hk (by simp only; rw [h]; rfl), fun h => ?_⟩
    rw [hm]
    exact ht (by cases hs : s.oh with
      | none => exact absurd hs h
      | some o => nofun)
  | key =>
    unfold step at e
    simp only at e
    split at e
    · cases e
      exact ⟨hk, ht⟩
    · rename_i o ho
      obtain ⟨o', h1, h2⟩ := Outcome.bind_eq_ok.mp e
      cases h2
      refine ⟨fun h => (by rw [ho] at h; cases h), fun _ => ?_⟩
      have ht := ht nofun
      unfold requestKey at h1
      split at h1
      · cases h1
      · rename_i f hf
        cases h1
        exact ht
  | destroy =>
    unfold step at e
    simp only at e
    split at e
    · cases e
      exact ⟨hk, ht⟩
    · rename_i o ho
      cases e
      exact ⟨fun h => (by rw [ho] at h; cases h), fun _ => keys_quiet _ (hk rfl)⟩

theorem run_keys : ∀ (evs : List Ev) {s s' : Sys} {es : List Eff}, run s evs = .ok (s', es) →
    (s.oh = none → starts es = []) ∧ (s.oh ≠ none → KeysRight (due s) es)
  | [], s, s', es, e => by
    cases e
    exact ⟨fun _ => rfl, fun _ => trivial⟩
  | ev :: evs, s, s', es, e => by
    rw [run] at e
    obtain ⟨⟨s1, es1⟩, h1, e⟩ := Outcome.bind_eq_ok.mp e
    obtain ⟨⟨s2, es2⟩, h2, e⟩ := Outcome.bind_eq_ok.mp e
    cases e
    obtain ⟨k1, k2⟩ := run_keys evs h2
    exact step_keys h1 k1 k2

/-- **C73**: whatever is done with an encoder, the pictures that are coded as key frames are exactly the first of each
codec and the first after a key frame was asked for. -/
theorem c73_keys {x y : Nat} {m m' m'' : Heap} {o : Oh} (hn : new x y m m' m'' = .ok (some o)) {evs : List Ev} {s : Sys} {es : List Eff}
    (e : run ⟨some o, []⟩ evs = .ok (s, es)) : KeysRight true es := by
  have := (run_keys evs e).2 nofun
  have hd : due ⟨some o, []⟩ = true := by
    unfold new at hn
    obtain ⟨⟨v, ok⟩, -, hn⟩ := Outcome.bind_eq_ok.mp hn
    simp only at hn
    split at hn
    · cases hn
      rfl
    · cases hn
  rw [hd] at this
  exact this

example : (do let es ← session (demoEvs ++ ([.encode (demoFb 4 32 48) true, .done [1] okMem, .key, .encode (demoFb 5 32 48) true] : List Ev))
              .ok (starts es, keys es)) = .ok ([1, 2, 3, 4, 5], [true, true, true, false, true]) := by decide +kernel

/-! ## C72 -/

theorem lastCreate_append (c : Option (Nat × Nat × Nat × Int)) (es es' : List Eff) :
    lastCreate c (es ++ es') = lastCreate (lastCreate c es) es' := by
  induction es generalizing c with
  | nil => rfl
  | cons e es ih => cases e <;> exact ih _

/-- the codec is the one that was created last, and it has the quality that was set last unless that is known -/
structure Suits (q : Int) (c : Option (Nat × Nat × Nat × Int)) (o : Oh) : Prop where
  quality : o.quality = q
  none : o.encoder = none → o.width = 0
  some : ∀ f, o.encoder = some f → ∃ p, c = some (o.width, o.height, o.format, p) ∧ (o.qualityChanged = false → p = qp q)

theorem encodeWith_create {fb : Fb} {o o' : Oh} {es : List Eff} (e : encodeWith fb o = .ok (o', es)) (c : Option (Nat × Nat × Nat × Int)) :
    lastCreate c es = c ∧ ∃ f, o' = { o with encoder := some f } := by
  obtain ⟨f, f', h1, h2, rfl⟩ := encodeWith_ok e
  obtain ⟨-, -, rfl, rfl⟩ := ffFeed_ok h2
  refine ⟨?_, _, rfl⟩
  rcases schedule_effs { f with queue := f.queue ++ [fb] } with h | ⟨i, k, h⟩ <;> rw [h] <;> rfl

theorem encode_suits {q : Int} {c : Option (Nat × Nat × Nat × Int)} {cr : Bool} {fb : Fb} {o o' : Oh} {old : Option Ff} {es : List Eff}
    (h : Suits q c o) (e : encode cr fb o = .ok (o', old, es)) :
    Suits q (lastCreate c es) o' ∧ (es = [.refused] ∨ lastCreate c es = some (fb.width, fb.height, fb.format, qp q)) := by
  rcases encode_cases e with ⟨-, rfl, -, rfl⟩ | ⟨-, o1, e1, h1, e2, h2, rfl⟩ | ⟨h1, h2, h3, h4, -, h5⟩
  · exact ⟨h, .inl rfl⟩
  · obtain ⟨rfl, -, rfl⟩ := resize_ok h1
    have k := encodeWith_create h2
    have k1 : lastCreate c ([Eff.create fb.width fb.height fb.format (qp o.quality)] ++ e2) =
        some (fb.width, fb.height, fb.format, qp q) := by
      rw [lastCreate_append, (k _).1, h.quality]
      rfl
    rw [k1]
    obtain ⟨f, rfl⟩ := (k none).2
    exact ⟨⟨h.quality, nofun, fun g _ => ⟨_, rfl, fun _ => rfl⟩⟩, .inr rfl⟩
  · obtain ⟨k1, f, rfl⟩ := encodeWith_create h5 c
    obtain ⟨g, -, hg, -⟩ := encodeWith_ok h5
    obtain ⟨p, k2, k3⟩ := h.some g hg
    rw [k1]
    refine ⟨⟨h.quality, nofun, fun _ _ => ⟨p, k2, k3⟩⟩, .inr ?_⟩
    rw [k2, k3 h4, h1, h2, h3]

theorem lastQuality_append (q : Int) (evs evs' : List Ev) : lastQuality q (evs ++ evs') = lastQuality (lastQuality q evs) evs' := by
  induction evs generalizing q with
  | nil => rfl
  | cons e evs ih => cases e <;> exact ih _

theorem step_suits {q : Int} {c : Option (Nat × Nat × Nat × Int)} {s s' : Sys} {ev : Ev} {es : List Eff}
    (h : ∀ o, s.oh = some o → Suits q c o) (e : step s ev = .ok (s', es)) :
    ∀ o, s'.oh = some o → Suits (lastQuality q [ev]) (lastCreate c es) o := by
  cases ev with
  | encode fb cr =>
    unfold step at e
    simp only at e
    split at e
    · cases e
      exact h
    · rename_i o ho
      obtain ⟨⟨o', old, es'⟩, h1, h2⟩ := Outcome.bind_eq_ok.mp e
      cases h2
      intro o2 hq
      cases hq
      exact (encode_suits (h o ho) h1).1
  | done out a =>
    unfold step at e
    simp only at e
    split at e
    · cases e
      exact h
    · rename_i o ho
      obtain ⟨⟨o', es'⟩, h1, h2⟩ := Outcome.bind_eq_ok.mp e
      cases h2
      intro o2 hq
      cases hq
      have hk := h o ho
      rcases workDone_effs h1 with ⟨rfl, rfl⟩ | ⟨f, f', fb, es0, es1, hf, q1, -, ⟨w1, w2, w3, w4, w5⟩, rfl, ⟨p, r, rfl⟩, q2⟩
      · exact hk
      · have hc : lastCreate c ([Eff.release fb, Eff.coded p r] ++ es1) = c := by
          have := (q2 [] trivial).2 c
          rw [List.append_nil] at this
          exact this
        rw [hc]
        refine ⟨w4.trans hk.quality, fun hn => (by rw [q1] at hn; cases hn), fun g _ => ?_⟩
        rw [w1, w2, w3, w5]
        exact hk.some f hf
  | oldDone i out =>
    unfold step at e
    simp only at e
    split at e
    · cases e
      exact h
    · rename_i f hf
      cases e
      cases f.current <;> exact h
  | quality v =>
    cases e
    intro o ho
    obtain ⟨o1, h1, rfl⟩ := Option.map_eq_some_iff.mp ho
    have hk := h o1 h1
    refine ⟨rfl, hk.none, fun f hf => ?_⟩
    obtain ⟨p, k1, k2⟩ := hk.some f hf
    refine ⟨p, k1, fun hc => ?_⟩
    unfold setQuality at hc
    simp only [Bool.or_eq_false_iff, decide_eq_false_iff_not, Classical.not_not, ne_eq] at hc
    obtain ⟨c1, c2⟩ := hc
    rw [k2 c1, ← hk.quality, c2]
    rfl
  | key =>
    unfold step at e
    simp only at e
    split at e
    · cases e
      exact h
    · rename_i o ho
      obtain ⟨o', h1, h2⟩ := Outcome.bind_eq_ok.mp e
      cases h2
      unfold requestKey at h1
      split at h1
      · cases h1
      · rename_i f hf
        cases h1
        intro o2 hq
        cases hq
        have hk := h o ho
        exact ⟨hk.quality, nofun, fun g _ => hk.some f hf⟩
  | destroy =>
    unfold step at e
    simp only at e
    split at e
    · cases e
      exact h
    · cases e
      exact nofun

theorem run_suits : ∀ (evs : List Ev) {q : Int} {c : Option (Nat × Nat × Nat × Int)} {s s' : Sys} {es : List Eff},
    (∀ o, s.oh = some o → Suits q c o) → run s evs = .ok (s', es) →
    ∀ o, s'.oh = some o → Suits (lastQuality q evs) (lastCreate c es) o
  | [], q, c, s, s', es, h, e => by
    cases e
    exact h
  | ev :: evs, q, c, s, s', es, h, e => by
    rw [run] at e
    obtain ⟨⟨s1, es1⟩, h1, e⟩ := Outcome.bind_eq_ok.mp e
    obtain ⟨⟨s2, es2⟩, h2, e⟩ := Outcome.bind_eq_ok.mp e
    cases e
    have := run_suits evs (step_suits h h1) h2
    rw [lastCreate_append]
    have hq : lastQuality q (ev :: evs) = lastQuality (lastQuality q [ev]) evs := lastQuality_append q [ev] evs
    rw [hq]
    exact this

/-- the quantiser is the integer nearest to 51 - 50 q / 9 -/
theorem qp_near (q : Int) : 2 * (9 * qp q - (459 - 50 * q)).natAbs ≤ 9 := by
  unfold qp Flow.roundDiv
  split <;> omega

/-- **C72**: whatever was done with an encoder before, a frame that it accepts goes to a codec that was created for
frames of just this size and format, and for the quality that was set last: the quantiser is the integer nearest to
`51 - 50 q / 9`. -/
theorem c72_codec {x y : Nat} {m m' m'' : Heap} {o : Oh} (hn : new x y m m' m'' = .ok (some o)) {evs : List Ev} {s s' : Sys}
    {es es' : List Eff} {fb : Fb} {cr : Bool} (e : run ⟨some o, []⟩ evs = .ok (s, es)) (e' : step s (.encode fb cr) = .ok (s', es'))
    (hh : holds es' ≠ []) : ∃ p, lastCreate none (es ++ es') = some (fb.width, fb.height, fb.format, p) ∧
      2 * (9 * p - (459 - 50 * lastQuality 6 evs)).natAbs ≤ 9 := by
  have h0 : Suits 6 none o := by
    unfold new at hn
    obtain ⟨⟨v, ok⟩, -, hn⟩ := Outcome.bind_eq_ok.mp hn
    simp only at hn
    split at hn
    · cases hn
      exact ⟨rfl, fun _ => rfl, nofun⟩
    · cases hn
  have h1 := run_suits evs (s := ⟨some o, []⟩) (fun o1 hq => by cases hq; exact h0) e
  unfold step at e'
  simp only at e'
  split at e'
  · cases e'
    exact absurd rfl hh
  · rename_i o2 ho
    obtain ⟨⟨o', old, es2⟩, k1, k2⟩ := Outcome.bind_eq_ok.mp e'
    cases k2
    rcases (encode_suits (h1 o2 ho) k1).2 with h | h
    · rw [h] at hh
      exact absurd rfl hh
    · exact ⟨_, by rw [lastCreate_append]; exact h, qp_near _⟩

example : (do let es ← session demoEvs; .ok (lastCreate none es, holds es)) =
    .ok (some (32, 48, 7, 34), [1, 2, 3]) := by decide +kernel

end Verif.H264
