import Verif.Spec.Zrle
import Verif.Props.Raw

/-!
# Lemmas on the ZRLE encoder
-/

namespace Verif.Enc
open Verif.Server (PixFmt be32i)
open Verif.Pixels
open Verif.Vec (Heap Vec Ok reserve_ok step_ok write_end bytes_length sizeT reserve)

/-! ## Adding bytes to a vector -/

/-- the vector in the outcome has these bytes in addition -/
def Adds (v : Vec) (b : Bytes) (o : Outcome Vec) : Prop :=
  ∃ v', o = .ok v' ∧ Ok v' ∧ v'.cap = v.cap ∧ v'.bytes = v.bytes ++ b

theorem Adds.len {v v' : Vec} {b : Bytes} (hv : Ok v) (hv' : Ok v') (h : v'.bytes = v.bytes ++ b) :
    v'.len = v.len + b.length := by
  have := congrArg List.length h
  rw [List.length_append, bytes_length hv, bytes_length hv'] at this
  exact this

/-- writing at some position with everything before it known -/
theorem write_pos {data b : Bytes} {p cap : Nat} (h : data.length = cap) (hp : p + b.length ≤ cap) :
    ∃ d, writeAt data p b = .ok d ∧ d.length = cap ∧ d.take (p + b.length) = data.take p ++ b :=
  write_end (v := { data := data, len := p, cap := cap }) ⟨h, by simp only; omega⟩ (by exact hp)

theorem push_adds {x : UInt8} {v : Vec} (hv : Ok v) (hl : v.len < v.cap) : Adds v [x] (push x v) := by
  obtain ⟨d, w1, w2, w3⟩ := write_end hv (b := [x]) (by simp; omega)
  refine ⟨{ v with data := d, len := v.len + 1 }, ?_, ⟨w2, by simp only; omega⟩, rfl, w3⟩
  unfold push
  simp only [Vec.step, if_pos hl, w1]
  rfl

theorem append_adds {m : Heap} {b : Bytes} {v : Vec} (hv : Ok v) (hb : v.len + b.length < v.cap) (hc : v.cap < sizeT) :
    ∃ v', Vec.step (.append m b) v = .ok (v', true) ∧ Ok v' ∧ v'.cap = v.cap ∧ v'.bytes = v.bytes ++ b := by
  obtain ⟨d, w1, w2, w3⟩ := write_end hv (b := b) (by omega)
  have hm : (v.len + b.length) % sizeT = v.len + b.length := Nat.mod_eq_of_lt (by omega)
  refine ⟨{ v with data := d, len := v.len + b.length }, ?_, ⟨w2, by simp only; omega⟩, rfl, w3⟩
  have hg : Vec.grow m b.length v = (v, true) := by
    unfold Vec.grow
    rw [hm, if_pos hb]
  simp only [Vec.step, hg, w1, Outcome.bind_ok, hm]

/-! ## Runs -/

/-- the bytes of a run's length -/
def tailBytes : Nat → Nat → Bytes
  | 0, _ => []
  | k + 1, r => if 255 < r then 255 :: tailBytes k (r - 255) else [UInt8.ofNat (r - 1)]

def runBytes (i : UInt8) (r : Nat) : Bytes := if r = 1 then [i] else (i ||| 128) :: tailBytes r r

def runsBytes (pal : List Bytes) : Bytes → Nat → List Bytes → Bytes
  | c, r, [] => runBytes (index pal c) r
  | c, r, p :: ps => if p = c then runsBytes pal p (r + 1) ps else runBytes (index pal c) r ++ runsBytes pal p 1 ps

theorem tailBytes_length : ∀ k r, 1 ≤ r → r ≤ k → (tailBytes k r).length ≤ max 1 (r - 1)
  | 0, r, h1, h2 => by omega
  | k + 1, r, h1, h2 => by
    rw [tailBytes]
    split
    · have := tailBytes_length k (r - 255) (by omega) (by omega)
      rw [List.length_cons]
      omega
    · simp; omega

theorem runBytes_length (i : UInt8) {r : Nat} (h : 1 ≤ r) : (runBytes i r).length ≤ r := by
  unfold runBytes
  split
  · simp; omega
  · have := tailBytes_length r r h (Nat.le_refl _)
    rw [List.length_cons]
    omega

theorem runsBytes_length (pal : List Bytes) : ∀ ps c r, 1 ≤ r → (runsBytes pal c r ps).length ≤ r + ps.length
  | [], c, r, h => by rw [runsBytes]; exact runBytes_length _ h
  | p :: ps, c, r, h => by
    rw [runsBytes]
    split
    · have := runsBytes_length pal ps p (r + 1) (by omega)
      rw [List.length_cons]; omega
    · have := runsBytes_length pal ps p 1 (by omega)
      have := runBytes_length (index pal c) h
      rw [List.length_append, List.length_cons]; omega

theorem runTail_adds : ∀ k r v, 1 ≤ r → r ≤ k → Ok v → v.len + (tailBytes k r).length ≤ v.cap →
    Adds v (tailBytes k r) (runTail k r v)
  | 0, r, v, h1, h2, _, _ => by omega
  | k + 1, r, v, h1, h2, hv, hl => by
    rw [tailBytes] at hl ⊢
    rw [runTail]
    split
    · rename_i hr
      rw [if_pos hr, List.length_cons] at hl
      obtain ⟨v1, e1, o1, c1, b1⟩ := push_adds (x := 255) hv (by omega)
      have l1 := Adds.len hv o1 b1
      obtain ⟨v2, e2, o2, c2, b2⟩ := runTail_adds k (r - 255) v1 (by omega) (by omega) o1
        (by rw [l1, c1]; simp only [List.length_singleton]; omega)
      exact ⟨v2, by rw [e1, Outcome.bind_ok, e2], o2, by omega, by rw [b2, b1, List.append_assoc]; rfl⟩
    · rename_i hr
      rw [if_neg hr, List.length_singleton] at hl
      exact push_adds hv (by omega)

theorem encodeRun_adds {i : UInt8} {r : Nat} {v : Vec} (h : 1 ≤ r) (hv : Ok v)
    (hl : v.len + (runBytes i r).length ≤ v.cap) : Adds v (runBytes i r) (encodeRun i r v) := by
  unfold runBytes at hl ⊢
  unfold encodeRun
  split
  · rename_i hr
    rw [if_pos hr, List.length_singleton] at hl
    exact push_adds hv (by omega)
  · rename_i hr
    rw [if_neg hr, List.length_cons] at hl
    obtain ⟨v1, e1, o1, c1, b1⟩ := push_adds (x := i ||| 128) hv (by omega)
    have l1 := Adds.len hv o1 b1
    obtain ⟨v2, e2, o2, c2, b2⟩ := runTail_adds r r v1 h (Nat.le_refl _) o1
      (by rw [l1, c1]; simp only [List.length_singleton]; omega)
    exact ⟨v2, by rw [e1, Outcome.bind_ok, e2], o2, by omega, by rw [b2, b1, List.append_assoc]; rfl⟩

theorem runs_adds {pal : List Bytes} : ∀ ps c r v, 1 ≤ r → Ok v → v.len + (runsBytes pal c r ps).length ≤ v.cap →
    Adds v (runsBytes pal c r ps) (runs pal c r ps v)
  | [], c, r, v, h, hv, hl => by
    rw [runsBytes] at hl ⊢
    exact encodeRun_adds h hv hl
  | p :: ps, c, r, v, h, hv, hl => by
    rw [runsBytes] at hl ⊢
    rw [runs]
    split
    · rename_i hp
      rw [if_pos hp] at hl
      exact runs_adds ps p (r + 1) v (by omega) hv hl
    · rename_i hp
      rw [if_neg hp, List.length_append] at hl
      obtain ⟨v1, e1, o1, c1, b1⟩ := encodeRun_adds (i := index pal c) h hv (by omega)
      have l1 := Adds.len hv o1 b1
      obtain ⟨v2, e2, o2, c2, b2⟩ := runs_adds (pal := pal) ps p 1 v1 (by omega) o1 (by omega)
      exact ⟨v2, by rw [e1, Outcome.bind_ok, e2], o2, by omega, by rw [b2, b1, List.append_assoc]⟩

/-! ## Palettes -/

theorem findColour_some {pal : List Bytes} {c : Bytes} {i : Nat} (h : findColour pal c = some i) :
    pal[i]? = some c := by
  induction pal generalizing i with
  | nil => cases h
  | cons p ps ih =>
    rw [findColour] at h
    split at h
    · cases h; rename_i hp; simp [hp]
    · obtain ⟨j, hj, rfl⟩ := Option.map_eq_some_iff.1 h
      simpa using ih hj

theorem findColour_none {pal : List Bytes} {c : Bytes} : findColour pal c = none ↔ c ∉ pal := by
  induction pal with
  | nil => simp [findColour]
  | cons p ps ih =>
    rw [findColour, List.mem_cons]
    split
    · rename_i hp; simp [hp]
    · rename_i hp
      rw [Option.map_eq_none_iff, ih]
      constructor
      · rintro h (rfl | h')
        · exact hp rfl
        · exact h h'
      · intro h h'; exact h (.inr h')

theorem Colours.unique {px : List Bytes} {j k : Nat} (h : Colours px j) (h' : Colours px k) : j = k := by
  obtain ⟨a, a1, rfl, a3⟩ := h
  obtain ⟨b, b1, rfl, b3⟩ := h'
  have h1 : a.length ≤ b.length := a1.length_le_of_subset fun c hc => (b3 c).2 ((a3 c).1 hc)
  have h2 : b.length ≤ a.length := b1.length_le_of_subset fun c hc => (a3 c).2 ((b3 c).1 hc)
  omega

theorem paletteLoop_some : ∀ (px pal : List Bytes) {pal' : List Bytes}, pal.Nodup → pal.length ≤ 16 →
    paletteLoop pal px = some pal' →
    pal'.Nodup ∧ pal'.length ≤ 16 ∧ (∃ more, pal' = pal ++ more) ∧ ∀ c, c ∈ pal' ↔ c ∈ pal ∨ c ∈ px
  | [], pal, pal', hn, hl, h => by
    cases h
    exact ⟨hn, hl, ⟨[], by simp⟩, by simp⟩
  | c :: cs, pal, pal', hn, hl, h => by
    rw [paletteLoop] at h
    split at h
    · rename_i i hi
      obtain ⟨h1, h2, h3, h4⟩ := paletteLoop_some cs pal hn hl h
      have hc : c ∈ pal := by
        have := findColour_some hi
        exact List.mem_of_getElem? this
      refine ⟨h1, h2, h3, fun d => ?_⟩
      rw [h4, List.mem_cons]
      constructor
      · rintro (h | h)
        · exact .inl h
        · exact .inr (.inr h)
      · rintro (h | rfl | h)
        · exact .inl h
        · exact .inl hc
        · exact .inr h
    · rename_i hi
      split at h
      · cases h
      · rename_i hlen
        have hc := findColour_none.1 hi
        have hn' : (pal ++ [c]).Nodup := by
          rw [List.nodup_append]
          refine ⟨hn, by simp, ?_⟩
          intro a ha b hb
          rw [List.mem_singleton] at hb
          subst hb
          intro hab
          subst hab
          exact hc ha
        obtain ⟨h1, h2, ⟨more, h3⟩, h4⟩ := paletteLoop_some cs (pal ++ [c]) hn' (by simp; omega) h
        refine ⟨h1, h2, ⟨c :: more, by rw [h3, List.append_assoc]; rfl⟩, fun d => ?_⟩
        rw [h4, List.mem_append, List.mem_singleton, List.mem_cons]
        constructor
        · rintro ((h | h) | h)
          · exact .inl h
          · exact .inr (.inl h)
          · exact .inr (.inr h)
        · rintro (h | h | h)
          · exact .inl (.inl h)
          · exact .inl (.inr h)
          · exact .inr h

theorem paletteLoop_none : ∀ (px pal : List Bytes), pal.Nodup → paletteLoop pal px = none →
    ∃ cs : List Bytes, cs.Nodup ∧ 16 < cs.length ∧ ∀ c, c ∈ cs → c ∈ pal ∨ c ∈ px
  | [], pal, _, h => by cases h
  | c :: cs, pal, hn, h => by
    rw [paletteLoop] at h
    split at h
    · obtain ⟨ds, h1, h2, h3⟩ := paletteLoop_none cs pal hn h
      refine ⟨ds, h1, h2, fun d hd => ?_⟩
      rcases h3 d hd with h | h
      · exact .inl h
      · exact .inr (List.mem_cons_of_mem _ h)
    · rename_i hi
      have hc := findColour_none.1 hi
      have hn' : (pal ++ [c]).Nodup := by
        rw [List.nodup_append]
        refine ⟨hn, by simp, ?_⟩
        intro a ha b hb
        rw [List.mem_singleton] at hb
        subst hb
        intro hab
        subst hab
        exact hc ha
      split at h
      · rename_i hlen
        refine ⟨pal ++ [c], hn', by simp; omega, fun d hd => ?_⟩
        rw [List.mem_append, List.mem_singleton] at hd
        rcases hd with h | rfl
        · exact .inl h
        · exact .inr (by simp)
      · obtain ⟨ds, h1, h2, h3⟩ := paletteLoop_none cs (pal ++ [c]) hn' h
        refine ⟨ds, h1, h2, fun d hd => ?_⟩
        rcases h3 d hd with h | h
        · rw [List.mem_append, List.mem_singleton] at h
          rcases h with h | rfl
          · exact .inl h
          · exact .inr (by simp)
        · exact .inr (List.mem_cons_of_mem _ h)

/-- the palette of a tile, or else it has more than 16 colours -/
theorem tilePalette_eq {px : List Bytes} (hp : px ≠ []) :
    (∃ pal, tilePalette px = .ok (some pal) ∧ pal.Nodup ∧ 1 ≤ pal.length ∧ pal.length ≤ 16 ∧ ∀ c, c ∈ pal ↔ c ∈ px) ∨
    (tilePalette px = .ok none ∧ ∀ k, Colours px k → 16 < k) := by
  obtain ⟨c, cs, rfl⟩ := List.exists_cons_of_ne_nil hp
  have hn : [c].Nodup := by simp
  cases h : paletteLoop [c] (c :: cs) with
  | some pal =>
    obtain ⟨h1, h2, ⟨more, h3⟩, h4⟩ := paletteLoop_some _ _ hn (by simp) h
    refine .inl ⟨pal, by rw [tilePalette, h], h1, by rw [h3]; simp, h2, fun d => ?_⟩
    rw [h4, List.mem_singleton]
    constructor
    · rintro (rfl | h)
      · simp
      · exact h
    · intro h; exact .inr h
  | none =>
    refine .inr ⟨by rw [tilePalette, h], ?_⟩
    rintro k ⟨ds, a1, rfl, a3⟩
    obtain ⟨es, h1, h2, h3⟩ := paletteLoop_none _ _ hn h
    have : es.length ≤ ds.length := h1.length_le_of_subset fun d hd => (a3 d).2 (by
      rcases h3 d hd with h | h
      · rw [List.mem_singleton] at h; subst h; simp
      · exact h)
    omega

/-! ## Tiles -/

theorem putPixels_adds {dst src : PixFmt} {bpc : Nat} {one : Bytes → Bytes} {px : List Bytes} {v : Vec} (hv : Ok v)
    (h : ∀ pxs, toCpixel dst src bpc pxs = .ok (pxs.flatMap one)) (h1 : ∀ px, (one px).length = bpc)
    (hl : v.len = 1) (hc : 1 + bpc * px.length ≤ v.cap) :
    Adds v (px.flatMap one) (putPixels dst src bpc px v) := by
  have hlen : (px.flatMap one).length = bpc * px.length := by rw [flatMap_length h1, Nat.mul_comm]
  obtain ⟨d, w1, w2, w3⟩ := write_end hv (b := px.flatMap one) (by omega)
  refine ⟨{ v with data := d, len := v.len + bpc * px.length }, ?_, ⟨w2, by simp only; omega⟩, rfl, ?_⟩
  · unfold putPixels
    rw [h, Outcome.bind_ok, ← hl, w1]
    rfl
  · rw [← w3, hlen]; rfl

theorem rawTile_adds {dst src : PixFmt} {bpc : Nat} {one : Bytes → Bytes} {px : List Bytes} {v : Vec} (hv : Ok v)
    (h : ∀ pxs, toCpixel dst src bpc pxs = .ok (pxs.flatMap one)) (h1 : ∀ px, (one px).length = bpc)
    (hl : v.len = 0) (hc : 1 + bpc * px.length ≤ v.cap) :
    Adds v (0 :: px.flatMap one) (rawTile dst src bpc px v) := by
  obtain ⟨v1, e1, o1, c1, b1⟩ := push_adds (x := 0) hv (by omega)
  have l1 := Adds.len hv o1 b1
  obtain ⟨v2, e2, o2, c2, b2⟩ := putPixels_adds (px := px) o1 h h1 (by rw [l1, hl]; rfl) (by omega)
  refine ⟨v2, ?_, o2, by omega, by rw [b2, b1, List.append_assoc]; rfl⟩
  unfold rawTile
  rw [e1, Outcome.bind_ok, e2]

/-- the bytes of a packed tile -/
def packedBytes (one : Bytes → Bytes) (px pal : List Bytes) : Bytes :=
  UInt8.ofNat (128 ||| pal.length) :: pal.flatMap one ++ match px with
    | [] => []
    | c :: cs => runsBytes pal c 1 cs

theorem packedBytes_length {one : Bytes → Bytes} {bpc : Nat} (h1 : ∀ px, (one px).length = bpc) {px pal : List Bytes} :
    (packedBytes one px pal).length ≤ 1 + bpc * pal.length + px.length := by
  unfold packedBytes
  rw [List.cons_append, List.length_cons, List.length_append, flatMap_length h1, Nat.mul_comm bpc]
  cases px with
  | nil => simp; omega
  | cons c cs =>
    have := runsBytes_length pal cs c 1 (by omega)
    simp only [List.length_cons]
    omega

theorem packedTile_adds {m : Heap} {dst src : PixFmt} {bpc : Nat} {one : Bytes → Bytes} {px pal : List Bytes} {v : Vec}
    (hv : Ok v) (h : ∀ pxs, toCpixel dst src bpc pxs = .ok (pxs.flatMap one)) (h1 : ∀ px, (one px).length = bpc)
    (hp : px ≠ []) (hpal : bpc * pal.length ≤ 48) (hl : v.len = 0) (hc : 1 + bpc * pal.length + px.length ≤ v.cap)
    (hc' : v.cap < sizeT) :
    Adds v (packedBytes one px pal) (packedTile m dst src bpc px pal v) := by
  have hlen : (pal.flatMap one).length = bpc * pal.length := by rw [flatMap_length h1, Nat.mul_comm]
  obtain ⟨c, cs, rfl⟩ := List.exists_cons_of_ne_nil hp
  rw [List.length_cons] at hc
  obtain ⟨v1, e1, o1, c1, b1⟩ := push_adds (x := UInt8.ofNat (128 ||| pal.length)) hv (by omega)
  have l1 := Adds.len hv o1 b1
  rw [List.length_singleton] at l1
  obtain ⟨v2, e2, o2, c2, b2⟩ := append_adds (m := m) (b := pal.flatMap one) o1 (by omega) (by omega)
  have l2 := Adds.len o1 o2 b2
  have := runsBytes_length pal cs c 1 (by omega)
  obtain ⟨v3, e3, o3, c3, b3⟩ := runs_adds (pal := pal) cs c 1 v2 (by omega) o2 (by omega)
  refine ⟨v3, ?_, o3, by omega, ?_⟩
  · unfold packedTile
    rw [h, Outcome.bind_ok, if_neg (by omega), e1, Outcome.bind_ok, e2, Outcome.bind_ok]
    exact e3
  · rw [b3, b2, b1]
    unfold packedBytes
    simp

/-- the bytes of a tile -/
def tileBytes (one : Bytes → Bytes) (bpc : Nat) (px : List Bytes) : Bytes :=
  match px with
  | [] => []
  | c :: _ =>
    match paletteLoop [c] px with
    | some [c] => 1 :: one c
    | some pal =>
      let b := packedBytes one px pal
      if b.length ≤ 1 + bpc * px.length then b else 0 :: px.flatMap one
    | none => 0 :: px.flatMap one

/-- a tile is encoded, unless the palette does not fit -/
theorem zrleTile_eq {m : Heap} {dst src : PixFmt} {one : Bytes → Bytes} {px : List Bytes} {v : Vec}
    (hv : Ok v) (h : ∀ pxs, toCpixel dst src (bytesPerCpixel dst) pxs = .ok (pxs.flatMap one))
    (h1 : ∀ px, (one px).length = bytesPerCpixel dst) (hb : 1 ≤ bytesPerCpixel dst ∧ bytesPerCpixel dst ≤ 4)
    (hp : px ≠ []) (hpl : px.length ≤ 4096) (hc : tileCap dst ≤ v.cap) (hc' : v.cap < sizeT) :
    ((∀ k, Colours px k → k ≤ 16 → bytesPerCpixel dst * k ≤ 48) →
      ∃ v', zrleTile m dst src px v = .ok v' ∧ Ok v' ∧ v'.cap = v.cap ∧
        v'.bytes = tileBytes one (bytesPerCpixel dst) px) ∧
    ((∃ k, Colours px k ∧ k ≤ 16 ∧ 48 < bytesPerCpixel dst * k) →
      zrleTile m dst src px v = .ub "cpalette overflow") := by
  have hv0 : Ok { v with len := 0 } := ⟨hv.mem, by simp⟩
  have hcap : 1 + bytesPerCpixel dst * 4096 + 48 ≤ v.cap := by unfold tileCap at hc; omega
  have hpx : bytesPerCpixel dst * px.length ≤ bytesPerCpixel dst * 4096 := Nat.mul_le_mul_left _ hpl
  have hnil : Vec.bytes { v with len := 0 } = [] := rfl
  rcases tilePalette_eq hp with ⟨pal, hpal, hn, hl1, hl16, hmem⟩ | ⟨hnone, hmany⟩
  · have hcol : Colours px pal.length := ⟨pal, hn, rfl, hmem⟩
    obtain ⟨c, cs, rfl⟩ := List.exists_cons_of_ne_nil hp
    have hloop : paletteLoop [c] (c :: cs) = some pal := by
      have := hpal; rw [tilePalette] at this; simpa using this
    match pal, hl1 with
    | [d], _ =>
      constructor
      · intro _
        obtain ⟨v1, e1, o1, c1, b1⟩ := push_adds (x := 1) hv0 (by simp only; omega)
        have l1 := Adds.len hv0 o1 b1
        obtain ⟨v2, e2, o2, c2, b2⟩ := putPixels_adds (px := [d]) o1 h h1 (by rw [l1]; rfl)
          (by simp only [List.length_singleton]; rw [c1]; simp only; omega)
        refine ⟨v2, ?_, o2, by rw [c2, c1], ?_⟩
        · unfold zrleTile
          rw [hpal, Outcome.bind_ok]
          simp only
          rw [e1, Outcome.bind_ok, e2]
        · rw [b2, b1, hnil, tileBytes, hloop]
          simp
      · rintro ⟨k, hk, hk16, hk48⟩
        have : k = 1 := Colours.unique hk hcol
        subst this
        omega
    | d :: e :: pal, _ =>
      have hrun : ∀ w, packedTile m dst src (bytesPerCpixel dst) (c :: cs) (d :: e :: pal) { v with len := 0 } = w →
          zrleTile m dst src (c :: cs) v = (do
            let v ← w
            if v.len ≤ 1 + bytesPerCpixel dst * (c :: cs).length then .ok v
            else rawTile dst src (bytesPerCpixel dst) (c :: cs) { v with len := 0 }) := by
        intro w hw
        unfold zrleTile
        rw [hpal, Outcome.bind_ok, ← hw]
      constructor
      · intro hfit
        have hf := hfit _ hcol hl16
        obtain ⟨v1, e1, o1, c1, b1⟩ := packedTile_adds (m := m) (px := c :: cs) (pal := d :: e :: pal) hv0 h h1 hp hf rfl
          (by
            simp only
            have : (c :: cs).length ≤ bytesPerCpixel dst * 4096 := by
              have : 1 * 4096 ≤ bytesPerCpixel dst * 4096 := Nat.mul_le_mul_right _ hb.1
              omega
            omega) hc'
        have l1 := Adds.len hv0 o1 b1
        have l1 : v1.len = (packedBytes one (c :: cs) (d :: e :: pal)).length := by rw [l1]; simp
        rw [hrun _ e1, Outcome.bind_ok]
        have ht : tileBytes one (bytesPerCpixel dst) (c :: cs) =
            if (packedBytes one (c :: cs) (d :: e :: pal)).length ≤ 1 + bytesPerCpixel dst * (c :: cs).length
            then packedBytes one (c :: cs) (d :: e :: pal) else 0 :: (c :: cs).flatMap one := by
          simp only [tileBytes, hloop]
        rw [ht, l1]
        split
        · exact ⟨v1, rfl, o1, c1, by rw [b1, hnil]; rfl⟩
        · obtain ⟨v2, e2, o2, c2, b2⟩ := rawTile_adds (px := c :: cs) (v := { v1 with len := 0 }) ⟨o1.mem, by simp⟩ h h1 rfl
            (by simp only; rw [c1]; simp only; omega)
          exact ⟨v2, e2, o2, by rw [c2]; exact c1, by rw [b2]; rfl⟩
      · rintro ⟨k, hk, hk16, hk48⟩
        have hkl : k = (d :: e :: pal).length := Colours.unique hk hcol
        subst hkl
        have hlen : ((d :: e :: pal).flatMap one).length = bytesPerCpixel dst * (d :: e :: pal).length := by
          rw [flatMap_length h1, Nat.mul_comm]
        rw [hrun (.ub "cpalette overflow") (by unfold packedTile; rw [h, Outcome.bind_ok, if_pos (by omega)])]
        rfl
  · constructor
    · intro _
      obtain ⟨v1, e1, o1, c1, b1⟩ := rawTile_adds (px := px) hv0 h h1 rfl (by simp only; omega)
      refine ⟨v1, ?_, o1, c1, ?_⟩
      · unfold zrleTile
        rw [hnone, Outcome.bind_ok]
        exact e1
      · obtain ⟨c, cs, rfl⟩ := List.exists_cons_of_ne_nil hp
        have hloop : paletteLoop [c] (c :: cs) = none := by
          have := hnone; rw [tilePalette] at this; simpa using this
        rw [b1, hnil, tileBytes, hloop]
        rfl
    · rintro ⟨k, hk, hk16, -⟩
      have := hmany k hk
      omega

end Verif.Enc
