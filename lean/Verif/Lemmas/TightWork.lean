import Verif.Lemmas.Tight

/-!
# Lemmas on the workers of the Tight encoder and on its payload
-/

namespace Verif.Enc
open Verif.Server (PixFmt be32i)
open Verif.Pixels
open Verif.Vec (Heap Vec Ok reserve_ok step_ok write_end bytes_length sizeT reserve)

def Fb.gw (fb : Fb) : Nat := (fb.width + 63) / 64
def Fb.gh (fb : Fb) : Nat := (fb.height + 63) / 64

/-- a tile of the grid, done with a stream -/
abbrev Done := Nat × Nat → Tile → Zs → Zs → Prop

/-- a stream went over tiles of the grid, in this order -/
def Chain (R : Done) (gw : Nat) (grid : List Tile) : List (Nat × Nat) → Zs → Zs → Prop
  | [], z, z' => z' = z
  | p :: ps, z, z' => ∃ t z1, grid[p.1 + p.2 * gw]? = some t ∧ t.state = .encoded ∧ R p t z z1 ∧
      Chain R gw grid ps z1 z'

theorem index_inj {gw x y x' y' : Nat} (hx : x < gw) (hx' : x' < gw) (h : x + y * gw = x' + y' * gw) :
    (x, y) = (x', y') := by
  have h1 : (x + y * gw) % gw = x := by rw [Nat.add_mul_mod_self_right, Nat.mod_eq_of_lt hx]
  have h2 : (x' + y' * gw) % gw = x' := by rw [Nat.add_mul_mod_self_right, Nat.mod_eq_of_lt hx']
  have h3 : (x + y * gw) / gw = y := by
    rw [Nat.add_mul_div_right _ _ (by omega), Nat.div_eq_of_lt hx, Nat.zero_add]
  have h4 : (x' + y' * gw) / gw = y' := by
    rw [Nat.add_mul_div_right _ _ (by omega), Nat.div_eq_of_lt hx', Nat.zero_add]
  rw [h] at h1 h3
  rw [← h1, h2, ← h3, h4]

theorem index_lt {gw gh x y : Nat} (hx : x < gw) (hy : y < gh) : x + y * gw < gh * gw := by
  have := Nat.mul_le_mul_right gw (show y + 1 ≤ gh from hy)
  rw [Nat.succ_mul] at this
  omega

theorem Chain.set {R : Done} {gw x y : Nat} {grid : List Tile} {t : Tile} (hx : x < gw) :
    ∀ {ps : List (Nat × Nat)} {z z' : Zs}, (∀ p ∈ ps, p.1 < gw) → (x, y) ∉ ps → Chain R gw grid ps z z' →
      Chain R gw (grid.set (x + y * gw) t) ps z z'
  | [], _, _, _, _, h => h
  | p :: ps, z, z', hp, hn, ⟨t1, z1, h1, h2, h3, h4⟩ => by
    refine ⟨t1, z1, ?_, h2, h3, Chain.set hx (fun q hq => hp q (List.mem_cons_of_mem _ hq))
      (fun h => hn (List.mem_cons_of_mem _ h)) h4⟩
    rw [List.getElem?_set_ne]
    · exact h1
    · intro e
      have := index_inj hx (hp p (List.mem_cons_self ..)) e
      apply hn
      rw [this]
      exact List.mem_cons_self ..

theorem Chain.snoc {R : Done} {gw : Nat} {grid : List Tile} {p : Nat × Nat} {t : Tile} {z1 z2 : Zs}
    (h1 : grid[p.1 + p.2 * gw]? = some t) (h2 : t.state = .encoded) (h3 : R p t z1 z2) :
    ∀ {ps : List (Nat × Nat)} {z : Zs}, Chain R gw grid ps z z1 → Chain R gw grid (ps ++ [p]) z z2
  | [], z, h => by
    cases h
    exact ⟨t, z2, h1, h2, h3, rfl⟩
  | q :: ps, z, ⟨t1, z3, k1, k2, k3, k4⟩ => ⟨t1, z3, k1, k2, k3, Chain.snoc h1 h2 h3 k4⟩

theorem Chain.mem {R : Done} {gw : Nat} {grid : List Tile} {p : Nat × Nat} :
    ∀ {ps : List (Nat × Nat)} {z z' : Zs}, Chain R gw grid ps z z' → p ∈ ps →
      ∃ t z1 z2, grid[p.1 + p.2 * gw]? = some t ∧ t.state = .encoded ∧ R p t z1 z2
  | [], _, _, _, hp => by cases hp
  | q :: ps, z, z', ⟨t1, z3, k1, k2, k3, k4⟩, hp => by
    rcases List.mem_cons.mp hp with h | h
    · subst h
      exact ⟨t1, z, z3, k1, k2, k3⟩
    · exact Chain.mem k4 h

/-- what holds while workers run: `D` are the damaged tiles -/
structure WInv (R : Done) (fb : Fb) (D : Nat × Nat → Bool) (zs : Fin 4 → Zs) (s : Work) : Prop where
  len : s.grid.length = fb.gh * fb.gw
  tile : ∀ x y, x < fb.gw → y < fb.gh → (D (x, y) = false ∨ ∃ i : Fin 4, (x, y) ∈ s.todo i) →
    ∃ t, s.grid[x + y * fb.gw]? = some t ∧ t.state = if D (x, y) then .damaged else .ready
  chain : ∀ i, ∃ done, workerTiles fb.gw fb.gh i = done ++ s.todo i ∧
    Chain R fb.gw s.grid (done.filter D) (zs i) (s.zs i)

theorem mem_workerTiles {gw gh x y : Nat} {i : Fin 4} :
    (x, y) ∈ workerTiles gw gh i ↔ (x < gw ∧ y < gh) ∧ x % 4 = i.val := by
  rw [workerTiles_eq, List.mem_filter, mem_coords]
  simp

/-- what encoding a tile does -/
structure TileDone (R : Done) (cfg : TightCfg) (dst src : PixFmt) (fb : Fb) : Prop where
  ub : ∀ x y t z as, x < fb.gw → y < fb.gh → ∀ why, encodeTile cfg dst src fb x y t z as ≠ .ub why
  ok : ∀ x y t z as t' z' as', x < fb.gw → y < fb.gh → encodeTile cfg dst src fb x y t z as = .ok (t', z', as') →
    t'.state = .encoded ∧ R (x, y) t' z z'

theorem workStep_inv {R : Done} {cfg : TightCfg} {dst src : PixFmt} {fb : Fb} (hR : TileDone R cfg dst src fb)
    {D : Nat × Nat → Bool} {zs : Fin 4 → Zs} (i : Fin 4) {s : Work} (h : WInv R fb D zs s) :
    (∀ why, workStep cfg dst src fb i s ≠ .ub why) ∧
    ∀ s', workStep cfg dst src fb i s = .ok s' → WInv R fb D zs s' := by
  unfold workStep
  split
  · exact ⟨nofun, fun s' e => by cases e; exact h⟩
  · rename_i x y rest htodo
    have hmem : (x, y) ∈ workerTiles fb.gw fb.gh i := by
      obtain ⟨done, hd, -⟩ := h.chain i
      rw [hd, htodo]
      simp
    obtain ⟨⟨hx, hy⟩, hxi⟩ := mem_workerTiles.mp hmem
    obtain ⟨t, ht, hts⟩ := h.tile x y hx hy (.inr ⟨i, by rw [htodo]; exact List.mem_cons_self ..⟩)
    have hgw : (fb.width + 63) / 64 = fb.gw := rfl
    have hstream : streamOf x = i := Fin.ext hxi
    simp only [hgw, ht, hstream]
    have hother : ∀ j, j ≠ i → put4 s.todo i rest j = s.todo j := fun j hj => if_neg hj
    have hsame : put4 s.todo i rest i = rest := if_pos rfl
    have hnd : ∀ j, (workerTiles fb.gw fb.gh j).Nodup := fun j => by
      rw [workerTiles_eq]
      exact (coords_nodup _ _).filter _
    have hrest : (x, y) ∉ rest ∧ ∀ done, workerTiles fb.gw fb.gh i = done ++ s.todo i → (x, y) ∉ done := by
      obtain ⟨done, hd, -⟩ := h.chain i
      have := hnd i
      rw [hd, htodo, List.nodup_append] at this
      refine ⟨(List.nodup_cons.mp this.2.1).1, fun done' hd' hin => ?_⟩
      have e := List.append_cancel_right (hd.symm.trans hd')
      subst e
      exact this.2.2 _ hin _ (List.mem_cons_self ..) rfl
    have hj : ∀ j p, p ∈ put4 s.todo i rest j → p ∈ s.todo j := by
      intro j p hp
      by_cases e : j = i
      · subst e
        rw [hsame] at hp
        rw [htodo]
        exact List.mem_cons_of_mem _ hp
      · rwa [hother j e] at hp
    have hnot : ∀ j, (x, y) ∉ put4 s.todo i rest j := by
      intro j hp
      by_cases e : j = i
      · subst e
        rw [hsame] at hp
        exact hrest.1 hp
      · rw [hother j e] at hp
        obtain ⟨done, hd, -⟩ := h.chain j
        have : (x, y) ∈ workerTiles fb.gw fb.gh j := by rw [hd]; exact List.mem_append_right _ hp
        have := (mem_workerTiles.mp this).2
        exact e (Fin.ext (by omega))
    split
    · rename_i hdam
      have hD : D (x, y) = true := by
        cases e : D (x, y)
        · rw [e] at hts
          rw [hts] at hdam
          cases hdam
        · rfl
      cases he : encodeTile cfg dst src fb x y t (s.zs i) (s.ans i) with
      | ub why => exact absurd he (hR.ub x y t _ _ hx hy why)
      | abort why => exact ⟨nofun, nofun⟩
      | ok q =>
        obtain ⟨t', z', as'⟩ := q
        obtain ⟨k1, k2⟩ := hR.ok x y t _ _ _ _ _ hx hy he
        rw [Outcome.bind_ok]
        refine ⟨nofun, fun s' e => ?_⟩
        cases e
        refine ⟨by simp only; rw [List.length_set]; exact h.len, ?_, ?_⟩
        · intro x1 y1 hx1 hy1 hc
          have hne : (x, y) ≠ (x1, y1) := by
            intro e
            cases e
            rcases hc with hc | ⟨j, hc⟩
            · rw [hD] at hc; cases hc
            · exact hnot j hc
          obtain ⟨t1, g1, g2⟩ := h.tile x1 y1 hx1 hy1 (hc.imp id fun ⟨j, hc⟩ => ⟨j, hj j _ hc⟩)
          refine ⟨t1, ?_, g2⟩
          simp only
          rw [List.getElem?_set_ne]
          · exact g1
          · exact fun e => hne (index_inj hx hx1 e)
        · intro j
          obtain ⟨done, hd, hc⟩ := h.chain j
          have hlt : ∀ p ∈ done.filter D, p.1 < fb.gw := by
            intro p hp
            have : p ∈ workerTiles fb.gw fb.gh j := by
              rw [hd]
              exact List.mem_append_left _ ((List.mem_filter.mp hp).1)
            exact (mem_workerTiles.mp this).1.1
          by_cases e : j = i
          · subst e
            refine ⟨done ++ [(x, y)], ?_, ?_⟩
            · rw [hd, htodo]
              simp only [hsame]
              simp
            · simp only
              rw [List.filter_append, show put4 s.zs j z' j = z' from if_pos rfl]
              have e1 : [(x, y)].filter D = [(x, y)] := by simp [hD]
              rw [e1]
              refine Chain.snoc (t := t') ?_ k1 k2 (Chain.set hx hlt (fun hin => ?_) hc)
              · rw [List.getElem?_set_self (by rw [h.len]; exact index_lt hx hy)]
              · exact hrest.2 done hd ((List.mem_filter.mp hin).1)
          · refine ⟨done, ?_, ?_⟩
            · simp only
              rw [hother j e]
              exact hd
            · simp only
              rw [show put4 s.zs i z' j = s.zs j from if_neg e]
              refine Chain.set hx hlt (fun hin => ?_) hc
              have : (x, y) ∈ workerTiles fb.gw fb.gh j := by
                rw [hd]
                exact List.mem_append_left _ ((List.mem_filter.mp hin).1)
              exact e (Fin.ext (by have := (mem_workerTiles.mp this).2; omega))
    · rename_i hdam
      have hD : D (x, y) = false := by
        cases e : D (x, y)
        · rfl
        · rw [e] at hts
          exact absurd hts hdam
      refine ⟨nofun, fun s' e => ?_⟩
      cases e
      refine ⟨h.len, ?_, ?_⟩
      · intro x1 y1 hx1 hy1 hc
        exact h.tile x1 y1 hx1 hy1 (hc.imp id fun ⟨j, hc⟩ => ⟨j, hj j _ hc⟩)
      · intro j
        obtain ⟨done, hd, hc⟩ := h.chain j
        by_cases e : j = i
        · subst e
          refine ⟨done ++ [(x, y)], ?_, ?_⟩
          · rw [hd, htodo]
            simp only [hsame]
            simp
          · rw [List.filter_append]
            have e1 : [(x, y)].filter D = [] := by simp [hD]
            rw [e1, List.append_nil]
            exact hc
        · refine ⟨done, ?_, hc⟩
          simp only
          rw [hother j e]
          exact hd

theorem workRun_inv {R : Done} {cfg : TightCfg} {dst src : PixFmt} {fb : Fb} (hR : TileDone R cfg dst src fb)
    {D : Nat × Nat → Bool} {zs : Fin 4 → Zs} : ∀ (is : List (Fin 4)) {s : Work}, WInv R fb D zs s →
    (∀ why, workRun cfg dst src fb is s ≠ .ub why) ∧
    ∀ s', workRun cfg dst src fb is s = .ok s' → WInv R fb D zs s'
  | [], s, h => ⟨nofun, fun s' e => by cases e; exact h⟩
  | i :: is, s, h => by
    rw [workRun]
    obtain ⟨h1, h2⟩ := workStep_inv hR i h
    cases e : workStep cfg dst src fb i s with
    | ub why => exact absurd e (h1 why)
    | abort why => exact ⟨nofun, nofun⟩
    | ok s1 =>
      rw [Outcome.bind_ok]
      exact workRun_inv hR is (h2 s1 e)

/-! ## The payload -/

/-- the bytes of a tile -/
def rectBytes (xpos ypos : Nat) (fb : Fb) (p : Nat × Nat) (t : Tile) : Bytes :=
  tightHead xpos ypos (boxOf fb p) ++ ([t.type] ++ (sizeBytes t.data.length ++ t.data))

theorem rectBytes_length (xpos ypos : Nat) (fb : Fb) (p : Nat × Nat) (t : Tile) :
    (rectBytes xpos ypos fb p t).length ≤ 16 + t.data.length := by
  have := (sizeBytes_length t.data.length).2
  unfold rectBytes tightHead
  simp only [List.length_append, be16_length, List.length_cons, List.length_nil]
  omega

theorem append_gives {m : Heap} (hm : Plenty m) {b : Bytes} {v : Vec} (hv : Ok v) (hl : v.len + b.length < sizeT / 2)
    {f : Vec → Outcome Vec} {c : Bytes} (hf : ∀ v', Ok v' → v'.bytes = v.bytes ++ b → Gives v' c (f v')) :
    Gives v (b ++ c) (Vec.step (.append m b) v >>= fun q => f q.1) := by
  rcases step_ok (o := .append m b) hv hl with ⟨why, hfast, -⟩ | ⟨v', r, e, o, hb, -, hr⟩
  · cases hfast
  · cases hr hm
    rw [e, Outcome.bind_ok]
    have hb : v'.bytes = v.bytes ++ b := hb
    rcases hf v' o hb with h | ⟨v'', h, o'', b''⟩
    · exact .inl h
    · exact .inr ⟨v'', h, o'', by rw [b'', hb, List.append_assoc]⟩

theorem finishTile_gives {m : Nat → Heap} (hm : ∀ i, Plenty (m i)) {xpos ypos : Nat} {fb : Fb} {x y : Nat}
    (hx : x < fb.gw) (hy : y < fb.gh) {t : Tile} (ht : t.data.length ≤ maxTile) {v : Vec} (hv : Ok v)
    (hl : v.len + 16 + t.data.length < sizeT / 2) :
    Gives v (rectBytes xpos ypos fb (x, y) t) (finishTile m xpos ypos fb x y t v) := by
  obtain ⟨s1, s2⟩ := box_side hx hy
  have hmax : maxTile = 32768 := rfl
  unfold finishTile rectBytes
  have hhead : rectHead Server.encTight (xpos + x * 64) (ypos + y * 64) (tightSide fb.width (x * 64))
      (tightSide fb.height (y * 64)) = tightHead xpos ypos (boxOf fb (x, y)) := by
    rw [s1, s2]
    unfold tightHead rectHead boxOf
    simp only
    rw [Nat.mul_comm x, Nat.mul_comm y]
    rfl
  rw [hhead]
  have hhl : (tightHead xpos ypos (boxOf fb (x, y))).length = 12 := by
    unfold tightHead
    simp [be16_length]
  have hlen : ∀ {v' : Vec}, Ok v' → v'.bytes.length = v'.len := fun h => bytes_length h
  refine append_gives (hm 0) hv (by omega) fun v1 o1 b1 => append_gives (hm 1) o1 ?_ fun v2 o2 b2 =>
    Gives.bind (encodeSize_gives o2 (by omega)) fun v3 o3 b3 => ?_
  · have := congrArg List.length b1
    rw [List.length_append, hlen o1, hlen hv] at this
    simp only [List.length_cons, List.length_nil]
    omega
  · have e1 := congrArg List.length b1
    have e2 := congrArg List.length b2
    have e3 := congrArg List.length b3
    rw [List.length_append, hlen o1, hlen hv] at e1
    rw [List.length_append, hlen o2, hlen o1] at e2
    rw [List.length_append, hlen o3, hlen o2] at e3
    have := (sizeBytes_length t.data.length).2
    simp only [List.length_cons, List.length_nil] at e2
    have := append_gives (c := []) (f := fun v => .ok v) (hm 2) (b := t.data) o3 (by omega)
      fun v4 o4 _ => .inr ⟨v4, rfl, o4, by simp⟩
    rwa [List.append_nil] at this

/-- the bytes of the tiles from number `i` on -/
def finBytes (xpos ypos : Nat) (fb : Fb) : Nat → List Tile → Bytes
  | _, [] => []
  | i, t :: ts => (if t.state = .encoded then rectBytes xpos ypos fb (i % fb.gw, i / fb.gw) t else []) ++
      finBytes xpos ypos fb (i + 1) ts

theorem finish_gives {m : Nat → Nat → Heap} (hm : ∀ i j, Plenty (m i j)) {xpos ypos : Nat} {fb : Fb} :
    ∀ (ts : List Tile) {i : Nat} {v : Vec}, i + ts.length ≤ fb.gh * fb.gw →
      (∀ t ∈ ts, t.state = .encoded → t.data.length ≤ maxTile) → Ok v →
      v.len + ts.length * 40000 < sizeT / 2 →
      Gives v (finBytes xpos ypos fb i ts) (finish m xpos ypos fb i ts v)
  | [], i, v, _, _, hv, _ => .inr ⟨v, rfl, hv, by simp [finBytes]⟩
  | t :: ts, i, v, hi, ht, hv, hl => by
    have hmax : maxTile = 32768 := rfl
    rw [List.length_cons] at hi hl
    have hgw : 0 < fb.gw := by
      rcases Nat.eq_zero_or_pos fb.gw with h | h
      · rw [h] at hi; omega
      · exact h
    have hx : i % fb.gw < fb.gw := Nat.mod_lt _ hgw
    have hy : i / fb.gw < fb.gh := (Nat.div_lt_iff_lt_mul hgw).mpr (by omega)
    have hrun : finish m xpos ypos fb i (t :: ts) v =
        ((if t.state = .encoded then finishTile (m i) xpos ypos fb (i % fb.gw) (i / fb.gw) t v else .ok v) >>=
          fun v => finish m xpos ypos fb (i + 1) ts v) := by
      rw [finish]
      by_cases hs : t.state = .encoded
      · rw [if_pos hs, if_pos hs]
        rfl
      · rw [if_neg hs, if_neg hs]
    rw [hrun, finBytes]
    refine Gives.bind ?_ fun v' o' b' => ?_
    · split
      · rename_i hs
        have := ht t (List.mem_cons_self ..) hs
        exact finishTile_gives (hm i) hx hy this hv (by omega)
      · exact .inr ⟨v, rfl, hv, by simp⟩
    · have e := congrArg List.length b'
      rw [List.length_append, bytes_length o', bytes_length hv] at e
      have hle : (if t.state = .encoded then rectBytes xpos ypos fb (i % fb.gw, i / fb.gw) t else []).length ≤ 40000 := by
        split
        · rename_i hs
          have h1 := ht t (List.mem_cons_self ..) hs
          have h2 := rectBytes_length xpos ypos fb (i % fb.gw, i / fb.gw) t
          omega
        · simp
      exact finish_gives hm ts (by omega) (fun t' h => ht t' (List.mem_cons_of_mem _ h)) o' (by omega)

/-- the tile at a place of the grid -/
def tileBytesAt (xpos ypos : Nat) (fb : Fb) (grid : List Tile) (p : Nat × Nat) : Bytes :=
  match grid[p.1 + p.2 * fb.gw]? with
  | some t => if t.state = .encoded then rectBytes xpos ypos fb p t else []
  | none => []

theorem finBytes_range (xpos ypos : Nat) (fb : Fb) : ∀ (ts : List Tile) (i : Nat),
    finBytes xpos ypos fb i ts = (List.range ts.length).flatMap fun k =>
      match ts[k]? with
      | some t => if t.state = .encoded then rectBytes xpos ypos fb ((i + k) % fb.gw, (i + k) / fb.gw) t else []
      | none => []
  | [], _ => rfl
  | t :: ts, i => by
    rw [finBytes, List.length_cons, List.range_succ_eq_map, List.flatMap_cons, List.flatMap_map,
      finBytes_range xpos ypos fb ts (i + 1)]
    congr 1
    · congr 1
      funext k
      rw [show i + 1 + k = i + k.succ by omega]
      rfl

theorem finBytes_coords (xpos ypos : Nat) (fb : Fb) {grid : List Tile} (hl : grid.length = fb.gh * fb.gw) :
    finBytes xpos ypos fb 0 grid = (coords fb.gw fb.gh).flatMap (tileBytesAt xpos ypos fb grid) := by
  rw [finBytes_range, coords_eq, List.flatMap_map, hl]
  congr 1
  funext k
  unfold tileBytesAt
  have e : k % fb.gw + k / fb.gw * fb.gw = k := by rw [Nat.mul_comm]; exact Nat.mod_add_div _ _
  simp only [e, Nat.zero_add]

theorem flatMap_filter {α β} (f : α → List β) (D : α → Bool) : ∀ (l : List α), (∀ a ∈ l, D a = false → f a = []) →
    l.flatMap f = (l.filter D).flatMap f
  | [], _ => rfl
  | a :: l, h => by
    have ih := flatMap_filter f D l fun b hb => h b (List.mem_cons_of_mem _ hb)
    cases e : D a
    · rw [List.filter_cons_of_neg (by simp [e]), List.flatMap_cons, h a (List.mem_cons_self ..) e, ih]
      rfl
    · rw [List.filter_cons_of_pos e, List.flatMap_cons, List.flatMap_cons, ih]

/-! ## All of it -/

/-- rectangles of damaged tiles, each made with the stream of its column -/
def Frames (R : Done) (xpos ypos : Nat) (fb : Fb) : List (Nat × Nat) → (Fin 4 → Zs) → Bytes → (Fin 4 → Zs) → Prop
  | [], z, p, z' => p = [] ∧ z' = z
  | q :: qs, z, p, z' => ∃ (s : Fin 4) (t : Tile) (z1 : Zs) (rest : Bytes), s.val = q.1 % 4 ∧ R q t (z s) z1 ∧
      p = rectBytes xpos ypos fb q t ++ rest ∧ Frames R xpos ypos fb qs (fun j => if j = s then z1 else z j) rest z'

theorem frames_of_chains {R : Done} {xpos ypos : Nat} {fb : Fb} {grid : List Tile} :
    ∀ (ps : List (Nat × Nat)) {z z' : Fin 4 → Zs},
      (∀ i : Fin 4, Chain R fb.gw grid (ps.filter fun p => p.1 % 4 = i.val) (z i) (z' i)) →
      Frames R xpos ypos fb ps z (ps.flatMap (tileBytesAt xpos ypos fb grid)) z'
  | [], z, z', h => ⟨rfl, funext fun i => h i⟩
  | p :: ps, z, z', h => by
    obtain ⟨s, hs⟩ : ∃ s : Fin 4, s.val = p.1 % 4 := ⟨⟨p.1 % 4, Nat.mod_lt _ (by decide)⟩, rfl⟩
    have h1 := h s
    rw [List.filter_cons_of_pos (by simp [hs])] at h1
    obtain ⟨t, z1, g1, g2, g3, g4⟩ := h1
    refine ⟨s, t, z1, ps.flatMap (tileBytesAt xpos ypos fb grid), hs, g3, ?_, ?_⟩
    · rw [List.flatMap_cons]
      congr 1
      unfold tileBytesAt
      rw [g1]
      simp only [g2, if_true]
    · apply frames_of_chains ps
      intro i
      by_cases e : i = s
      · subst e
        simpa using g4
      · simp only [if_neg e]
        have := h i
        rw [List.filter_cons_of_neg] at this
        · exact this
        · intro hh
          exact e (Fin.ext (by simp at hh; omega))

theorem applyDamage_get {gw : Nat} {damage : List Box} {grid : List Tile} {x y : Nat} (hx : x < gw)
    (hk : x + y * gw < grid.length) :
    ∃ t, (applyDamage gw damage grid)[x + y * gw]? = some t ∧
      t.state = if damagedTile damage x y then .damaged else .ready := by
  unfold applyDamage
  rw [List.getElem?_mapIdx, List.getElem?_eq_getElem hk]
  refine ⟨_, rfl, ?_⟩
  have h1 : (x + y * gw) % gw = x := by rw [Nat.add_mul_mod_self_right, Nat.mod_eq_of_lt hx]
  have h3 : (x + y * gw) / gw = y := by
    rw [Nat.add_mul_div_right _ _ (by omega), Nat.div_eq_of_lt hx, Nat.zero_add]
  simp only [h1, h3]

theorem count_map {α β} (f : α → β) (p : β → Bool) (q : α → Bool) : ∀ (l : List α), (∀ a ∈ l, p (f a) = q a) →
    (l.map f).countP p = (l.filter q).length
  | [], _ => rfl
  | a :: l, h => by
    have ih := count_map f p q l fun b hb => h b (List.mem_cons_of_mem _ hb)
    rw [List.map_cons, List.countP_cons, ih, h a (List.mem_cons_self ..), List.filter_cons]
    cases q a <;> simp

theorem applyDamage_count {fb : Fb} {damage : List Box} {grid : List Tile} (hl : grid.length = fb.gh * fb.gw) :
    (applyDamage fb.gw damage grid).countP (fun t => t.state = .damaged) =
      ((coords fb.gw fb.gh).filter fun p => damagedTile damage p.1 p.2).length := by
  have hg : applyDamage fb.gw damage grid = (List.range (fb.gh * fb.gw)).map fun i =>
      { (grid.getD i ⟨.ready, 0, []⟩) with
        state := if damagedTile damage (i % fb.gw) (i / fb.gw) then .damaged else .ready } := by
    unfold applyDamage
    apply List.ext_getElem
    · rw [List.length_mapIdx, List.length_map, List.length_range, hl]
    · intro i h1 h2
      rw [List.getElem_mapIdx, List.getElem_map, List.getElem_range]
      rw [List.length_map, List.length_range] at h2
      congr 1 <;> simp [List.getD, List.getElem?_eq_getElem (show i < grid.length by omega)]
  rw [hg, coords_eq, List.filter_map, List.length_map]
  apply count_map
  intro i _
  simp only [Function.comp]
  split <;> simp_all

/-- the payload of a run, and the number of rectangles -/
theorem tightEncode_eq {m0 : Heap} {m : Nat → Nat → Heap} (hm : ∀ i j, Plenty (m i j)) {cfg : TightCfg}
    {xpos ypos : Nat} {dst src : PixFmt} {fb : Fb} (hf : fb.Ok) (hsrc : pixfmt fb.f = some src) {R : Done}
    (hR : TileDone R cfg dst src fb) (hlen : ∀ p t z z', R p t z z' → t.data.length ≤ maxTile)
    {damage : List Box} {grid : List Tile} (hg : grid.length = fb.gh * fb.gw)
    {zs : Fin 4 → Zs} {ans : Fin 4 → List Ans} {schedule : List (Fin 4)} :
    (∀ why, tightEncode m0 m cfg xpos ypos dst fb damage grid zs ans schedule ≠ .ub why) ∧
    ∀ p n zs', tightEncode m0 m cfg xpos ypos dst fb damage grid zs ans schedule = .ok (p, n, zs') →
      n = ((coords fb.gw fb.gh).filter fun q => damagedTile damage q.1 q.2).length ∧ 0 < n ∧
      Frames R xpos ypos fb ((coords fb.gw fb.gh).filter fun q => damagedTile damage q.1 q.2) zs p zs' := by
  obtain ⟨D, hD⟩ : ∃ D : Nat × Nat → Bool, D = fun q => damagedTile damage q.1 q.2 := ⟨_, rfl⟩
  have hg2 : (applyDamage fb.gw damage grid).length = fb.gh * fb.gw := by
    unfold applyDamage
    rw [List.length_mapIdx, hg]
  have hinv : WInv R fb D zs ⟨applyDamage fb.gw damage grid, workerTiles fb.gw fb.gh, zs, ans⟩ := by
    refine ⟨hg2, ?_, fun i => ⟨[], rfl, rfl⟩⟩
    intro x y hx hy _
    rw [hD]
    exact applyDamage_get hx (by rw [hg]; exact index_lt hx hy)
  have hsz : sizeT = 18446744073709551616 := rfl
  have hcells : fb.gh * fb.gw ≤ fb.height * fb.stride := by
    have h1 : fb.gh ≤ fb.height := by unfold Fb.gh; omega
    have h2 : fb.gw ≤ fb.stride := by
      have := hf.stride
      unfold Fb.gw; omega
    exact Nat.mul_le_mul h1 h2
  have hsmall := hf.small
  have hcount := applyDamage_count (damage := damage) hg
  rw [← hD] at hcount ⊢
  unfold tightEncode
  have hgw : (fb.width + 63) / 64 = fb.gw := rfl
  have hgh : (fb.height + 63) / 64 = fb.gh := rfl
  simp only [hgw, hgh, hsrc]
  generalize e : Vec.init m0 (fb.width * fb.height * 4 % 4294967296) = q
  obtain ⟨v, r⟩ := q
  have hz : Ok { data := [], len := 0, cap := 0 } := ⟨rfl, Nat.le_refl _⟩
  obtain ⟨k1, k2, k3, -⟩ := reserve_ok hz e
  have k2 : v.len = 0 := k2
  have k3 : v.bytes = [] := k3
  cases r with
  | false => exact ⟨nofun, nofun⟩
  | true =>
    simp only
    rw [hcount]
    split
    · exact ⟨nofun, nofun⟩
    · rename_i hn
      obtain ⟨w1, w2⟩ := workRun_inv hR schedule hinv
      cases hw : workRun cfg dst src fb schedule ⟨applyDamage fb.gw damage grid, workerTiles fb.gw fb.gh, zs, ans⟩ with
      | ub why => exact absurd hw (w1 why)
      | abort why => exact ⟨nofun, nofun⟩
      | ok s =>
        rw [Outcome.bind_ok]
        have hi := w2 s hw
        split
        · rename_i htodo
          have hnil : ∀ i : Fin 4, s.todo i = [] := by
            obtain ⟨t0, t1, t2, t3⟩ := htodo
            intro i
            match i with
            | 0 => exact t0
            | 1 => exact t1
            | 2 => exact t2
            | 3 => exact t3
          have hch : ∀ i : Fin 4, Chain R fb.gw s.grid (((coords fb.gw fb.gh).filter D).filter fun p => p.1 % 4 = i.val)
              (zs i) (s.zs i) := by
            intro i
            obtain ⟨done, hd, hc⟩ := hi.chain i
            rw [hnil i, List.append_nil, workerTiles_eq] at hd
            rw [← hd] at hc
            rw [List.filter_filter] at hc ⊢
            simpa [Bool.and_comm] using hc
          have hstate : ∀ q ∈ coords fb.gw fb.gh, D q = false → tileBytesAt xpos ypos fb s.grid q = [] := by
            rintro ⟨x, y⟩ hq hDq
            obtain ⟨hx, hy⟩ := mem_coords.mp hq
            obtain ⟨t, t1, t2⟩ := hi.tile x y hx hy (.inl hDq)
            unfold tileBytesAt
            rw [t1]
            simp only
            rw [hDq] at t2
            rw [if_neg]
            rw [t2]
            simp
          have henc : ∀ t ∈ s.grid, t.state = .encoded → t.data.length ≤ maxTile := by
            intro t ht hst
            obtain ⟨k, hk, rfl⟩ := List.getElem_of_mem ht
            have hk' := hk
            rw [hi.len] at hk'
            have hgw0 : 0 < fb.gw := by
              rcases Nat.eq_zero_or_pos fb.gw with h | h
              · rw [h] at hk'; omega
              · exact h
            have hx : k % fb.gw < fb.gw := Nat.mod_lt _ hgw0
            have hy : k / fb.gw < fb.gh := (Nat.div_lt_iff_lt_mul hgw0).mpr hk'
            have hke : k % fb.gw + k / fb.gw * fb.gw = k := by rw [Nat.mul_comm]; exact Nat.mod_add_div _ _
            cases hDk : D (k % fb.gw, k / fb.gw) with
            | false =>
              obtain ⟨t, t1, t2⟩ := hi.tile _ _ hx hy (.inl hDk)
              rw [hke, List.getElem?_eq_getElem hk] at t1
              cases t1
              rw [hDk, hst] at t2
              cases t2
            | true =>
              have hmem : (k % fb.gw, k / fb.gw) ∈ ((coords fb.gw fb.gh).filter D).filter
                  fun p => p.1 % 4 = (⟨k % fb.gw % 4, Nat.mod_lt _ (by decide)⟩ : Fin 4).val := by
                rw [List.mem_filter, List.mem_filter]
                exact ⟨⟨mem_coords.mpr ⟨hx, hy⟩, hDk⟩, by simp⟩
              obtain ⟨t, z1, z2, t1, -, t3⟩ := (hch _).mem hmem
              simp only [hke, List.getElem?_eq_getElem hk] at t1
              cases t1
              exact hlen _ _ _ _ t3
          have hfin := finish_gives (m := m) hm (xpos := xpos) (ypos := ypos) (fb := fb) s.grid (i := 0) (v := v)
            (by rw [hi.len]; omega) henc k1 (by rw [k2, hi.len]; omega)
          rw [finBytes_coords xpos ypos fb hi.len, flatMap_filter _ D _ hstate] at hfin
          rcases hfin with ⟨why, hfin⟩ | ⟨v', hfin, -, hb⟩
          · rw [hfin]
            exact ⟨nofun, nofun⟩
          · rw [hfin, Outcome.bind_ok]
            refine ⟨nofun, fun p n zs' h => ?_⟩
            cases h
            refine ⟨rfl, by omega, ?_⟩
            rw [hb, k3, List.nil_append]
            exact frames_of_chains _ hch
        · exact ⟨nofun, nofun⟩

end Verif.Enc
