import Verif.Props.Segmentation
import Verif.Spec.Keyboard

/-! # Properties of the QEMU key codes: C94 -/

namespace Verif.Server

open Keyboard

/-- the table, for codes inside of it -/
def qnumAt (code : Nat) : Nat := qnumTable.getD code 0

theorem qemu_delivers {env : Env} {s : St} (hr : s.cl.st = .ready) {d sym code : Nat} (hd : d < 65536)
    (hc : code < 254) (rest : Bytes) :
    tryRead env qnumTable reenterInHandler s ((Msg.qemuKey d sym code).wire ++ rest) =
      .ok ({ s with log := s.log ++ [.keyCode (if qnumAt code = 0 then code else qnumAt code) (decide (d ≠ 0))] },
        12) := by
  obtain ⟨v, hv, e⟩ := c11_qemu_codes_partial (env := env) (sym := sym) hr hd hc rest
  have : qnumAt code = v := by rw [qnumAt, List.getD_eq_getElem?_getD, hv]; rfl
  rw [this]
  exact e

/-- C94: each key of a keyboard with 105 keys arrives with the code that Linux has for it, both when it is pressed and
when it is released, in whatever state the client and the server are once the handshake is over. -/
theorem c94_pc_keys {k : Key} (hk : k ∈ pc105) {env : Env} {s : St} (hr : s.cl.st = .ready) {d sym : Nat}
    (hd : d < 65536) (rest : Bytes) :
    tryRead env qnumTable reenterInHandler s ((Msg.qemuKey d sym k.qnum).wire ++ rest) =
      .ok ({ s with log := s.log ++ [.keyCode k.linux (decide (d ≠ 0))] }, 12) := by
  have all : ∀ k ∈ pc105, k.qnum < 254 ∧ (if qnumAt k.qnum = 0 then k.qnum else qnumAt k.qnum) = k.linux := by
    decide +kernel
  obtain ⟨h1, h2⟩ := all k hk
  rw [qemu_delivers hr hd h1, h2]

example : (⟨0x4b, true, 105⟩ : Key) ∈ pc105 ∧ (⟨0x10, false, 16⟩ : Key) ∈ pc105 ∧ pc105.length = 105 ∧
    ((fun r => r.1.log.take 1) <$> feed qnumTable [(.read 12, demoEnv)] demoClient (Msg.qemuKey 1 65 0xcb).wire) =
      .ok [.keyCode 105 true] := by
  decide +kernel

/-- C94, partial: two codes that the table has arrive as the same code only if they are equal, or if they are the two ways
in which the SysRq key can be sent.

Missing: codes that the table does not have, see `c94_ghosts_violated`. -/
theorem c94_distinct_partial {a b : Nat} (ha : a < 254) (hb : b < 254)
    (hza : qnumTable[a]? ≠ some 0) (hzb : qnumTable[b]? ≠ some 0)
    {env : Env} {s : St} (hr : s.cl.st = .ready) {d d' sym sym' k : Nat} {x y : Bool} (hd : d < 65536) (hd' : d' < 65536)
    (rest : Bytes)
    (e : tryRead env qnumTable reenterInHandler s ((Msg.qemuKey d sym a).wire ++ rest) =
      .ok ({ s with log := s.log ++ [.keyCode k x] }, 12))
    (e' : tryRead env qnumTable reenterInHandler s ((Msg.qemuKey d' sym' b).wire ++ rest) =
      .ok ({ s with log := s.log ++ [.keyCode k y] }, 12)) :
    a = b ∨ (a = 0x54 ∧ b = 0xb7) ∨ (a = 0xb7 ∧ b = 0x54) := by
  have nz : ∀ {c}, c < 254 → qnumTable[c]? ≠ some 0 → qnumAt c ≠ 0 := by
    intro c hc h h'
    apply h
    rw [qnumAt, List.getD_eq_getElem?_getD] at h'
    rw [List.getElem?_eq_getElem (by rw [qnumTable_length]; exact hc)] at h' ⊢
    rw [Option.getD_some] at h'
    rw [h']
  have code : ∀ {c k : Nat} {x y : Bool}, (.ok ({ s with log := s.log ++ [.keyCode c x] }, 12) : Outcome (St × Nat)) =
      .ok ({ s with log := s.log ++ [.keyCode k y] }, 12) → c = k := by
    intro c k x y h
    simp only [Outcome.ok.injEq, Prod.mk.injEq, St.mk.injEq, true_and, and_true, List.append_cancel_left_eq,
      List.cons.injEq, Eff.keyCode.injEq] at h
    exact h.1
  rw [qemu_delivers hr hd ha, if_neg (nz ha hza)] at e
  rw [qemu_delivers hr hd' hb, if_neg (nz hb hzb)] at e'
  have e1 := code e
  have e2 := code e'
  have all : ∀ a < 254, qnumAt a ≠ 0 → qnumTable.idxOf (qnumAt a) = a ∨ (a = 0xb7 ∧ qnumTable.idxOf (qnumAt a) = 0x54) := by
    decide +kernel
  have h1 := all a ha (nz ha hza)
  have h2 := all b hb (nz hb hzb)
  rw [e1] at h1
  rw [e2] at h2
  omega

example : qnumTable[0x4b]? = some 75 ∧ qnumTable[0xcb]? = some 105 := by decide +kernel

/-- codes that the table does not have, and the codes of the keys for which they are taken -/
def ghosts : List (Nat × Nat) := [(0x60, 0x9c), (0x61, 0x9d), (0x62, 0xb5), (0x6e, 0xd2), (0x7a, 0x72), (0x7c, 0x7d),
  (0x7f, 0xdd), (0x80, 0xe8), (0x8d, 0x66), (0x91, 0x68), (0xe0, 0xcc), (0xe1, 0xd4), (0xe2, 0xed), (0xee, 0xf3)]

/-- C94, violated: a code that the table does not have is passed on as it is, though it is that of another key in Linux:
0x60 for instance, which no key has, arrives as the enter key of the keypad. -/
theorem c94_ghosts_violated {env : Env} {s : St} (hr : s.cl.st = .ready) {d sym sym' : Nat} (hd : d < 65536)
    (rest : Bytes) {a b : Nat} (hg : (a, b) ∈ ghosts) :
    a ≠ b ∧ tryRead env qnumTable reenterInHandler s ((Msg.qemuKey d sym a).wire ++ rest) =
      tryRead env qnumTable reenterInHandler s ((Msg.qemuKey d sym' b).wire ++ rest) := by
  have all : ∀ g ∈ ghosts, g.1 < 254 ∧ g.2 < 254 ∧ g.1 ≠ g.2 ∧
      (if qnumAt g.1 = 0 then g.1 else qnumAt g.1) = if qnumAt g.2 = 0 then g.2 else qnumAt g.2 := by
    decide +kernel
  obtain ⟨h1, h2, h3, h4⟩ := all _ hg
  dsimp only at h1 h2 h3 h4
  refine ⟨h3, ?_⟩
  rw [qemu_delivers hr hd h1, qemu_delivers hr hd h2, h4]

/-- C94, partial: these are all the codes for which that happens. -/
theorem c94_ghosts_partial {a b : Nat} (hb : b < 254) (h0 : qnumTable[a]? = some 0)
    (hab : qnumTable[b]? = some a) (ha : a ≠ 0) : (a, b) ∈ ghosts := by
  have at' : ∀ {c v}, qnumTable[c]? = some v → qnumAt c = v := by
    intro c v h
    rw [qnumAt, List.getD_eq_getElem?_getD, h]
    rfl
  have all : ∀ b < 254, (qnumAt b ≠ 0 ∧ qnumAt (qnumAt b) = 0 ∧ qnumAt b < 254) → (qnumAt b, b) ∈ ghosts := by
    decide +kernel
  have h254 : a < 254 := by
    rw [← qnumTable_length]
    exact (List.getElem?_eq_some_iff.mp h0).1
  have := all b hb ⟨by rw [at' hab]; exact ha, by rw [at' hab]; exact at' h0, by rw [at' hab]; exact h254⟩
  rwa [at' hab] at this

example : qnumTable[0x60]? = some 0 ∧ qnumTable[0x9c]? = some 0x60 := by decide +kernel

end Verif.Server
