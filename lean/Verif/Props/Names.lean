import Verif.Lemmas.Peer
import Verif.Props.Frames

/-!
# The desktop name (C54)
-/

namespace Verif.Server

variable {table : List Nat}

/-- a ServerInit message that carries this name: size, pixel format, length and name -/
def Titled (name b : Bytes) : Prop := ∃ head : Bytes, head.length = 20 ∧ b = head ++ be32 name.length ++ name

theorem onInit_named {s s' : St} {a n} (e : onInit s a = .ok (s', n)) : s'.srv = s.srv ∧
    ∃ es, s'.log = s.log ++ es ∧ ∀ ch b, .send ch .serverInit b ∈ es → Titled s.srv.name b := by
  unfold onInit at e
  split at e
  · cases e; exact ⟨rfl, [], by simp, by simp⟩
  · dsimp only at e
    rename_i c rest
    have h0 : ∀ t : St, t = (if c = 0 then emit .disconnectOthers s else s : St) → t.srv = s.srv ∧
        ∃ es, t.log = s.log ++ es ∧ ∀ ch b, Eff.send ch .serverInit b ∉ es := by
      intro t ht
      split at ht <;> subst ht
      · exact ⟨rfl, [.disconnectOthers], rfl, by simp⟩
      · exact ⟨rfl, [], by simp, by simp⟩
    generalize ht : (if c = 0 then emit .disconnectOthers s else s : St) = t at e
    obtain ⟨h1, es, h2, h3⟩ := h0 t ht.symm
    unfold sendServerInit at e
    cases hf : t.srv.fb with
    | none => rw [hf] at e; cases e
    | some fb =>
      rw [hf] at e
      dsimp only at e
      cases hp : fb.fmt with
      | none => rw [hp] at e; cases e
      | some f =>
        rw [hp] at e
        dsimp only at e
        generalize (if f.bpp = 24 then { f with bpp := 32 } else f : PixFmt) = g at e
        cases e
        refine ⟨by simp [St.upd, emit, h1], ?_⟩
        generalize hb : be16 fb.w ++ be16 fb.h ++ pixfmtBytes g ++
          be32 (t.upd fun k => { k with pix := g }).srv.name.length ++
            (t.upd fun k => { k with pix := g }).srv.name = m
        have hn : Titled s.srv.name m := by
          refine ⟨be16 fb.w ++ be16 fb.h ++ pixfmtBytes g, by simp [be16, pixfmtBytes], ?_⟩
          rw [← hb, ← h1]; rfl
        have hl : (send .serverInit m (t.upd fun k => { k with pix := g })).log =
            t.log ++ (if t.cl.closed then [] else [.send t.cl.chan .serverInit m]) := by
          rw [send_log]
          rfl
        refine ⟨es ++ (if t.cl.closed then [] else [.send t.cl.chan .serverInit m]) ++ [.newClient], ?_, ?_⟩
        · show (send .serverInit m (t.upd fun k => { k with pix := g })).log ++ [.newClient] = _
          rw [hl, h2]; simp
        · intro ch b hm
          simp only [List.mem_append] at hm
          rcases hm with (hm | hm) | hm
          · exact absurd hm (h3 ch b)
          · split at hm
            · cases hm
            · simp only [List.mem_singleton, Eff.send.injEq, true_and] at hm
              rw [hm.2]; exact hn
          · simp at hm

theorem micro_named {lp s s'} (hm : Micro lp table s s') : s'.srv.name = s.srv.name ∧
    ∃ es, s'.log = s.log ++ es ∧ ∀ ch b, .send ch .serverInit b ∈ es → Titled s.srv.name b := by
  rcases micro_keep hm with hh | hh
  · obtain ⟨⟨_, h1⟩, -, -, es, h2, h3⟩ := hh.frame
    refine ⟨by rw [h1], es, h2, fun ch b hb => ?_⟩
    by_cases hi : s.cl.st = .init
    · obtain ⟨_, _, _, _, _, e⟩ := hh.read
      unfold tryRead at e
      rw [hi] at e
      obtain ⟨-, es', g2, g3⟩ := onInit_named e
      have : es' = es := List.append_cancel_left (g2.symm.trans h2)
      subst this
      exact g3 ch b hb
    · have := h3 _ hb
      cases this with
      | send _ _ _ h =>
        exfalso
        revert h hi
        cases s.cl.st <;> simp [hsKind]
  · obtain ⟨_, _, _, h1⟩ := hh.srv
    obtain ⟨es, h2, h3⟩ := hh.log
    refine ⟨by rw [h1], es, h2, fun ch b hb => ?_⟩
    rcases h3 _ hb with ⟨-, h⟩ | h | ⟨_, _, _, -, h⟩
    · cases h with
      | send _ _ _ hk => cases hk
    · cases h
    · cases h

end Verif.Server

namespace Verif.System
open Server

variable {table : List Nat}

/-- C54: the name set by the application, cut at its first zero byte and to 255 bytes -/
theorem c54_set {s s' : Sys} {n : Bytes} (e : sysStep table (.setName n) s = .ok s') :
    s'.srv.name <+: n ∧ 0 ∉ s'.srv.name ∧ s'.srv.name.length ≤ 255 ∧
    ∀ p : Bytes, p <+: n → 0 ∉ p → p.length ≤ 255 → p <+: s'.srv.name := by
  cases e
  show (cstr n).take 255 <+: n ∧ _
  have h1 : cstr n <+: n := List.takeWhile_prefix _
  refine ⟨(List.take_prefix _ _).trans h1, ?_, ?_, ?_⟩
  · intro h
    have := List.all_eq_true.1 (List.all_takeWhile (p := fun c : UInt8 => c != 0) (l := n)) 0
      (List.mem_of_mem_take h)
    simp at this
  · show ((cstr n).take 255).length ≤ 255
    rw [List.length_take]; omega
  · intro p hp h0 hl
    show p <+: (cstr n).take 255
    have h2 : p <+: cstr n := by
      obtain ⟨t, rfl⟩ := hp
      unfold cstr
      rw [List.takeWhile_append_of_pos (fun a ha => by
        simp only [bne_iff_ne, ne_eq, decide_eq_true_eq]; intro h; exact h0 (h ▸ ha))]
      exact List.prefix_append _ _
    exact List.prefix_take_iff.2 ⟨h2, hl⟩

/-- everything in this log that is not in one of the old ones, and announces a desktop, announces
this name -/
def Since (nm : Bytes) (old : List Peer) (l : List Eff) : Prop :=
  ∃ l0 ∈ [] :: old.map Peer.log, ∃ es, l = l0 ++ es ∧
    ∀ ch b, .send ch .serverInit b ∈ es → Titled nm b

theorem Since.more {nm old l es} (h : Since nm old l)
    (he : ∀ ch b, .send ch .serverInit b ∈ es → Titled nm b) : Since nm old (l ++ es) := by
  obtain ⟨l0, h0, es0, rfl, h1⟩ := h
  refine ⟨l0, h0, es0 ++ es, by simp, fun ch b hb => ?_⟩
  rcases List.mem_append.1 hb with hb | hb
  · exact h1 ch b hb
  · exact he ch b hb

theorem since_lifts (nm old) : Lifts table (fun o => ∀ n, o ≠ .setName n) (fun srv => srv.name = nm)
    (fun _ _ l => Since nm old l) where
  start srv _ := ⟨[], by simp, (start srv).log, rfl, fun ch b hb => by
    have : Eff.send ch .serverInit b ∈ [Eff.send .plain .version versionMsg] := hb
    simp at this⟩
  self s s' hm _ hs h := by
    obtain ⟨h1, es, h2, h3⟩ := micro_named hm
    rw [h1, h2]
    exact ⟨hs, h.more (hs ▸ h3)⟩
  other _ _ _ _ _ _ _ h := h
  api o f srv ho ha hs := by
    refine ⟨?_, fun _ _ h => h⟩
    cases ha <;> first | exact hs | exact absurd rfl (ho _)
  cut s zip text _ _ hs h := by
    obtain ⟨es, h1, h2⟩ := cut_adds s text
    rw [h1]
    refine h.more fun ch b hb => ?_
    rcases h2 _ hb with h | ⟨_, _, _, h, rfl | rfl⟩ <;> cases h

/-- C54: until the application changes the name again, every client that is told about the desktop
is told this name, with its length in the four bytes before it; the log of each client extends one
of those before (or is new), and the statement is about what is added. -/
theorem c54_name {s0 s s' : Sys} {ops0 ops : List SysOp} (h0 : s0.peers = [])
    (e0 : sysRun table ops0 s0 = .ok s) (hops : ∀ o ∈ ops, ∀ n, o ≠ .setName n)
    (e : sysRun table ops s = .ok s') :
    s'.srv.name = s.srv.name ∧ ∀ p ∈ s'.peers, Since s.srv.name s.peers p.log := by
  have hb := based_run (based_nil h0) e0
  obtain ⟨h1, h2⟩ := (since_lifts s.srv.name s.peers).sysRun ops hops (show Inv _ _ s from
    ⟨rfl, fun p hp => ⟨hb p hp _, p.log, by simp; exact .inr ⟨p, hp, rfl⟩, [], by simp, by simp⟩⟩) e
  exact ⟨h1, fun p hp => (h2 p hp).2⟩

/-- 300 letters and then some: the client is told 255 of them; a zero byte ends a name -/
example : sysLog ([.setName (List.replicate 300 65 ++ [0, 66])] ++ (joins [0]).take 4) 2 =
      [.send .plain .serverInit ([0, 4, 0, 3, 32, 24, 0, 1, 0, 255, 0, 255, 0, 255, 16, 8, 0, 0, 0, 0] ++
        [0, 0, 0, 255] ++ List.replicate 255 65), .newClient] ∧
    sysLog ([.setName [72, 105, 0, 66]] ++ (joins [0]).take 4 ++ [.setName [66]]) 2 =
      [.send .plain .serverInit ([0, 4, 0, 3, 32, 24, 0, 1, 0, 255, 0, 255, 0, 255, 16, 8, 0, 0, 0, 0] ++
        [0, 0, 0, 2, 72, 105]), .newClient] := by
  constructor <;> decide +kernel

end Verif.System
