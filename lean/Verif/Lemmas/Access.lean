import Verif.Lemmas.System
import Verif.Spec.Server

/-! # Order of events in a client's log -/

namespace Verif.Server

variable {table : List Nat}

theorem After.nil (P Q) : After P Q [] := by
  intro pre e post h; simp at h

theorem After.quiet {P Q : Eff → Prop} {l es} (h : After P Q l) (hq : ∀ e ∈ es, ¬ Q e) :
    After P Q (l ++ es) := by
  intro pre e post he hQ
  rw [List.append_eq_append_iff] at he
  rcases he with ⟨a, h1, h2⟩ | ⟨c, h1, h2⟩
  · exact absurd hQ (hq e (by rw [h2]; simp))
  · cases c with
    | nil =>
      simp at h2
      exact absurd hQ (hq e (by rw [← h2]; simp))
    | cons x c =>
      simp at h2
      obtain ⟨rfl, h2⟩ := h2
      exact h pre _ c h1 hQ

theorem After.loud {P Q : Eff → Prop} {l es} (h : After P Q l) (hp : ∃ g ∈ l, P g) :
    After P Q (l ++ es) := by
  intro pre e post he hQ
  rw [List.append_eq_append_iff] at he
  rcases he with ⟨a, h1, h2⟩ | ⟨c, h1, h2⟩
  · obtain ⟨g, hg, hP⟩ := hp
    exact ⟨g, by rw [h1]; simp [hg], hP⟩
  · cases c with
    | nil =>
      simp at h1
      obtain ⟨g, hg, hP⟩ := hp
      exact ⟨g, by rw [← h1]; exact hg, hP⟩
    | cons x c =>
      simp at h2
      obtain ⟨rfl, h2⟩ := h2
      exact h pre _ c h1 hQ

theorem handshake_of {b k} (hb : b ≠ .init) (h : hsKind b k = true) : Kind.handshake k = true := by
  cases k <;> cases b <;> first | rfl | (exact absurd rfl hb) | cases h

/-- before ClientInit nothing of a session happens -/
theorem HsEff.quiet {b e} (h : HsEff b e) (hb : b ≠ .init) : ¬ Session e := by
  intro hs
  cases h with
  | send ch k m hk =>
    cases hs with
    | callback h => cases h
    | send _ _ _ h => rw [handshake_of hb hk] at h; cases h
  | upgrade => cases hs with | callback h => cases h
  | auth => cases hs with | callback h => cases h
  | newClient h => exact hb h
  | disconnectOthers h => exact hb h
  | deferClose => cases hs with | callback h => cases h

theorem HsEff.noCallback {b e} (h : HsEff b e) : ¬ Callback e := by
  intro hs; cases h <;> cases hs

theorem KeepEff.quiet {lp s e} (h : KeepEff lp s e) (hn : s.cl.st ≠ .ready) : ¬ Session e := by
  intro hs
  rcases h with ⟨h, -⟩ | h | ⟨_, _, _, -, rfl⟩
  · exact hn h
  · cases h <;> cases hs with | callback h => cases h
  · cases hs with | callback h => cases h

theorem Callback.session {e} (h : Callback e) : Session e := .callback h

theorem KeepEff.noAuth {lp s e} (h : KeepEff lp s e) : trueAuths [e] = [] := by
  rcases h with ⟨-, h⟩ | h | ⟨_, _, _, -, rfl⟩
  · cases h <;> rfl
  · cases h <;> rfl
  · rfl

theorem trueAuths_nil {es : List Eff} (h : ∀ e ∈ es, trueAuths [e] = []) : trueAuths es = [] := by
  induction es with
  | nil => rfl
  | cons e es ih =>
    rw [← List.singleton_append, trueAuths_append, h e (by simp), ih fun e he => h e (by simp [he])]
    rfl

theorem approvedNames_eq (l) : approvedNames l = (trueAuths l).map (·.1) := by
  induction l with
  | nil => rfl
  | cons e l ih =>
    cases e with
    | auth u p ok => cases ok <;> simp [approvedNames, trueAuths, ih]
    | _ => simp [approvedNames, trueAuths, ih]

theorem mem_of_trueAuths {l u p} (h : (u, p) ∈ trueAuths l) : Eff.auth u p true ∈ l := by
  induction l with
  | nil => cases h
  | cons e l ih =>
    cases e with
    | auth u' p' ok =>
      cases ok
      · exact List.mem_cons_of_mem _ (ih h)
      · simp [trueAuths] at h
        rcases h with ⟨rfl, rfl⟩ | h
        · simp
        · exact List.mem_cons_of_mem _ (ih h)
    | _ => exact List.mem_cons_of_mem _ (ih h)

/-- what initSecTypes makes of the configuration -/
theorem initSecTypes_cases {srv srv'} (e : initSecTypes srv = .ok srv') :
    (srv.secTypes ≠ [] ∧ srv' = srv) ∨
    (srv.secTypes = [] ∧ srv.requireAuth = false ∧ srv' = { srv with secTypes := [1] }) ∨
    (srv.secTypes = [] ∧ srv.requireAuth = true ∧ srv.hasAuthFn = true ∧
      srv' = { srv with secTypes := (if srv.hasTls then [19] else []) ++ [129, 5] ++
        (if srv.requireEnc then [] else [30]) }) := by
  unfold initSecTypes at e
  rcases ite_cases e with ⟨h, e⟩ | ⟨h, e⟩
  · cases e; exact .inl ⟨h, rfl⟩
  have h := Classical.not_not.1 h
  rcases ite_cases e with ⟨h2, e⟩ | ⟨h2, e⟩
  · rcases ite_cases e with ⟨h3, e⟩ | ⟨h3, e⟩
    · cases e
    · cases e
      exact .inr (.inr ⟨h, h2, by simpa using h3, rfl⟩)
  · cases e
    exact .inr (.inl ⟨h, by simpa using h2, rfl⟩)

end Verif.Server

namespace Verif.System

open Verif.Server

theorem cutTextSend_log (text s) (hb : Base s) : ∃ es, (cutTextSend text s).log = s.log ++ es ∧
    ∀ e ∈ es, (∃ b, e = .send s.cl.chan .cutText b) ∨
      (s.cl.st = .ready ∧ ∃ b, e = .send s.cl.chan .clip b) := by
  have hsend : ∀ k b, ∃ es, (send k b s).log = s.log ++ es ∧
      ∀ e ∈ es, e = .send s.cl.chan k b := by
    intro k b
    refine ⟨_, send_log k b s, fun e he => ?_⟩
    split at he <;> simp at he
    exact he
  have hr : hasEnc s.cl encExtClipboard = true → s.cl.st = .ready := by
    intro h
    refine Classical.byContradiction fun hn => ?_
    have := (hb hn).encodings
    simp [hasEnc, this] at h
  have nop : ∃ es, s.log = s.log ++ es ∧ ∀ e ∈ es, (∃ b, e = .send s.cl.chan .cutText b) ∨
      (s.cl.st = .ready ∧ ∃ b, e = .send s.cl.chan .clip b) := ⟨[], by simp, by simp⟩
  unfold cutTextSend
  split
  · rename_i h
    split
    · exact nop
    · split
      · obtain ⟨es, h1, h2⟩ := hsend .clip _
        exact ⟨es, h1, fun e he => .inr ⟨hr h, _, h2 e he⟩⟩
      · split
        · obtain ⟨es, h1, h2⟩ := hsend .clip _
          exact ⟨es, h1, fun e he => .inr ⟨hr h, _, h2 e he⟩⟩
        · exact nop
  · obtain ⟨es, h1, h2⟩ := hsend .cutText _
    exact ⟨es, h1, fun e he => .inl ⟨_, h2 e he⟩⟩

/-- what nvnc_send_cut_text does to a client -/
theorem cutTextTo_log (text s) (hb : Base s) : ∃ es, (cutTextTo text s).log = s.log ++ es ∧
    ∀ e ∈ es, e = .offered text ∨ (∃ b, e = .send s.cl.chan .cutText b) ∨
      (s.cl.st = .ready ∧ ∃ b, e = .send s.cl.chan .clip b) := by
  unfold cutTextTo
  split
  · exact ⟨[], by simp, by simp⟩
  · split
    · obtain ⟨es, h1, h2⟩ := cutTextSend_log text s hb
      exact ⟨es, h1, fun e he => .inr (h2 e he)⟩
    · obtain ⟨es, h1, h2⟩ := cutTextSend_log text (emit (.offered text) s) hb
      refine ⟨.offered text :: es, by rw [h1]; simp [emit], fun e he => ?_⟩
      rcases List.mem_cons.1 he with h | h
      · exact .inl h
      · exact .inr (h2 e h)

end Verif.System
