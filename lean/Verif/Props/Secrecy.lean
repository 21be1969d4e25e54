import Verif.Lemmas.Secrecy
import Verif.Props.Access

/-! # What is encrypted: C102

Like those of `Props/Access` the theorems are about runs of the whole server. -/

namespace Verif.System

open Verif.Server

variable {table : List Nat}

/-- the policy that makes encryption mandatory -/
def EncOnly (srv : Srv) : Prop :=
  srv.requireAuth = true ∧ srv.requireEnc = true ∧ ¬ Offers srv.secTypes 1 ∧ ¬ Offers srv.secTypes 30

theorem encOnly_init {srv srv'} (e : initSecTypes srv = .ok srv') (h : EncOnly srv) : EncOnly srv' := by
  rcases initSecTypes_cases e with ⟨-, rfl⟩ | ⟨-, h2, -⟩ | ⟨-, h2, -, rfl⟩
  · exact h
  · rw [h.1] at h2; cases h2
  · refine ⟨h2, h.2.1, ?_, ?_⟩ <;>
    · rintro ⟨x, hx, hm⟩
      rw [h.2.1] at hx
      cases srv.hasTls <;> simp at hx <;> omega

/-- the connection was encrypted -/
inductive Upgraded : Eff → Prop
  | mk (ch) : ch ≠ .plain → Upgraded (.upgrade ch)

/-- what must not happen in the clear: anything of a session, and looking at credentials -/
inductive Private : Eff → Prop
  | session {e} : Session e → Private e
  | auth (u p ok) : Private (.auth u p ok)

/-- phases that come after the upgrade -/
def Late : CState → Bool
  | .vePlain | .rsaHash | .rsaCreds | .init | .ready => true
  | _ => false

def Shut (_ : Srv) (c : Client) (l : List Eff) : Prop :=
  c.st ≠ .appleDh ∧ (Late c.st = true → c.chan ≠ .plain) ∧ (c.chan ≠ .plain → ∃ g ∈ l, Upgraded g) ∧
    (∀ k b, .send .plain k b ∈ l → k.handshake = true ∨ k = .cutText) ∧ After Upgraded Private l

theorem Private.not_send {ch k b} (h : k.handshake = true ∨ k = .cutText) : ¬ Private (.send ch k b) := by
  intro hp
  cases hp with
  | session h' =>
    cases h' with
    | callback h => cases h
    | send _ _ _ h1 h2 => rcases h with h | h
                          · rw [h] at h1; cases h1
                          · exact h2 h

theorem shut_lifts : Lifts table (fun o => ∀ a e f, o = .enableAuth a e f → a = true ∧ e = true)
    EncOnly Shut where
  start := by
    intro srv _
    refine ⟨nofun, nofun, fun h => absurd rfl h, ?_, ?_⟩
    · intro k b h
      have h : Eff.send .plain k b ∈ [Eff.send .plain .version versionMsg] := h
      simp at h
      rw [h.1]; exact .inl rfl
    · show After _ _ [.send .plain .version versionMsg]
      refine After.quiet (.nil _ _) (es := [_]) ?_
      intro e he hs
      simp at he; subst he
      exact Private.not_send (.inl rfl) hs
  self := by
    intro s s' hm hb hS ⟨i1, i2, i3, i4, i5⟩
    rcases micro_keep hm with ⟨hn, hF, hT, -, -, hR⟩ | hK
    · have hS' : EncOnly s'.srv := by
        rcases hT.srv with h | ⟨-, h⟩
        · rw [h]; exact hS
        · exact encOnly_init h hS
      refine ⟨hS', ?_⟩
      have hx := hT.next
      have hch := hT.chan
      have hna : s'.cl.st ≠ .appleDh := by
        intro h
        rw [h] at hx
        generalize s.cl.st = st at hx i1
        cases hx with
        | same => exact i1 rfl
        | apple h => exact hS'.2.2.2 h
      have hlate : Late s'.cl.st = true → s'.cl.chan ≠ .plain := by
        rw [hch]
        generalize s'.cl.st = st' at *
        generalize s.cl.st = st at *
        intro hl
        cases hx with
        | same => have := i2 hl; cases st' <;> exact this
        | fail => cases hl
        | version => cases hl
        | none h => exact absurd h hS'.2.2.1
        | ve => cases hl
        | apple => cases hl
        | rsa => cases hl
        | veVersion => cases hl
        | veSubtype => exact nofun
        | rsaPubKey => cases hl
        | rsaChallenge => exact nofun
        | rsaHash => exact i2 rfl
        | auth _ h => rcases h with rfl | rfl | rfl
                      · exact i2 rfl
                      · exact absurd rfl i1
                      · exact i2 rfl
        | init => exact i2 rfl
      obtain ⟨env, tb, r, a, n, hR⟩ := hR
      obtain ⟨es, hl, hes⟩ := hF.log
      have plainK : s.cl.chan = .plain → ∀ k, hsKind s.cl.st k = true → k.handshake = true := by
        intro hc k hk
        refine handshake_of (fun h => ?_) hk
        rw [h] at i2
        exact i2 rfl hc
      rcases hs_over hn hR with ⟨h1, fs, h2, h3, h4⟩ | ⟨ch, fs, gs, h1, h2, h3, h4, h5⟩
      · have : fs = es := by rw [hl] at h2; exact (List.append_cancel_left h2).symm
        subst this
        refine ⟨hna, hlate, ?_, ?_, ?_⟩
        · intro h
          rw [h1] at h
          obtain ⟨g, hg, hu⟩ := i3 h
          exact ⟨g, by rw [hl]; simp [hg], hu⟩
        · intro k b h
          rw [hl] at h
          rcases List.mem_append.1 h with h | h
          · exact i4 k b h
          · have hc := h3 _ _ _ h
            cases hes _ h with
            | send _ _ _ hk => exact .inl (plainK hc.symm k hk)
        · rw [hl]
          by_cases hc : s.cl.chan = .plain
          · refine i5.quiet fun e he hp => ?_
            have hni : s.cl.st ≠ .init := fun h => by rw [h] at i2; exact i2 rfl hc
            cases hp with
            | session h => exact (hes e he).quiet hni h
            | auth u p ok =>
              rcases h4 u p ok he with h | h | h
              · rw [h] at i2; exact i2 rfl hc
              · exact i1 h
              · rw [h] at i2; exact i2 rfl hc
          · exact i5.loud (i3 hc)
      · refine ⟨hna, hlate, fun _ => ⟨_, by rw [h1]; simp, .mk ch h3⟩, ?_, ?_⟩
        · intro k b h
          have hmem := h
          rw [h1] at h
          simp only [List.mem_append, List.mem_cons] at h
          rcases h with (h | h) | h | h
          · exact i4 k b h
          · obtain ⟨k', b', h'⟩ := h4 _ h
            have hc : s.cl.chan = .plain := by injection h' with h' _ _; exact h'.symm
            have : Eff.send .plain k b ∈ es := by
              have h6 : s.log ++ es = s.log ++ (fs ++ .upgrade ch :: gs) := by rw [← hl, h1, List.append_assoc]
              rw [List.append_cancel_left h6]
              simp [h]
            cases hes _ this with
            | send _ _ _ hk => exact .inl (plainK hc k hk)
          · cases h
          · obtain ⟨k', b', h'⟩ := h5 _ h
            injection h' with h' _ _
            exact absurd h'.symm h3
        · rw [h1]
          have h6 : es = fs ++ .upgrade ch :: gs := by
            have : s.log ++ es = s.log ++ (fs ++ .upgrade ch :: gs) := by rw [← hl, h1, List.append_assoc]
            exact List.append_cancel_left this
          by_cases hc : s.cl.chan = .plain
          · have hq : After Upgraded Private (s.log ++ fs) := by
              refine i5.quiet fun e he hp => ?_
              obtain ⟨k, b, rfl⟩ := h4 e he
              have hm' : Eff.send s.cl.chan k b ∈ es := by rw [h6]; simp [he]
              cases hes _ hm' with
              | send _ _ _ hk => exact Private.not_send (.inl (plainK hc k hk)) hp
            have hu : After Upgraded Private (s.log ++ fs ++ [.upgrade ch]) := by
              refine hq.quiet fun e he hp => ?_
              simp at he; subst he
              cases hp with
              | session h => cases h with | callback h => cases h
            have := hu.loud (es := gs) ⟨.upgrade ch, by simp, .mk ch h3⟩
            simpa [List.append_assoc] using this
          · rw [List.append_assoc]
            exact i5.loud (i3 hc)
    · obtain ⟨fb, cs, nd, hsrv⟩ := hK.srv
      refine ⟨by rw [hsrv]; exact hS, ?_⟩
      obtain ⟨es, hl, hes⟩ := hK.log
      rw [hl, Shut, hK.st, hK.chan]
      refine ⟨i1, i2, ?_, ?_, ?_⟩
      · intro h
        obtain ⟨g, hg, hu⟩ := i3 h
        exact ⟨g, by simp [hg], hu⟩
      · intro k b h
        rcases List.mem_append.1 h with h | h
        · exact i4 k b h
        · rcases hes _ h with ⟨hr, h⟩ | h | ⟨_, _, _, -, h⟩
          · have hc : s.cl.chan ≠ .plain := i2 (by rw [hr]; rfl)
            generalize hx : Eff.send Chan.plain k b = x at h
            cases h with
            | send k' b' _ _ => injection hx with hx _ _; exact absurd hx.symm hc
            | _ => cases hx
          · cases h
          · cases h
      · by_cases hr : s.cl.st = .ready
        · exact i5.loud (i3 (i2 (by rw [hr]; rfl)))
        · refine i5.quiet fun e he hp => ?_
          cases hp with
          | session h => exact (hes e he).quiet hr h
          | auth u p ok =>
            rcases hes _ he with ⟨h, -⟩ | h | ⟨_, _, _, -, h⟩
            · exact hr h
            · cases h
            · cases h
  other := fun _ _ _ _ _ _ _ h => h
  api := by
    intro o f srv ho ha hS
    refine ⟨?_, fun _ _ h => h⟩
    cases ha with
    | enableAuth a e f => exact ⟨(ho _ _ _ rfl).1, (ho _ _ _ rfl).2, hS.2.2⟩
    | _ => exact hS
  cut := by
    intro s _ text _ hb _ ⟨i1, i2, i3, i4, i5⟩
    obtain ⟨es, hl, hes⟩ := cutTextTo_log text s hb
    rw [hl]
    refine ⟨i1, i2, ?_, ?_, ?_⟩
    · intro h
      obtain ⟨g, hg, hu⟩ := i3 h
      exact ⟨g, by simp [hg], hu⟩
    · intro k b h
      rcases List.mem_append.1 h with h | h
      · exact i4 k b h
      · rcases hes _ h with h | ⟨_, h⟩ | ⟨hr, _, h⟩
        · cases h
        · injection h with _ h _; exact .inr h
        · injection h with h _ _
          exact absurd h.symm (i2 (by rw [hr]; rfl))
    · by_cases hr : s.cl.st = .ready
      · exact i5.loud (i3 (i2 (by rw [hr]; rfl)))
      · refine i5.quiet fun e he hp => ?_
        rcases hes _ he with rfl | ⟨_, rfl⟩ | ⟨h, -⟩
        · cases hp with
          | session h => cases h with | callback h => cases h
        · exact Private.not_send (.inr rfl) hp
        · exact hr h

/-- C102, for a server that was told to require authentication and encryption before its first client said hello
and is never told otherwise: the connection of every client is encrypted before its credentials are looked at
and before anything of a session is sent, asked of the application or encoded for it; and all that is ever
written in the clear is messages of the handshake and clipboard texts.

Missing: clipboard texts go to connections that are not encrypted yet, see `c102_clipboard_violated`;
a server that is told to require encryption and no authentication does not, see `c102_encryption_violated`. -/
theorem c102_encrypted_partial {s0 s : Sys} {ops : List SysOp} (h0 : s0.peers = [])
    (ha : s0.srv.requireAuth = true) (he : s0.srv.requireEnc = true) (hs : s0.srv.secTypes = [])
    (hops : ∀ a e f, .enableAuth a e f ∈ ops → a = true ∧ e = true)
    (e : sysRun table ops s0 = .ok s) : ∀ p ∈ s.peers,
      After Upgraded Private p.log ∧
      (∀ k b, .send .plain k b ∈ p.log → k.handshake = true ∨ k = .cutText) ∧
      (p.cl.st = .ready → p.cl.chan ≠ .plain) := by
  have no : ∀ t, ¬ Offers s0.srv.secTypes t := by rw [hs]; rintro t ⟨x, hx, -⟩; cases hx
  have hi := shut_lifts.sysRun (table := table) ops (fun o ho a e f h => hops a e f (h ▸ ho))
    ⟨⟨ha, he, no 1, no 30⟩, by rw [h0]; simp⟩ e
  intro p hp
  obtain ⟨-, h1, h2, h3, h4, h5⟩ := hi.2 p hp
  exact ⟨h5, h4, fun hr => h2 (by rw [hr]; rfl)⟩

/-- a client that gets through -/
example : (demoRun ([.enableAuth true true true, .tlsCreds, .connect] ++ vencrypt 0)).map
    (fun s => s.peers.map fun p => (p.cl.st, p.cl.chan, p.log.filterMap fun e => match e with
      | .send ch k _ => some (decide (ch = .tls), decide (k = .secOk ∨ k = .serverInit))
      | _ => none)) = some [(.ready, .tls, [(false, false), (false, false), (false, false), (false, false),
        (false, false), (false, false), (true, true), (true, true)])] := by decide +kernel

/-- C102 is false: a server that is told to require encryption, but not authentication, lets its clients have a
session in the clear -/
theorem c102_encryption_violated : ∃ s p, sysRun [0, 1, 2]
      [.enableAuth false true true, .tlsCreds, .connect, says 0 hello, says 0 [1], says 0 [1],
        says 0 [4, 1, 0, 0, 0, 0, 0, 65]] demo = .ok s ∧ s.peers[0]? = some p ∧
      s.srv.requireEnc = true ∧ p.cl.st = .ready ∧ p.cl.chan = .plain ∧ .key 65 true ∈ p.log ∧
      ∃ b, .send .plain .serverInit b ∈ p.log := by
  obtain ⟨s, p, h1, h2, h3⟩ := demo_witness
    [.enableAuth false true true, .tlsCreds, .connect, says 0 hello, says 0 [1], says 0 [1],
        says 0 [4, 1, 0, 0, 0, 0, 0, 65]] 0
    (fun srv p => srv.requireEnc && p.cl.st == .ready && p.cl.chan == .plain && p.log.contains (.key 65 true) &&
      p.log.any fun e => match e with | .send .plain .serverInit _ => true | _ => false) (by decide +kernel)
  simp only [Bool.and_eq_true, beq_iff_eq, List.contains_iff_mem, List.any_eq_true] at h3
  obtain ⟨⟨⟨⟨a, b⟩, c⟩, d⟩, e, he, h⟩ := h3
  refine ⟨s, p, h1, h2, a, b, c, d, ?_⟩
  split at h
  · exact ⟨_, he⟩
  · cases h

/-- C102 is false for clipboard texts: what the application has on its clipboard goes out in the clear to a
connection that has said nothing yet, though encryption is required -/
theorem c102_clipboard_violated (text : Bytes) (zip) (fb : Fb) (name : Bytes) : ∃ s p, sysRun table
      [.enableAuth true true true, .tlsCreds, .connect, .sendCutText zip text]
      (fresh name (some fb)) = .ok s ∧ s.peers = [p] ∧ s.srv.requireEnc = true ∧
      .send .plain .cutText ([3, 0, 0, 0] ++ be32 text.length ++ text) ∈ p.log := by
  refine ⟨_, _, rfl, rfl, rfl, ?_⟩
  show _ ∈ [Eff.send .plain .version versionMsg, .offered text, _]
  exact List.mem_cons_of_mem _ (List.mem_cons_of_mem _ (List.mem_singleton.2 rfl))

end Verif.System
