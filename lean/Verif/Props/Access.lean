import Verif.Lemmas.Access

/-! # Who gets a session: C01, C02, C03, C04, C62

The theorems are about runs of the whole server.  They cover every run without undefined behaviour
and, since the prefixes of a run are runs, everything up to the event in which a run goes wrong. -/

namespace Verif.System

open Verif.Server

variable {table : List Nat}

/-! ## C01 -/

/-- the policy that makes authentication mandatory -/
def AuthOnly (srv : Srv) : Prop := srv.requireAuth = true ∧ ¬ Offers srv.secTypes 1

def Gate (_ : Srv) (c : Client) (l : List Eff) : Prop :=
  After Approved Session l ∧ (c.st = .init ∨ c.st = .ready → ∃ g ∈ l, Approved g)

theorem authOnly_init {srv srv'} (e : initSecTypes srv = .ok srv') (h : AuthOnly srv) :
    AuthOnly srv' := by
  rcases initSecTypes_cases e with ⟨-, rfl⟩ | ⟨-, h2, -⟩ | ⟨-, h2, -, rfl⟩
  · exact h
  · rw [h.1] at h2; cases h2
  · refine ⟨h2, ?_⟩
    rintro ⟨x, hx, hm⟩
    cases srv.hasTls <;> cases srv.requireEnc <;> simp at hx <;> omega

theorem gate_lifts : Lifts table (fun o => ∀ a e f, o = .enableAuth a e f → a = true)
    AuthOnly Gate where
  start := by
    intro srv _
    refine ⟨?_, by rintro (h | h) <;> cases h⟩
    show After _ _ [.send .plain .version versionMsg]
    refine After.quiet (.nil _ _) (es := [_]) ?_
    intro e he hs
    simp at he; subst he
    cases hs with
    | callback h => cases h
    | send _ _ _ h => cases h
  self := by
    intro s s' hm hb hS hI
    rcases micro_keep hm with ⟨hn, hF, hT, hnew, -⟩ | hK
    · have hS' : AuthOnly s'.srv := by
        rcases hT.srv with h | ⟨-, h⟩
        · rw [h]; exact hS
        · exact authOnly_init h hS
      refine ⟨hS', ?_⟩
      obtain ⟨es, hl, hes⟩ := hF.log
      by_cases hi : s.cl.st = .init
      · obtain ⟨g, hg, hA⟩ := hI.2 (.inl hi)
        rw [hl]
        exact ⟨hI.1.loud ⟨g, hg, hA⟩, fun _ => ⟨g, by simp [hg], hA⟩⟩
      · rw [hl]
        refine ⟨hI.1.quiet fun e he => (hes e he).quiet hi, fun h => ?_⟩
        have hnr : s'.cl.st ≠ .ready := fun h => hi (hnew h).1
        have h : s'.cl.st = .init := h.resolve_right hnr
        obtain ⟨fs, hl', ha⟩ := hT.auth
        have hfs : fs = es := by rw [hl] at hl'; exact (List.append_cancel_left hl').symm
        subst hfs
        rcases ha with ⟨-, -, ha⟩ | ⟨u, p, ha, -⟩
        · exfalso
          have hx := hT.next
          rw [h] at hx
          generalize s.cl.st = st at hx hi ha
          cases hx with
          | same => exact hi rfl
          | none h => exact hS'.2 h
          | auth _ h2 => exact ha ⟨h2, h⟩
        · exact ⟨.auth u p true, by
            rw [List.mem_append]; exact .inr (mem_of_trueAuths (by rw [ha]; simp)), .mk u p⟩
    · obtain ⟨fb, cs, nd, hsrv⟩ := hK.srv
      refine ⟨by rw [hsrv]; exact hS, ?_⟩
      obtain ⟨es, hl, hes⟩ := hK.log
      rw [hl, Gate, hK.st]
      refine ⟨?_, fun h => ?_⟩
      · by_cases hr : s.cl.st = .ready
        · exact hI.1.loud (hI.2 (.inr hr))
        · exact hI.1.quiet fun e he => (hes e he).quiet hr
      · obtain ⟨g, hg, hA⟩ := hI.2 h
        exact ⟨g, by simp [hg], hA⟩
  other := fun _ _ _ _ _ _ _ h => h
  api := by
    intro o f srv ho ha hS
    refine ⟨?_, fun _ _ h => h⟩
    cases ha with
    | enableAuth a e f => exact ⟨ho _ _ _ rfl, hS.2⟩
    | _ => exact hS
  cut := by
    intro s _ text _ hb _ hI
    obtain ⟨es, hl, hes⟩ := cutTextTo_log text s hb
    rw [hl]
    refine ⟨?_, fun h => ?_⟩
    · by_cases hr : s.cl.st = .ready
      · exact hI.1.loud (hI.2 (.inr hr))
      · refine hI.1.quiet fun e he hs => ?_
        rcases hes e he with rfl | ⟨b, rfl⟩ | ⟨h, -⟩
        · cases hs with
          | callback h => cases h
        · cases hs with
          | callback h => cases h
          | send _ _ _ _ h => exact h rfl
        · exact hr h
    · obtain ⟨g, hg, hA⟩ := hI.2 h
      exact ⟨g, by simp [hg], hA⟩

/-- C01, for a server whose authentication was enabled before the first client said hello (no
security types cached yet) and is not switched off: nothing of a session reaches a client, and no
callback is made for it, before the application approved of its credentials.

Missing: with types cached from an earlier client the claim is false, see
`c01_auth_gate_violated`. -/
theorem c01_auth_gate_partial {s0 s : Sys} {ops : List SysOp} (h0 : s0.peers = [])
    (ha : s0.srv.requireAuth = true) (hs : s0.srv.secTypes = [])
    (hops : ∀ a e f, .enableAuth a e f ∈ ops → a = true)
    (e : sysRun table ops s0 = .ok s) :
    ∀ p ∈ s.peers, After Approved Session p.log ∧
      (p.cl.st = .ready → ∃ u pw, .auth u pw true ∈ p.log) := by
  have hi := gate_lifts.sysRun (table := table) ops (fun o ho a e f h => hops a e f (h ▸ ho))
    ⟨⟨ha, by rintro ⟨x, hx, -⟩; rw [hs] at hx; cases hx⟩, by rw [h0]; simp⟩ e
  intro p hp
  obtain ⟨-, h1, h2⟩ := hi.2 p hp
  refine ⟨h1, fun hr => ?_⟩
  obtain ⟨g, hg, hA⟩ := h2 (.inr hr)
  cases hA with
  | mk u pw => exact ⟨u, pw, hg⟩

/-- a client that gets through, and one with a wrong password that does not -/
example : (demoRun ([.enableAuth true true true, .tlsCreds, .connect, .connect] ++ vencrypt 0 ++
    [says 1 hello, says 1 [19], says 1 [0, 2], says 1 [0, 0, 1, 6],
      says 1 [0, 0, 0, 1, 0, 0, 0, 1, 117, 113]])).map (fun s => s.peers.map fun p =>
        (p.cl.st, p.log.any fun e => e == .auth [117] [112] true)) =
    some [(.ready, true), (.error, false)] := by decide +kernel

/-- C01 fails when a client has exchanged versions before authentication was enabled: the list of
security types is computed once and `nvnc_enable_auth` does not reset it.  A client that connects
after authentication was enabled (client 1) gets a session without any credentials. -/
theorem c01_auth_gate_violated : ∃ s p, sysRun [0, 1, 2]
      ([.connect, says 0 hello, .enableAuth true true true] ++
        [.connect, says 1 hello, says 1 [1], says 1 [1], says 1 [4, 1, 0, 0, 0, 0, 0, 65]]) demo =
      .ok s ∧ s.peers[1]? = some p ∧
    p.cl.st = .ready ∧ .newClient ∈ p.log ∧ .key 65 true ∈ p.log ∧
    ∀ u pw ok, .auth u pw ok ∉ p.log := by
  obtain ⟨s, p, h1, h2, h3⟩ := demo_witness
    ([.connect, says 0 hello, .enableAuth true true true] ++
        [.connect, says 1 hello, says 1 [1], says 1 [1], says 1 [4, 1, 0, 0, 0, 0, 0, 65]]) 1
    (fun _ p => p.cl.st == .ready && p.log.contains .newClient && p.log.contains (.key 65 true) &&
      p.log.all fun e => !e.isAuth) (by decide +kernel)
  simp only [Bool.and_eq_true, beq_iff_eq, List.contains_iff_mem, List.all_eq_true] at h3
  obtain ⟨⟨⟨a, b⟩, c⟩, d⟩ := h3
  exact ⟨s, p, h1, h2, a, b, c, fun u pw ok h => by have := d _ h; simp [Eff.isAuth] at this⟩

/-! ## C02 -/

def Named (_ : Srv) (c : Client) (l : List Eff) : Prop :=
  (trueAuths l = [] ∧ c.username = []) ∨
    (∃ u p, trueAuths l = [(u, p)] ∧ c.username = u ∧
      (c.st = .init ∨ c.st = .ready ∨ c.st = .error))

theorem named_lifts : Lifts table (fun _ => True) (fun _ => True) Named where
  start := fun _ _ => .inl ⟨rfl, rfl⟩
  self := by
    intro s s' hm _ _ hI
    refine ⟨trivial, ?_⟩
    rcases micro_keep hm with ⟨hn, -, hT, -, -⟩ | hK
    · obtain ⟨es, hl, h⟩ := hT.auth
      have hx := hT.next
      rcases hI with ⟨h1, h2⟩ | ⟨u, p, h1, h2, h3⟩
      · rcases h with ⟨ha, hu, -⟩ | ⟨u, p, ha, hu, -, hi⟩
        · exact .inl ⟨by rw [hl]; simp [h1, ha], hu.trans h2⟩
        · exact .inr ⟨u, p, by rw [hl]; simp [h1, ha], hu, .inl hi⟩
      · rcases h with ⟨ha, hu, -⟩ | ⟨u', p', -, -, hA, -⟩
        · refine .inr ⟨u, p, by rw [hl]; simp [h1, ha], hu.trans h2, ?_⟩
          generalize s.cl.st = st at hx h3 hn
          generalize s'.cl.st = st' at hx ⊢
          rcases h3 with h3 | h3 | h3 <;> subst h3
          · cases hx with
            | same => exact .inl rfl
            | fail => exact .inr (.inr rfl)
            | auth => exact .inl rfl
            | init => exact .inr (.inl rfl)
          · exact absurd rfl hn
          · cases hx with
            | same => exact .inr (.inr rfl)
            | fail => exact .inr (.inr rfl)
            | auth => exact .inl rfl
        · exfalso
          rcases h3 with h3 | h3 | h3 <;> rw [h3] at hA <;> simp [AuthSt] at hA
    · obtain ⟨es, hl, hes⟩ := hK.log
      have ha : trueAuths es = [] := trueAuths_nil fun e he => (hes e he).noAuth
      rcases hI with ⟨h1, h2⟩ | ⟨u, p, h1, h2, h3⟩
      · exact .inl ⟨by rw [hl]; simp [h1, ha], hK.username.trans h2⟩
      · exact .inr ⟨u, p, by rw [hl]; simp [h1, ha], hK.username.trans h2, by rw [hK.st]; exact h3⟩
  other := fun _ _ _ _ _ _ _ h => h
  api := fun _ _ _ _ _ _ => ⟨trivial, fun _ _ h => h⟩
  cut := by
    intro s _ text _ hb _ hI
    obtain ⟨es, hl, hes⟩ := cutTextTo_log text s hb
    have ha : trueAuths es = [] := trueAuths_nil fun e he => by
      rcases hes e he with rfl | ⟨b, rfl⟩ | ⟨-, b, rfl⟩ <;> rfl
    rw [hl]
    rcases hI with ⟨h1, h2⟩ | ⟨u, p, h1, h2, h3⟩
    · exact .inl ⟨by simp [h1, ha], h2⟩
    · exact .inr ⟨u, p, by simp [h1, ha], h2, h3⟩

/-- C02: at most one set of credentials per connection is ever approved; the user name the
application can ask for is the one in them, and there is none before.  (An approved empty name is
reported like no name.) -/
theorem c02_username {s0 s : Sys} {ops : List SysOp} (h0 : s0.peers = [])
    (e : sysRun table ops s0 = .ok s) : ∀ p ∈ s.peers,
      (approvedNames p.log = [] ∧ authUsername p.cl = none) ∨
      (∃ u, approvedNames p.log = [u] ∧ authUsername p.cl = if u = [] then none else some u) := by
  have hi := named_lifts.sysRun (table := table) ops (fun _ _ => trivial)
    ⟨trivial, by rw [h0]; simp⟩ e
  intro p hp
  rcases (hi.2 p hp).2 with ⟨h1, h2⟩ | ⟨u, pw, h1, h2, -⟩
  · exact .inl ⟨by rw [approvedNames_eq, h1]; rfl, by simp [authUsername, h2]⟩
  · exact .inr ⟨u, by rw [approvedNames_eq, h1]; rfl, by simp [authUsername, h2]⟩

example : (demoRun ([.enableAuth true true true, .tlsCreds, .connect, .connect] ++ vencrypt 0)).map
    (fun s => s.peers.map fun p => (approvedNames p.log, authUsername p.cl)) =
    some [([[117]], some [117]), ([], none)] := by decide +kernel

/-! ## C03 -/

/-- the security types a configuration stands for -/
def policy (auth enc tls : Bool) : List Nat :=
  if auth then (if tls then [19] else []) ++ [129, 5] ++ (if enc then [] else [30]) else [1]

def Configured (auth enc tls : Bool) (srv : Srv) : Prop :=
  srv.requireAuth = auth ∧ srv.requireEnc = enc ∧ srv.hasTls = tls ∧
    (srv.secTypes = [] ∨ srv.secTypes = policy auth enc tls)

def Phases (secs : List Nat) (st : CState) : Prop :=
  (st = .veVersion ∨ st = .veSubtype ∨ st = .vePlain → Offers secs 19) ∧
  (st = .appleDh → Offers secs 30) ∧
  (st = .rsaPubKey ∨ st = .rsaChallenge ∨ st = .rsaHash ∨ st = .rsaCreds →
    Offers secs 5 ∨ Offers secs 129)

def Offered (auth enc tls : Bool) (srv : Srv) (c : Client) (l : List Eff) : Prop :=
  (∀ ch b, .send ch .secTypes b ∈ l →
    b = UInt8.ofNat (policy auth enc tls).length :: (policy auth enc tls).map UInt8.ofNat) ∧
  Phases srv.secTypes c.st

theorem Phases.next {secs st st'} (h : Phases secs st) (hx : Next secs st st') :
    Phases secs st' := by
  cases hx with
  | same => exact h
  | ve ho => exact ⟨fun _ => ho, by simp, by simp⟩
  | apple ho => exact ⟨by simp, fun _ => ho, by simp⟩
  | rsa ho => exact ⟨by simp, by simp, fun _ => ho⟩
  | veVersion => exact ⟨fun _ => h.1 (by simp), by simp, by simp⟩
  | veSubtype => exact ⟨fun _ => h.1 (by simp), by simp, by simp⟩
  | rsaPubKey => exact ⟨by simp, by simp, fun _ => h.2.2 (by simp)⟩
  | rsaChallenge => exact ⟨by simp, by simp, fun _ => h.2.2 (by simp)⟩
  | rsaHash => exact ⟨by simp, by simp, fun _ => h.2.2 (by simp)⟩
  | _ => exact ⟨by simp, by simp, by simp⟩

theorem offered_lifts (auth enc tls) : Lifts table
    (fun o => o ≠ .tlsCreds ∧ ∀ a e f, o ≠ .enableAuth a e f)
    (Configured auth enc tls) (Offered auth enc tls) := by
  have init : ∀ {srv srv'}, initSecTypes srv = .ok srv' → Configured auth enc tls srv →
      Configured auth enc tls srv' ∧ srv'.secTypes = policy auth enc tls ∧
      ∀ st, Phases srv.secTypes st → Phases srv'.secTypes st := by
    rintro srv srv' e ⟨h1, h2, h3, h4⟩
    have hmono : srv.secTypes = [] → ∀ l st, Phases srv.secTypes st → Phases l st := by
      intro hnil l st hp
      rw [hnil] at hp
      have no : ∀ t, ¬ Offers [] t := by rintro t ⟨x, hx, -⟩; cases hx
      refine ⟨fun h => absurd (hp.1 h) (no _), fun h => absurd (hp.2.1 h) (no _), fun h => ?_⟩
      rcases hp.2.2 h with h | h <;> exact absurd h (no _)
    rcases initSecTypes_cases e with ⟨h, rfl⟩ | ⟨h, h5, rfl⟩ | ⟨h, h5, -, rfl⟩
    · exact ⟨⟨h1, h2, h3, h4⟩, h4.resolve_left h, fun _ h => h⟩
    · have : [1] = policy auth enc tls := by rw [← h1, h5]; rfl
      exact ⟨⟨h1, h2, h3, .inr this⟩, this, hmono h _⟩
    · have : (if srv.hasTls then [19] else []) ++ [129, 5] ++ (if srv.requireEnc then [] else [30]) =
          policy auth enc tls := by
        rw [← h1, ← h2, ← h3, h5]; rfl
      exact ⟨⟨h1, h2, h3, .inr this⟩, this, hmono h _⟩
  have srvStep : ∀ {s s' : St}, Micro true table s s' → Configured auth enc tls s.srv →
      Configured auth enc tls s'.srv ∧
      ∀ st, Phases s.srv.secTypes st → Phases s'.srv.secTypes st := by
    intro s s' hm hS
    rcases micro_keep hm with hH | hK
    · rcases hH.move.srv with h | ⟨-, h⟩
      · rw [h]; exact ⟨hS, fun _ h => h⟩
      · exact ⟨(init h hS).1, (init h hS).2.2⟩
    · obtain ⟨fb, cs, nd, h⟩ := hK.srv
      rw [h]; exact ⟨hS, fun _ h => h⟩
  constructor
  · intro srv _
    refine ⟨?_, by simp [start, newClient, Phases]⟩
    intro ch b h
    simp [start] at h
  · intro s s' hm _ hS hI
    refine ⟨(srvStep hm hS).1, ?_⟩
    rcases micro_keep hm with hH | hK
    · refine ⟨fun ch b h => ?_, ((srvStep hm hS).2 _ hI.2).next hH.move.next⟩
      rcases hH.secTypes ch b h with h' | ⟨h', h2⟩
      · exact hI.1 ch b h'
      · rw [h', (init h2 hS).2.1]
    · obtain ⟨fb, cs, nd, hsrv⟩ := hK.srv
      obtain ⟨es, hl, hes⟩ := hK.log
      refine ⟨fun ch b h => ?_, by rw [hsrv, hK.st]; exact hI.2⟩
      rw [hl] at h
      rcases List.mem_append.1 h with h | h
      · exact hI.1 ch b h
      · rcases hes _ h with ⟨-, h⟩ | h | ⟨_, _, _, -, h⟩
        · cases h with | send _ _ _ hk => cases hk
        · cases h
        · cases h
  · intro s s' c l hm _ hS hI
    exact ⟨hI.1, (srvStep hm hS).2 _ hI.2⟩
  · intro o f srv ho ha hS
    cases ha with
    | enableAuth a e f => exact absurd rfl (ho.2 a e f)
    | tlsCreds => exact absurd rfl ho.1
    | _ => exact ⟨hS, fun _ _ h => h⟩
  · intro s _ text _ hb _ hI
    obtain ⟨es, hl, hes⟩ := cutTextTo_log text s hb
    refine ⟨fun ch b h => ?_, hI.2⟩
    rw [hl] at h
    rcases List.mem_append.1 h with h | h
    · exact hI.1 ch b h
    · rcases hes _ h with h | ⟨_, h⟩ | ⟨-, _, h⟩ <;> cases h

/-- C03, for a server whose configuration is complete before the first client says hello and is
left alone afterwards: every list of security types sent is `length, type, type, …`; it contains
"none" exactly when authentication is not required, the unencrypted Apple-DH only when encryption
is not required, VeNCrypt only when there are TLS credentials; and clients are only ever in the
phases of a type that was offered.

Missing: configuration that changes while the server is running, see `c03_offer_violated`. -/
theorem c03_offer_partial {s0 s : Sys} {ops : List SysOp} (h0 : s0.peers = [])
    (hs : s0.srv.secTypes = []) (hops : ∀ o ∈ ops, o ≠ .tlsCreds ∧ ∀ a e f, o ≠ .enableAuth a e f)
    (e : sysRun table ops s0 = .ok s) : ∀ p ∈ s.peers,
      (∀ ch b, .send ch .secTypes b ∈ p.log → ∃ l : List UInt8, b = UInt8.ofNat l.length :: l ∧
        l ≠ [] ∧ (1 ∈ l ↔ s0.srv.requireAuth = false) ∧
        (30 ∈ l ↔ s0.srv.requireAuth = true ∧ s0.srv.requireEnc = false) ∧
        (19 ∈ l ↔ s0.srv.requireAuth = true ∧ s0.srv.hasTls = true)) ∧
      (p.cl.st = .veVersion ∨ p.cl.st = .veSubtype ∨ p.cl.st = .vePlain →
        s0.srv.requireAuth = true ∧ s0.srv.hasTls = true) ∧
      (p.cl.st = .appleDh → s0.srv.requireAuth = true ∧ s0.srv.requireEnc = false) ∧
      (p.cl.st = .rsaPubKey ∨ p.cl.st = .rsaChallenge ∨ p.cl.st = .rsaHash ∨ p.cl.st = .rsaCreds →
        s0.srv.requireAuth = true) := by
  have hi := (offered_lifts (table := table) s0.srv.requireAuth s0.srv.requireEnc
    s0.srv.hasTls).sysRun ops hops ⟨⟨rfl, rfl, rfl, .inl hs⟩, by rw [h0]; simp⟩ e
  obtain ⟨⟨-, -, -, hsec⟩, hi⟩ := hi
  intro p hp
  obtain ⟨-, h1, h2⟩ := hi p hp
  generalize s0.srv.requireAuth = a at *
  generalize s0.srv.requireEnc = en at *
  generalize s0.srv.hasTls = tl at *
  refine ⟨fun ch b h => ⟨(policy a en tl).map UInt8.ofNat, ?_, ?_, ?_, ?_, ?_⟩, ?_, ?_, ?_⟩
  · rw [h1 ch b h, List.length_map]
  · cases a <;> cases en <;> cases tl <;> decide
  · cases a <;> cases en <;> cases tl <;> decide
  · cases a <;> cases en <;> cases tl <;> decide
  · cases a <;> cases en <;> cases tl <;> decide
  all_goals
    intro hst
    have no : ∀ t, ¬ Offers [] t := by rintro t ⟨x, hx, -⟩; cases hx
  · have := h2.1 hst
    rcases hsec with hsec | hsec <;> rw [hsec] at this
    · exact absurd this (no _)
    · cases a <;> cases en <;> cases tl <;> simp [policy, Offers] at this ⊢
  · have := h2.2.1 hst
    rcases hsec with hsec | hsec <;> rw [hsec] at this
    · exact absurd this (no _)
    · cases a <;> cases en <;> cases tl <;> simp [policy, Offers] at this ⊢
  · have := h2.2.2 hst
    rcases hsec with hsec | hsec <;> rw [hsec] at this
    · rcases this with h | h <;> exact absurd h (no _)
    · cases a
      · simp [policy, Offers] at this
      · rfl

/-- a client asked to choose, one that chose a type it was not offered -/
example : (match sysRun [0] [.connect, .connect, says 0 hello, says 1 hello, says 1 [30]]
      { demo with srv := { demo.srv with requireAuth := true, requireEnc := true,
                                         hasAuthFn := true } } with
    | .ok s => s.peers.map fun p => (p.cl.st, p.log.contains (.send .plain .secTypes [2, 129, 5]))
    | _ => []) = [(.security, true), (.error, true)] := by decide +kernel

/-- C03 fails for a server configured after a client has said hello: client 1 connects when
authentication is required and is offered "none", and nothing else. -/
theorem c03_offer_violated : ∃ s p, sysRun [0, 1, 2]
      ([.connect, says 0 hello, .enableAuth true true true] ++ [.connect, says 1 hello]) demo =
      .ok s ∧ s.peers[1]? = some p ∧ s.srv.requireAuth = true ∧
      .send .plain .secTypes [1, 1] ∈ p.log := by
  obtain ⟨s, p, h1, h2, h3⟩ := demo_witness
    ([.connect, says 0 hello, .enableAuth true true true] ++ [.connect, says 1 hello]) 1
    (fun srv p => srv.requireAuth && p.log.contains (.send .plain .secTypes [1, 1]))
    (by decide +kernel)
  simp only [Bool.and_eq_true, List.contains_iff_mem] at h3
  exact ⟨s, p, h1, h2, h3.1, h3.2⟩

/-! ## C04 -/

def Announced (_ : Srv) (c : Client) (l : List Eff) : Prop :=
  After (· = .newClient) Callback l ∧ (c.st = .ready → .newClient ∈ l)

theorem announced_lifts : Lifts table (fun _ => True) (fun _ => True) Announced where
  start := by
    intro srv _
    refine ⟨?_, by intro h; cases h⟩
    show After _ _ [.send .plain .version versionMsg]
    refine After.quiet (.nil _ _) (es := [_]) ?_
    intro e he hs
    simp at he; subst he; cases hs
  self := by
    intro s s' hm _ _ hI
    refine ⟨trivial, ?_⟩
    rcases micro_keep hm with hH | hK
    · obtain ⟨es, hl, hes⟩ := hH.frame.log
      refine ⟨?_, fun h => (hH.new h).2⟩
      rw [hl]
      exact hI.1.quiet fun e he => (hes e he).noCallback
    · obtain ⟨es, hl, hes⟩ := hK.log
      refine ⟨?_, fun h => ?_⟩
      · rw [hl]
        by_cases hr : s.cl.st = .ready
        · exact hI.1.loud ⟨_, hI.2 hr, rfl⟩
        · exact hI.1.quiet fun e he hc => (hes e he).quiet hr hc.session
      · rw [hl, List.mem_append]
        exact .inl (hI.2 (hK.st ▸ h))
  other := fun _ _ _ _ _ _ _ h => h
  api := fun _ _ _ _ _ _ => ⟨trivial, fun _ _ h => h⟩
  cut := by
    intro s _ text _ hb _ hI
    obtain ⟨es, hl, hes⟩ := cutTextTo_log text s hb
    rw [hl]
    refine ⟨hI.1.quiet fun e he hc => ?_, fun h => by rw [List.mem_append]; exact .inl (hI.2 h)⟩
    rcases hes e he with rfl | ⟨_, rfl⟩ | ⟨-, _, rfl⟩ <;> cases hc

/-- C04: no callback is made for a client before the application was told about it, which happens
when the handshake including ClientInit is complete -/
theorem c04_no_early_callback {s0 s : Sys} {ops : List SysOp} (h0 : s0.peers = [])
    (e : sysRun table ops s0 = .ok s) :
    ∀ p ∈ s.peers, After (· = .newClient) Callback p.log := by
  have hi := announced_lifts.sysRun (table := table) ops (fun _ _ => trivial)
    ⟨trivial, by rw [h0]; simp⟩ e
  exact fun p hp => (hi.2 p hp).2.1

/-- a key press behind an incomplete handshake is no key press; behind a complete one it is -/
example : (demoRun [.connect, says 0 (hello ++ [4, 1, 0, 0, 0, 0, 0, 65]), .connect,
      says 1 (hello ++ [1, 1] ++ [4, 1, 0, 0, 0, 0, 0, 65])]).map
    (fun s => s.peers.map fun p => (p.log.contains .newClient, p.log.contains (.key 65 true))) =
    some [(false, false), (true, true)] := by decide +kernel

/-! ## C62 -/

/-- C62 fails: nvnc_send_cut_text writes the text to every connection, also to one that has not
even said hello to a server that requires authentication and encryption -/
theorem c62_clipboard_violated (text : Bytes) (zip) (fb : Fb) (name : Bytes) : ∃ s p, sysRun table
      [.enableAuth true true true, .tlsCreds, .connect, .sendCutText zip text]
      (fresh name (some fb)) = .ok s ∧ s.peers = [p] ∧ p.cl.st = .version ∧
      .send .plain .cutText ([3, 0, 0, 0] ++ be32 text.length ++ text) ∈ p.log ∧
      ∀ u pw ok, .auth u pw ok ∉ p.log := by
  refine ⟨_, _, rfl, rfl, rfl, ?_, ?_⟩
  · show _ ∈ [Eff.send .plain .version versionMsg, .offered text, _]
    exact List.mem_cons_of_mem _ (List.mem_cons_of_mem _ (List.mem_singleton.2 rfl))
  · intro u pw ok h
    have h : Eff.auth u pw ok ∈ [Eff.send .plain .version versionMsg, .offered text, .send .plain .cutText _] := h
    simp at h

/-- C62, the part that holds: nvnc_send_cut_text is harmless while every open connection is in its
session, and a client with an ordinary clipboard is then sent exactly the text.

Missing: clients in the handshake, see `c62_clipboard_violated`. -/
theorem c62_clipboard_partial {s s' : Sys} {zip text}
    (hr : ∀ p ∈ s.peers, p.cl.freed = true ∨ p.cl.closed = true ∨ p.cl.st = .ready)
    (e : sysStep table (.sendCutText zip text) s = .ok s') {i : Nat} {p p' : Peer}
    (hp : s.peers[i]? = some p)
    (hp' : s'.peers[i]? = some p') : (p'.log ≠ p.log → p.cl.st = .ready) ∧
      (p.cl.freed = false → p.cl.closed = false → hasEnc p.cl encExtClipboard = false →
        p'.log = p.log ++ [.offered text, .send p.cl.chan .cutText ([3, 0, 0, 0] ++ be32 text.length ++ text)]) := by
  unfold sysStep at e
  obtain ⟨⟨srv2, ps2⟩, he, e⟩ := Outcome.bind_eq_ok.1 e
  cases e
  obtain ⟨sv, t, h1, h2⟩ := (each_get _ _ _ _ _ he).2 i p p' hp hp'
  cases h1
  subst h2
  constructor
  · intro hne
    rcases hr p (List.mem_of_getElem? hp) with h | h | h
    · exact absurd (by unfold cutTextTo; rw [if_pos (show (p.at sv).cl.freed = true from h)]; rfl) hne
    · refine absurd ?_ hne
      have hc : ∀ k b, (send k b (p.at sv)).log = p.log := by
        intro k b; rw [send_log, if_pos (show (p.at sv).cl.closed = true from h)]; simp [Peer.at]
      show (cutTextTo text (p.at sv)).log = p.log
      unfold cutTextTo cutTextSend
      rw [if_pos (show (p.at sv).cl.closed = true from h)]
      repeat' split
      all_goals first | rfl | exact hc _ _
    · exact h
  · intro hf hc hx
    show (cutTextTo text (p.at sv)).log = _
    unfold cutTextTo cutTextSend
    rw [if_neg (show ¬ (p.at sv).cl.freed = true by simp [Peer.at, hf]),
      if_neg (show ¬ (p.at sv).cl.closed = true by simp [Peer.at, hc]),
      if_neg (show ¬ hasEnc (emit (.offered text) (p.at sv)).cl encExtClipboard = true by
        simp [Peer.at, hx]), send_log,
      if_neg (show ¬ (emit (.offered text) (p.at sv)).cl.closed = true by simp [Peer.at, hc])]
    simp [emit, Peer.at]

example : (demoRun [.connect, says 0 (hello ++ [1, 1]), .sendCutText (fun _ => none) [104, 105]]).map
    (fun s => s.peers.map fun p =>
      p.log.contains (.send .plain .cutText [3, 0, 0, 0, 0, 0, 0, 2, 104, 105])) = some [true] := by
  decide +kernel

end Verif.System
