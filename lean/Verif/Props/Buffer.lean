import Verif.Lemmas.Buffer
import Verif.Lemmas.Access
import Verif.Spec.Server

/-!
# The receive buffer (C08) and the switch to an encrypted stream (C05)
-/

namespace Verif.System

open Verif.Server

variable {table : List Nat}

/-- C08, the part that holds for every message: in every reachable state the read cursor is within
the received bytes and these are within the buffer; and no message other than a fence makes the
server consume more bytes than it has received.

Missing: fences, see `c08_buffer_violated`. -/
theorem c08_buffer_partial {s0 s : Sys} {ops : List SysOp} (h0 : s0.peers = [])
    (hr : sysRun table ops s0 = .ok s) {p : Peer} (hp : p ∈ s.peers) :
    (p.cl.idx ≤ p.cl.buf.length ∧ p.cl.buf.length ≤ 4096) ∧
    ∀ env a s' n, ¬ (p.cl.st = .ready ∧ a.head? = some 248) →
      tryRead env table reenterInHandler (p.at s.srv) a = .ok (s', n) → n ≤ a.length := by
  have h := bufOk_stays.all (fun srv => ⟨Nat.zero_le _, Nat.zero_le _, Nat.zero_le _,
    fun _ => rfl⟩) h0 hr hp
  exact ⟨⟨h.idx, h.len⟩, fun env a s' n hf e => tryRead_len hf e⟩

/-- the hypothesis on the message is met by every ordinary message; here two key events, the second
one incomplete -/
example : (demoRun [.connect, says 0 (hello ++ [1, 1]),
    says 0 [4, 1, 0, 0, 0, 0, 0, 65, 4, 0, 0]]).map
    (fun s => s.peers.map fun p => (p.cl.st, p.cl.buf, p.log.contains (.key 65 true))) =
      some [(.ready, [4, 0, 0], true)] := by decide +kernel

/-- C08 is false: the first eight bytes of a nine byte fence message are enough for the server to
consume nine (server.c 1840 takes the size of a pointer for the size of the header) -/
theorem c08_buffer_violated : sysRun [0, 1, 2] [.connect, says 0 (hello ++ [1, 1]),
    says 0 [248, 0, 0, 0, 128, 0, 0, 0]] demo = .ub "buffer_index beyond buffer_len" := by
  decide +kernel

/-! ## C05 -/

/-- since `l` nothing that came in plain text was consumed, and nothing like that is waiting -/
def Sealed (l : List Eff) (c : Client) (log : List Eff) : Prop :=
  c.chan ≠ .plain ∧ c.plain = 0 ∧
    ∃ es, log = l ++ es ∧ ∀ st ch b pl, .msg st ch b pl ∈ es → pl = 0

theorem sealed_stays (l) : Stays table (Sealed l) := by
  constructor
  · rintro s s' hm - ⟨h1, h2, es, h3, h4⟩
    refine ⟨fun h => h1 (micro_chan hm h), ?_, ?_⟩
    · cases micro_bufMove hm with
      | same _ _ h => rw [h, h2]
      | consume n _ _ _ h => rw [h, h2]; simp
      | recv d _ _ _ _ _ h => rw [h, if_neg h1, h2]
      | compact _ _ h => rw [h, h2]
    · have hlow : (∃ fs, s'.log = s.log ++ fs ∧ ∀ st ch b pl, .msg st ch b pl ∈ fs → pl = 0) →
          ∃ es, s'.log = l ++ es ∧ ∀ st ch b pl, .msg st ch b pl ∈ es → pl = 0 := by
        rintro ⟨fs, g1, g2⟩
        refine ⟨es ++ fs, by rw [g1, h3, List.append_assoc], fun st ch b pl h => ?_⟩
        rcases List.mem_append.1 h with h | h
        · exact h4 _ _ _ _ h
        · exact g2 _ _ _ _ h
      rcases micro_keep hm with h | h
      · obtain ⟨fs, g1, g2⟩ := h.frame.log
        exact hlow ⟨fs, g1, fun st ch b pl h => by cases g2 _ h⟩
      · obtain ⟨fs, g1, g2⟩ := h.log
        refine hlow ⟨fs, g1, fun st ch b pl h => ?_⟩
        rcases g2 _ h with ⟨-, h⟩ | h | ⟨_, _, _, -, h⟩
        · cases h
        · cases h
        · injection h with _ _ _ h
          rw [h, h2]; simp
  · rintro s text hb ⟨h1, h2, es, h3, h4⟩
    obtain ⟨fs, g1, g2⟩ := cutTextTo_log text s hb
    refine ⟨h1, h2, es ++ fs, by rw [g1, h3, List.append_assoc], fun st ch b pl h => ?_⟩
    rcases List.mem_append.1 h with h | h
    · exact h4 _ _ _ _ h
    · rcases g2 _ h with h | ⟨_, h⟩ | ⟨_, _, h⟩ <;> cases h

/-- C05, the part that holds: once the connection is encrypted and no unread byte is left in the
buffer, nothing the client sends in plain text is interpreted any more, whatever happens.

Missing: bytes that arrive behind the upgrade request in the same read, see
`c05_plaintext_violated`. -/
theorem c05_plaintext_partial {s0 s s' : Sys} {ops ops' : List SysOp} {i : Nat} {p p' : Peer}
    (h0 : s0.peers = []) (hr : sysRun table ops s0 = .ok s) (hp : s.peers[i]? = some p)
    (hc : p.cl.chan ≠ .plain) (hb : p.cl.buf = []) (hr' : sysRun table ops' s = .ok s')
    (hp' : s'.peers[i]? = some p') :
    ∃ es, p'.log = p.log ++ es ∧ ∀ st ch b pl, .msg st ch b pl ∈ es → pl = 0 := by
  have h := bufOk_stays.all (fun srv => ⟨Nat.zero_le _, Nat.zero_le _, Nat.zero_le _,
    fun _ => rfl⟩) h0 hr (List.mem_of_getElem? hp)
  obtain ⟨q, h1, -, -, h2⟩ := (sealed_stays p.log).sysRun ops' (based_run (based_nil h0) hr) hp
    ⟨hc, by have := h.plain; rw [hb] at this; simpa using this, [], by simp, by simp⟩ hr'
  rw [hp'] at h1
  cases h1
  exact h2

/-- a client that waits for the TLS handshake before it goes on -/
example : (demoRun ([.tlsCreds, .enableAuth true true true, .connect] ++ vencrypt 0)).map
    (fun s => s.peers.map fun p => (p.cl.st, p.cl.chan, p.cl.buf, p.log.filter fun e => match e with
      | .msg .. => true
      | _ => false)) = some [(.ready, .tls, [],
        [.msg .version .plain hello 12, .msg .security .plain [19] 1, .msg .veVersion .plain [0, 2] 2,
         .msg .veSubtype .plain [0, 0, 1, 6] 4,
         .msg .vePlain .tls [0, 0, 0, 1, 0, 0, 0, 1, 117, 112] 0, .msg .init .tls [1] 0])] := by
  decide +kernel

/-- C05 is false: user name, password, ClientInit and a key event that arrive in plain text behind
the upgrade request are taken for the contents of the encrypted session.  Someone on the network can
put them there. -/
theorem c05_plaintext_violated : ∃ s p, sysRun [0, 1, 2]
    [.tlsCreds, .enableAuth true true true, .connect, says 0 hello, says 0 [19], says 0 [0, 2],
     says 0 ([0, 0, 1, 6] ++ [0, 0, 0, 1, 0, 0, 0, 1, 117, 112] ++ [1] ++
       [4, 1, 0, 0, 0, 0, 0, 65])] demo = .ok s ∧ s.peers[0]? = some p ∧
    (p.cl.chan = .tls ∧ .auth [117] [112] true ∈ p.log ∧ .key 65 true ∈ p.log ∧
      .msg .vePlain .tls [0, 0, 0, 1, 0, 0, 0, 1, 117, 112] 10 ∈ p.log ∧
      .msg .ready .tls [4, 1, 0, 0, 0, 0, 0, 65] 8 ∈ p.log) := by
  obtain ⟨s, p, h1, h2, h3⟩ := demo_witness
    [.tlsCreds, .enableAuth true true true, .connect, says 0 hello, says 0 [19], says 0 [0, 2],
     says 0 ([0, 0, 1, 6] ++ [0, 0, 0, 1, 0, 0, 0, 1, 117, 112] ++ [1] ++
       [4, 1, 0, 0, 0, 0, 0, 65])] 0
    (fun _ p => decide (p.cl.chan = .tls ∧ .auth [117] [112] true ∈ p.log ∧ .key 65 true ∈ p.log ∧
      .msg .vePlain .tls [0, 0, 0, 1, 0, 0, 0, 1, 117, 112] 10 ∈ p.log ∧
      .msg .ready .tls [4, 1, 0, 0, 0, 0, 0, 65] 8 ∈ p.log)) (by decide +kernel)
  exact ⟨s, p, h1, h2, by simpa using h3⟩

end Verif.System
