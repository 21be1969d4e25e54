import Verif.Lemmas.Once
import Verif.Props.Segmentation

/-!
# A client object is destroyed once and never used afterwards (C60)
-/

namespace Verif.Server

variable {table : List Nat} {k : House}

theorem guest_pol {s : St} (h : k.Guest s) : Pol k s :=
  ⟨h.nonempty, h.fences, h.calm.blocked, h.damage, h.fb, h.size⟩

theorem guest_live {s : St} (h : k.Guest s) {ms : List Msg} (hst : NoStall s.cl.cont ms)
    (hms : ∀ m ∈ ms, m.Fits ∧ k.Msg table m) : Live k table s (ms.flatMap Msg.wire) ms :=
  ⟨h.calm.mid h.net, guest_pol h, h.calm.idx, h.calm.at ms, hst, hms⟩

/-- C60, for clients in session that keep to the protocol and send no fences: whatever messages are
on their way and however they are cut into reads, whatever frames are finished, written or dropped,
whatever is damaged, displayed and set in between, and whether and whenever the peer hangs up, a read
fails or the application closes the client: no event uses the client after its end.  Its end is
scheduled at most once, it is destroyed when it should be (`Phase`), and then nothing is left
scheduled.

Missing: the handshake, fences, and clients and applications that break the rules of `House`.  The
code violates the property there, see `c60_message_violated`, `c60_close_violated`,
`c60_handshake_violated`, `c60_queued_violated`, `c60_resize_violated`.  Nor when there is no memory for a
ZRLE or Tight encoder, see `c60_encoder_violated`. -/
theorem c60_lifetime_partial {evs : List (Ev × Env)} {s : St} {ms : List Msg} (hg : k.Guest s)
    (hst : NoStall s.cl.cont ms) (hms : ∀ m ∈ ms, m.Fits ∧ k.Msg table m) (hev : k.Evs .live evs)
    (hmem : ∀ p ∈ evs, Roomy p.2) :
    ∃ s' unread, feed table evs s (ms.flatMap Msg.wire) = .ok (s', unread) ∧
      (s'.cl.freed = true ↔ Phase.live.after evs = .dead) ∧
      (s'.cl.closed = true ↔ Phase.live.after evs ≠ .live) ∧
      s'.cl.nDefer = if Phase.live.after evs = .closing then 1 else 0 := by
  obtain ⟨t, u, h1, h2⟩ := live_feed evs s _ ms (guest_live hg hst hms) hev hmem
  refine ⟨t, u, h1, ?_⟩
  rcases h2 with ⟨h, _, hl⟩ | h
  · rw [h, hl.mid.alive, hl.mid.open_, hl.mid.defer]
    decide
  · generalize Phase.live.after evs = p at h
    cases p with
    | live => exact h.elim
    | closing => obtain ⟨h1, h2, h3, -⟩ := h; rw [h1, h2, h3]; decide
    | dead => obtain ⟨h1, h2, h3⟩ := h; rw [h1, h2, h3]; decide

/-- C07 for the same clients: nothing has to be assumed about the run -/
theorem c07_polite {x : Bool} {evs : List (Ev × Env)} {s : St} {ms : List Msg} (hg : k.Guest s)
    (hst : NoStall s.cl.cont ms) (hms : ∀ m ∈ ms, m.Fits ∧ k.Msg table m) (hev : k.Evs .live evs)
    (hmem : ∀ p ∈ evs, Roomy p.2)
    (hb : ∀ p ∈ evs, p.1.benign ∧ p.2.experimental = x) :
    ∃ s' unread done todo, feed table evs s (ms.flatMap Msg.wire) = .ok (s', unread) ∧
      ms = done ++ todo ∧ (unread = [] → todo = []) ∧
      callbacks s'.log = callbacks s.log ++ done.flatMap (Msg.calls table) ∧
      s'.cl.settings = done.foldl (Msg.apply x) s.cl.settings := by
  obtain ⟨t, u, h1, -⟩ := live_feed evs s _ ms (guest_live hg hst hms) hev hmem
  obtain ⟨done, todo, h2⟩ := c07_segmentation_partial hg.calm hg.net hb
    (fun m hm => house_plain (hms m hm).1 (hms m hm).2) hst h1
  exact ⟨t, u, done, todo, h1, h2⟩

/-! ### An example: a client that asks for updates while the size changes, and hangs up -/

def demoHouse : House := { w := 4, h := 3, size := none }

def demoGuest : St := demoClient.upd fun c => { c with encodings := [7, -223] }

def demoVisit : List Msg :=
  [.setEncodings 0 [7, 0, -223, -239], .fbRequest 0 ⟨0, 0, 4, 3⟩, .key 1 0 65, .contUpdates 1 ⟨0, 0, 9, 9⟩]

def demoVisitEvs : List (Ev × Env) :=
  [(.read 30, demoEnv), (.other (.encoded ⟨1, 4, 3, none, [1, 2]⟩), demoEnv), (.read 8, demoEnv),
   (.other .written, demoEnv),
   (.other (.damage [⟨1, 1, 1, 1⟩]), demoEnv), (.other (.readable .again), demoEnv), (.read 99, demoEnv),
   (.other (.display (some { demoFb with w := 6 })), demoEnv), (.other (.damage [⟨3, 2, 3, 1⟩]), demoEnv),
   (.other (.encoded ⟨1, 6, 3, none, [1, 2]⟩), demoEnv), (.other (.readable .closed), demoEnv),
   (.other .cursor, demoEnv), (.other .idle, demoEnv), (.other .idle, demoEnv)]

example : demoHouse.Guest demoGuest ∧ NoStall demoGuest.cl.cont demoVisit ∧
    (∀ m ∈ demoVisit, m.Fits ∧ demoHouse.Msg [0, 1] m) ∧ demoHouse.Evs .live demoVisitEvs ∧
    (∀ p ∈ demoVisitEvs, Roomy p.2) ∧ Phase.live.after demoVisitEvs = .dead ∧
    (match feed [0, 1] demoVisitEvs demoGuest (demoVisit.flatMap Msg.wire) with
      | .ok (s, u) => s.cl.freed && s.cl.nDefer == 0 && u.isEmpty && s.cl.knownW == 6 &&
          decide (callbacks s.log = [.fbReq false 0 0 4 3, .key 65 true])
      | _ => false) = true := by
  refine ⟨⟨⟨rfl, rfl, rfl, rfl, rfl, rfl, rfl, rfl, rfl, rfl⟩, by decide, rfl, rfl, fun _ h => (by cases h), ?_, ?_⟩,
    ?_, ?_, ?_, ?_, rfl, by decide +kernel⟩
  · intro fb h; cases h; decide
  · exact Or.inl (by decide)
  · exact ⟨by decide, trivial⟩
  · intro m hm
    simp only [demoVisit, List.mem_cons, List.not_mem_nil, or_false] at hm
    rcases hm with rfl | rfl | rfl | rfl
    · exact ⟨⟨by decide, by decide⟩, by decide, Or.inl (by decide)⟩
    · exact ⟨⟨by decide, by decide, by decide, by decide⟩, fun _ => Or.inr (Or.inr (by decide))⟩
    · exact ⟨show 65 < 4294967296 by decide, trivial⟩
    · exact ⟨⟨by decide, by decide, by decide, by decide⟩, trivial⟩
  · have hm : ∀ r : Rect, r.x < 4 ∧ r.y < 3 → demoHouse.Meets r := fun r h => Or.inr (Or.inr h)
    refine ⟨nofun, nofun, trivial, nofun, ⟨?_, nofun, ⟨trivial, nofun, ⟨(show 4 ≤ 6 ∧ 3 ≤ 3 by decide), nofun, ⟨?_, nofun,
      ⟨nofun, nofun, ⟨trivial, nofun, ⟨trivial, nofun, ⟨trivial, nofun, ⟨trivial, nofun, trivial⟩⟩⟩⟩⟩⟩⟩⟩⟩⟩
    · intro q hq; rw [List.mem_singleton.1 hq]; exact hm _ (by decide)
    · intro q hq; rw [List.mem_singleton.1 hq]; exact hm _ (by decide)

  · intro p hp
    simp only [demoVisitEvs, List.mem_cons, List.not_mem_nil, or_false] at hp
    rcases hp with rfl | rfl | rfl | rfl | rfl | rfl | rfl | rfl | rfl | rfl | rfl | rfl | rfl | rfl <;>
      exact ⟨fun _ _ => rfl⟩

/-! ## Where the code breaks the property -/

/-- the message types the server knows -/
def knownTypes : List UInt8 := [0, 2, 3, 4, 5, 6, 150, 160, 248, 251, 255]

/-- C60 violated: every client can make the server use its freed client object with a single byte.
(`on_client_message` closes the client and returns; `on_client_event` goes on with it,
server.c 1931-1936 and 1976-1994.) -/
theorem c60_message_violated {env : Env} {s : St} {b : UInt8} (hs : Calm s) (hb : b ∉ knownTypes) :
    step table (.readable (.data [b])) env [] s = .ub "client used after nvnc_client_close" := by
  unfold step event
  rw [if_neg (by show ¬ s.cl.freed = true; rw [hs.alive]; exact Bool.false_ne_true)]
  dsimp only
  rw [if_neg (by rw [hs.open_]; exact Bool.false_ne_true)]
  unfold onReadable
  dsimp only
  rw [hs.cut]
  dsimp only
  rw [if_neg (by rw [hs.idx]; decide), if_neg (by rw [hs.buf]; decide)]
  unfold loop
  rw [if_neg (by show ¬ s.cl.blocked = true; rw [hs.blocked]; exact Bool.false_ne_true)]
  dsimp only [St.upd]
  rw [tryRead_ready (by exact hs.ready), hs.buf, hs.idx]
  have h : ∀ c ∈ knownTypes, ¬ b = c := fun c hc e => hb (e ▸ hc)
  simp only [List.nil_append, List.drop_zero]
  have ht : List.take (msgBufferSize - ([] : Bytes).length) [b] = [b] := rfl
  rw [ht]
  unfold onMessage
  dsimp only
  rw [if_neg (h 0 (by decide)), if_neg (h 2 (by decide)), if_neg (h 3 (by decide)), if_neg (h 4 (by decide)),
    if_neg (h 5 (by decide)), if_neg (h 6 (by decide)), if_neg (h 150 (by decide)), if_neg (h 255 (by decide)),
    if_neg (h 251 (by decide)), if_neg (h 160 (by decide)), if_neg (h 248 (by decide))]
  rfl

example : Calm demoClient ∧ (1 : UInt8) ∉ knownTypes := ⟨demoClient_calm, by decide⟩

/-- C60 violated: when the application closes a client after the peer hung up, before the event loop
was idle, the client is destroyed twice.  (`nvnc_client_close` does not cancel the deferred close,
server.c 205-221.) -/
theorem c60_close_violated {e1 e2 e3 : Env} {s : St} {ms : List Msg} (hs : Calm s) (hn : s.net = []) :
    feed table [(.other (.readable .closed), e1), (.other .appClose, e2), (.other .idle, e3)] s
      (ms.flatMap Msg.wire) = .ub "client closed twice" := by
  have hnet : { s with net := [] } = s := by
    cases s; simp only at hn; subst hn; rfl
  have hm := hs.mid hn
  unfold feed step
  rw [hnet]
  have he : event table (.readable .closed) e1 s = .ok (remoteClosed s) := by
    unfold event
    rw [if_neg (by rw [hs.alive]; exact Bool.false_ne_true)]
    dsimp only
    rw [if_neg (by rw [hs.open_]; exact Bool.false_ne_true),
      onReadable_end hs.idx (hs.at ms) (fun d h => by cases h)]
  rw [he]
  obtain ⟨h1, h2, h3, h4⟩ := remote_over hm
  generalize remoteClosed s = u at h1 h2 h3 h4
  show feed table [(.other .appClose, e2), (.other .idle, e3)] u _ = _
  unfold feed step
  have he2 : event table .appClose e2 { u with net := [] } = .ok (freeClient { u with net := [] }) := by
    unfold event
    rw [if_neg (by exact (by rw [h2]; exact Bool.false_ne_true : ¬ u.cl.freed = true))]
  rw [he2]
  have h5 : (freeClient { u with net := [] }).cl.freed = true := rfl
  have h6 : (freeClient { u with net := [] }).cl.nDefer = 1 := by
    unfold freeClient streamClose
    dsimp only
    rw [if_pos (by exact h1)]
    exact h3
  generalize freeClient { u with net := [] } = v at h5 h6
  show feed table [(.other .idle, e3)] v _ = _
  unfold feed step event
  rw [if_pos (by exact h5)]
  dsimp only
  rw [if_neg (by rw [h6]; decide)]
  rfl

def isUb (w : String) : Outcome α → Bool
  | .ub v => v == w
  | _ => false

theorem isUb_eq {w : String} {o : Outcome α} (h : isUb w o = true) : o = .ub w := by
  cases o with
  | ub v => rw [show v = w from eq_of_beq h]
  | ok _ => cases h
  | abort _ => cases h

/-- C60 for every peer, also one that keeps to no rules: as long as every last message finds its peer
there, the application does not close a client whose stream is closed already, and none is closed while
its last message is in the send queue, no client is destroyed twice, and one whose stream is closed is
destroyed at the next turn of the event loop.  Missing: those three assumptions, each of which the code
needs (`c60_handshake_violated`, `c60_close_violated`, `c60_queued_violated`), and the uses of a client
closed inside its own handler, which are the runs that do not end `.ok` (`c60_message_violated`). -/
theorem c60_once_partial {srv : Srv} {evs : List (Op × Env × List Read)} {s : St}
    (hc : Careful table evs (start srv)) (e : run table evs (start srv) = .ok s) (env : Env)
    (net : List Read) :
    ∃ t, step table .idle env net s = .ok t ∧ t.cl.freed = s.cl.closed := by
  have h := run_once evs hc (start_base srv) (.inl ⟨rfl, rfl, nofun⟩) e
  unfold step event
  rcases h with h | h
  · rw [if_neg (by show ¬ s.cl.freed = true; rw [h.there]; exact Bool.false_ne_true)]
    dsimp only
    cases hc : s.cl.closed with
    | false => rw [if_pos (by rw [h.once, hc]; rfl)]; exact ⟨_, rfl, h.there⟩
    | true => rw [if_neg (by rw [h.once, hc]; decide)]; exact ⟨_, rfl, rfl⟩
  · rw [if_pos (by exact h.freed)]
    dsimp only
    rw [if_pos (by exact h.done)]
    exact ⟨_, rfl, by rw [h.closed]; exact h.freed⟩

/-- a check of `Careful` -/
def carefulB (table : List Nat) : List (Op × Env × List Read) → St → Bool
  | [], _ => true
  | (o, env, net) :: evs, s =>
    (match env.lastWrite with | .broken => false | _ => true) &&
    (match o with | .appClose => s.cl.freed || !s.cl.closed | _ => true) &&
    (!s.cl.closePending || match o with
      | .appClose => false
      | .readable .again => true
      | .readable (.data _) => decide (s.cl.buf.length < msgBufferSize)
      | .readable _ => false
      | _ => true) &&
    match step table o env net s with | .ok t => carefulB table evs t | _ => true

theorem carefulB_sound (evs : List (Op × Env × List Read)) :
    ∀ {s : St}, carefulB table evs s = true → Careful table evs s := by
  induction evs with
  | nil => intro s _; trivial
  | cons ev evs ih =>
    intro s h
    obtain ⟨o, env, net⟩ := ev
    unfold carefulB at h
    simp only [Bool.and_eq_true] at h
    obtain ⟨⟨⟨h1, h2⟩, h3⟩, h4⟩ := h
    refine ⟨fun hb => ?_, fun ho hf => ?_, fun hp => ⟨fun ho => ?_, fun rd ho => ?_⟩, fun t ht => ?_⟩
    · rw [hb] at h1; cases h1
    · subst ho; rw [hf] at h2; simpa using h2
    · subst ho; rw [hp] at h3; cases h3
    · subst ho; rw [hp] at h3
      cases rd with
      | again => exact .inl rfl
      | data d => exact .inr ⟨d, rfl, by simpa using h3⟩
      | closed => cases h3
      | err => cases h3
    · rw [ht] at h4; exact ih h4

/-- a peer whose version is not supported: the answer waits in the queue, the rest of what the peer
sends is read, the answer is written, the client is destroyed -/
def demoStray : List (Op × Env × List Read) :=
  let env := { demoEnv with lastWrite := .queued }
  [(.readable (.data (List.replicate 12 65)), env, []), (.readable (.data [1, 2, 3]), env, []),
   (.flushed, env, []), (.idle, env, [])]

example : Careful [0, 1] demoStray (start demoClient.srv) ∧
    (match run [0, 1] demoStray (start demoClient.srv) with
      | .ok s => s.cl.freed && s.cl.closed | _ => false) = true :=
  ⟨carefulB_sound _ (by decide +kernel), by decide +kernel⟩

/-- C60 violated: a peer that sends an unsupported version and is gone when the answer is written makes
the server destroy the client twice.  (The failed write closes the stream, which finishes the request
and schedules the end, and then reports the peer as gone, which schedules it again;
server.c 223-255, stream/tcp.c 40-59 and 108-111.) -/
theorem c60_handshake_violated : ∃ srv env, env.lastWrite = .broken ∧
    run [] [(.readable (.data (List.replicate 12 65)), env, []), (.idle, env, []), (.idle, env, [])] (start srv) =
      .ub "client closed twice" :=
  ⟨demoClient.srv, { demoEnv with lastWrite := .broken }, rfl, isUb_eq (by decide +kernel)⟩

/-- C60 violated: so does a peer that hangs up while the answer to an unsupported version waits in the
send queue. -/
theorem c60_queued_violated : ∃ srv env, env.lastWrite = .queued ∧
    run [] [(.readable (.data (List.replicate 12 65)), env, []), (.readable .closed, env, []), (.idle, env, []),
      (.idle, env, [])] (start srv) = .ub "client closed twice" :=
  ⟨demoClient.srv, { demoEnv with lastWrite := .queued }, rfl, isUb_eq (by decide +kernel)⟩

/-- C60 violated: a client that cannot be told about a new size is closed in the middle of
`finish_fb_update`, which goes on with it (server.c 2515-2550). -/
theorem c60_resize_violated : ∃ env s, Calm s ∧ s.net = [] ∧
    feed [] [(.read 9, env), (.other (.encoded ⟨1, 6, 3, none, []⟩), env)] s (Msg.fbRequest 0 ⟨0, 0, 4, 3⟩).wire =
      .ub "client used after client_close" :=
  ⟨demoEnv, demoClient, demoClient_calm, rfl, rfl⟩

/-- C60 violated: when no ZRLE or Tight encoder can be made, `ensure_encoder` takes a reference to NULL
(server.c 799 and 807) before it looks whether there is an encoder (server.c 814-817). -/
theorem c60_encoder_violated : ∀ e ∈ ([encZrle, encTight] : List Int), ∃ env s, Calm s ∧ s.net = [] ∧
    env.encNew e = false ∧ (∀ e', e' ≠ e → env.encNew e' = true) ∧
    feed [] [(.read 99, env)] s ((Msg.setEncodings 0 [e]).wire ++ (Msg.fbRequest 0 ⟨0, 0, 4, 3⟩).wire) =
      .ub "encoder_ref(NULL)" := by
  intro e he
  refine ⟨{ demoEnv with encNew := fun x => x != e }, demoClient, demoClient_calm, rfl, ?_, ?_, ?_⟩
  · simp
  · intro e' h; simpa using h
  · simp only [List.mem_cons, List.not_mem_nil, or_false] at he
    rcases he with rfl | rfl <;> rfl

end Verif.Server
