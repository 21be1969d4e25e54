import Verif.Lemmas.Listen

/-! # C89 to C91: sockets, connections and the end of the server -/

namespace Verif.Listen

theorem runDisplay {os : List Op} {s : State} (e : run (.display (some true) :: os) {} = .ok s)
    (ho : ∀ o ∈ os, o.KeepsDisplay) : FdInv s :=
  run_fd os { display := some true } s ⟨List.Perm.refl _, List.nodup_nil, nofun⟩ rfl ho e

/-! ## C89: descriptors -/

/-- As long as there is a display with a buffer, whatever listening and accepting come to: no descriptor is closed twice,
none is closed that is not the server's, and none is closed that is still in use. -/
theorem c89_closed_once_partial (os : List Op) (s : State) (e : run (.display (some true) :: os) {} = .ok s)
    (ho : ∀ o ∈ os, o.KeepsDisplay) :
    s.closes.Nodup ∧ (∀ fd ∈ s.closes, fd ∈ s.owned) ∧
      (∀ k ∈ s.sockets, k.fd ∉ s.closes) ∧ (∀ fd ∈ s.clients, fd ∉ s.closes) ∧
      ∀ fd ∈ s.owned, fd ∈ s.closes ∨ (∃ k ∈ s.sockets, k.fd = fd) ∨ fd ∈ s.clients := by
  have h := runDisplay e ho
  have hn := h.nodup
  rw [← h.all.nodup_iff] at hn
  obtain ⟨n1, -, n3⟩ := List.nodup_append.mp hn
  refine ⟨n1, fun fd hm => h.all.mem_iff.mp (List.mem_append_left _ hm), ?_, ?_, ?_⟩
  · intro k hk hm
    exact n3 k.fd hm k.fd (List.mem_append_left _ (List.mem_map_of_mem hk)) rfl
  · intro fd hf hm
    exact n3 fd hm fd (List.mem_append_right _ hf) rfl
  · intro fd hm
    rcases List.mem_append.mp (h.all.mem_iff.mpr hm) with hm | hm
    · exact .inl hm
    · rcases List.mem_append.mp hm with hm | hm
      · obtain ⟨k, hk, e⟩ := List.mem_map.mp hm
        exact .inr (.inl ⟨k, hk, e⟩)
      · exact .inr (.inr hm)

/-- After `nvnc_del` every descriptor of the server's has been closed, exactly once. -/
theorem c89_all_closed_partial (os : List Op) (s : State) (e : run (.display (some true) :: os) {} = .ok s)
    (ho : ∀ o ∈ os, o.KeepsDisplay) (hd : s.dead = true) : s.closes.Perm s.owned := by
  have h := runDisplay e ho
  have hl := run_dead _ _ _ (fun h => by cases h) e hd
  have := h.all
  rw [State.live, hl.1, hl.2] at this
  simpa using this

/-- a TCP socket on the second address, a Unix socket, a descriptor of the application's, clients that come and go -/
def sample : List Op :=
  [.display (some true), .listenTcp false [.noSocket, .noBind, .bound] true, .listenUnix true 1 true true true true,
    .appFile 2, .listenFd false (some 2) true, .connect .ok, .connect .noStream, .connect .ok, .gone 7]

structure View where
  closes : List Nat
  owned : List Nat
  clients : List Nat
  files : List Nat
  deriving DecidableEq

def view (o : Outcome State) : Option View :=
  match o with
  | .ok s => some ⟨s.closes, s.owned, s.clients, s.files⟩
  | _ => none

example : view (run sample {}) = some ⟨[3, 8, 7], [3, 4, 5, 6, 7, 8, 9], [9], [1, 2]⟩ := by decide +kernel

example : view (run (sample ++ [.del]) {}) =
    some ⟨[3, 8, 7, 9, 6, 5, 4], [3, 4, 5, 6, 7, 8, 9], [], [2]⟩ := by decide +kernel

example : ∀ o ∈ sample, o.KeepsDisplay := by
  intro o ho
  simp only [sample, List.mem_cons, List.not_mem_nil, or_false] at ho
  rcases ho with rfl | rfl | rfl | rfl | rfl | rfl | rfl | rfl | rfl <;> simp [Op.KeepsDisplay]

/-- A client that connects before the application has fed a buffer has its descriptor closed twice.  By the
second time it may belong to another thread. -/
theorem c89_no_buffer_violated :
    (∀ s : State, s.dead = false → s.sockets ≠ [] → s.display = some false →
      ∃ t, step (.connect .ok) s = .ok t ∧ t.closes = s.closes ++ [s.nextFd, s.nextFd]) ∧
      ∃ s, run [.display (some false), .listenTcp false [.bound] true] {} = .ok s ∧ s.dead = false ∧
        s.sockets ≠ [] ∧ s.display = some false := by
  constructor
  · intro s hd hs hb
    refine ⟨closeFd s.nextFd (closeFd s.nextFd (openFd s)), ?_, ?_⟩
    · rw [step, hd]
      simp only [Bool.false_eq_true, if_false, if_neg hs, onConnection, hb]
    · simp [closeFd, openFd]
  · exact ⟨_, rfl, rfl, by decide, rfl⟩

/-! ## C90: files of Unix sockets -/

/-- The files that the application made are never removed. -/
theorem c90_app_files (os : List Op) (s : State) (e : run os {} = .ok s) : ∀ p ∈ s.appFiles, p ∈ s.files := by
  obtain ⟨left, h, -⟩ := run_file os {} s [] init_file e
  intro p hp
  refine h.all.mem_iff.mpr ?_
  simp [hp]

/-- After `nvnc_del` no files are left other than those of the application, provided that no Unix socket for the plain
protocol could be bound but not be listened on. -/
theorem c90_removed_partial (os : List Op) (s : State) (e : run os {} = .ok s) (ho : ∀ o ∈ os, o.Tidy)
    (hd : s.dead = true) : s.files.Perm s.appFiles := by
  obtain ⟨left, h, hl⟩ := run_file os {} s [] init_file e
  have hs := run_dead _ _ _ (fun h => by cases h) e hd
  have := h.all
  rw [hl ho, hs.1] at this
  simpa using this

/-- The file of every Unix socket that the server listens on exists for as long as it listens. -/
theorem c90_listening (os : List Op) (s : State) (e : run os {} = .ok s) (k : Sock) (hk : k ∈ s.sockets)
    (hx : k.external = false) (p : Nat) (hp : k.path = some p) : p ∈ s.files := by
  obtain ⟨left, h, -⟩ := run_file os {} s [] init_file e
  refine h.all.mem_iff.mpr (List.mem_append_left _ (List.mem_append_right _ ?_))
  rw [List.mem_filterMap]
  exact ⟨k, hk, by rw [Sock.own, hx]; exact hp⟩

example : ∀ o ∈ sample, o.Tidy := by
  intro o ho
  simp only [sample, List.mem_cons, List.not_mem_nil, or_false] at ho
  rcases ho with rfl | rfl | rfl | rfl | rfl | rfl | rfl | rfl | rfl <;> simp [Op.Tidy]

/-- When listening on a Unix socket for the plain protocol fails after it was bound, its file is left behind for ever, so
that the path cannot be used again. -/
theorem c90_left_behind_violated (path : Nat) :
    ∃ s, run [.listenUnix false path true true true false, .del] {} = .ok s ∧ s.files = [path] ∧
      s.appFiles = [] ∧ (bindUnix path true true true s).1 = none := by
  refine ⟨_, rfl, rfl, rfl, ?_⟩
  simp [bindUnix, del, delSockets, delClients, listenUnix, listen, closeFd, openFd]

/-! ## C91: accepting connections -/

/-- With a display that has a buffer, no sequence of calls and connections goes wrong, and a connection over TCP
is announced. -/
theorem c91_accepts_partial (os : List Op) (ho : ∀ o ∈ os, o.KeepsDisplay) :
    (∃ s, run (.display (some true) :: os) {} = .ok s) ∧ announce 2 = .ok () ∧ announce 10 = .ok () := by
  obtain ⟨s, e⟩ := run_ready os { display := some true } rfl ho
  exact ⟨⟨s, e⟩, rfl, rfl⟩

/-- A connection before the application has added a display, or after it has removed it, dereferences NULL. -/
theorem c91_no_display_violated (s : State) (hd : s.dead = false) (hs : s.sockets ≠ []) (hn : s.display = none) :
    ∃ w, step (.connect .ok) s = .ub w := by
  refine ⟨"server->display->buffer, NULL display", ?_⟩
  rw [step, hd]
  simp only [Bool.false_eq_true, if_false, if_neg hs, onConnection, hn]

example : ∃ s, run [.listenTcp false [.bound] true] {} = .ok s ∧ s.dead = false ∧ s.sockets ≠ [] ∧
    s.display = none := ⟨_, rfl, rfl, by decide, rfl⟩

/-- For a client of a Unix socket, memory that was never written to is printed as a string. -/
theorem c91_unix_violated : ∃ w, announce 1 = .ub w := ⟨_, rfl⟩

end Verif.Listen
