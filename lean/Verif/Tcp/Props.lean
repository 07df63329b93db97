import Verif.Tcp.Model
/-!
Property C74: a team on TCP is connected.
-/
namespace Verif.Tcp

/-! ### Specification -/

/-- What one writes the other reads. -/
def Linked (a b : Comm) : Prop := a.read = b.write ∧ a.write = b.read

/-- The two have no queue in common. -/
def Apart (a b : Comm) : Prop := a.read ≠ b.read ∧ a.read ≠ b.write ∧ a.write ≠ b.read ∧ a.write ≠ b.write

/-! ### Command lines -/

/-- Each worker started on TCP runs the user's script and learns there its number, the number of workers and how to reach the manager. -/
theorem C74_client (python script ip auth : Word) (port n w : Nat) (workers : Option (List Word)) (hi : ip.opt = false) (ha : auth.opt = false) :
    client (form (tcpCmd [python] [script] n) (specsFor ip auth port workers w)) =
      some (script, { ip := ip, port := port, authkey := auth, workerID := some w, nworkers := or4 n }) := by
  have hn : (Word.num port).opt = false := rfl
  have hc : (Word.text "client").opt = false := by decide
  have h4 : or4 (or4 n) = or4 n := by unfold or4; split <;> simp_all
  simp [form, tcpCmd, fillAll, Piece.fill, specsFor, client, parse, hi, ha, hn, hc, h4]

/-- A script whose path has a blank is not the one that runs. -/
theorem C74_blank_witness (python dir name ip auth : Word) (port n w : Nat) (workers : Option (List Word)) (hi : ip.opt = false) (ha : auth.opt = false)
    (hd : name.opt = false) : ∃ c, client (form (tcpCmd [python] [dir, name] n) (specsFor ip auth port workers w)) = some (dir, c) := by
  have hn : (Word.num port).opt = false := rfl
  have hc : (Word.text "client").opt = false := by decide
  have hp : ∀ ws a, parse (name :: ws) a = parse ws a := by
    intro ws a
    conv => lhs; unfold parse
    split
    · rename_i e; cases e
    all_goals (rename_i e; injection e with e1 e2)
    · rw [e1] at hd; exact absurd hd (by decide)
    · rw [e1] at hd; exact absurd hd (by decide)
    · rw [e1] at hd; exact absurd hd (by decide)
    · rw [e1] at hd; exact absurd hd (by decide)
    · rw [e2]
  simp [form, tcpCmd, fillAll, Piece.fill, specsFor, client, hp, parse, hi, ha, hn, hc]

/-- Over ssh, worker `w` is started on the `w`-th host with a tunnel back to the manager, and learns its number, the number of workers and the end of
the tunnel. -/
theorem C74_ssh (python script ip auth : Word) (pwd : List Word) (port w : Nat) (workers : List Word) (host : Word) (ha : auth.opt = false) (hw : 1 ≤ w)
    (hl : workers.length ≠ 0) (hh : workers[w - 1]? = some host) :
    ∃ cmd, form (sshCmd [python] [script] pwd workers.length) (specsFor ip auth port (team 0 workers).2 w) =
        [.text "ssh", .text "-R", .tunnel 0x71BE port, host, .text "(", .text "cd"] ++ pwd ++ [.text ";"] ++ cmd ++ [.text ")"] ∧
      client cmd = some (script, { ip := .text "localhost", port := 0x71BE, authkey := auth, workerID := some w, nworkers := workers.length }) := by
  have hn : ∀ p, (Word.num p).opt = false := fun _ => rfl
  have hc : (Word.text "client").opt = false := by decide
  have hlh : (Word.text "localhost").opt = false := by decide
  have h4 : or4 workers.length = workers.length := by unfold or4; rw [if_neg hl]
  refine ⟨[python, script, .text "--comms", .text "client", .text "--server", .text "localhost", .num 0x71BE, auth, .text "--workerID", .num w, .text "--nworkers",
    .num workers.length], ?_, ?_⟩
  · simp [form, sshCmd, remote, fillAll, Piece.fill, specsFor, team, hh]
  · simp [client, parse, ha, hn, hc, hlh, h4]

/-- If `nworkers` is set as well as the list of hosts, nothing but `ssh -R` is left of the command. -/
theorem C74_ssh_witness (python script pwd : List Word) (ip auth : Word) (port w n : Nat) (hn : n ≠ 0) (workers : List Word) :
    form (sshCmd python script pwd workers.length) (specsFor ip auth port (team n workers).2 w) = [.text "ssh", .text "-R"] := by
  simp [form, sshCmd, remote, fillAll, Piece.fill, specsFor, team, hn]

/-! ### Signing up -/

/-- When workers with different numbers have signed up, in whatever order, the manager gets one communicator for each of the first `n`: linked
with that worker's, and without any queue in common with the others. -/
theorem C74_linked (n : Nat) (shared : List Nat) (hd : shared.Nodup) (cs : List Comm) (h : await n shared = some cs) :
    cs.length = n ∧ (∀ (s : Nat) (c : Comm), cs[s]? = some c → ∃ id, shared[s]? = some id ∧ Linked c (workerComm id) ∧ ∀ id' ∈ shared, id' ≠ id → Apart c (workerComm id')) ∧
    ∀ (s t : Nat) (c d : Comm), s ≠ t → cs[s]? = some c → cs[t]? = some d → Apart c d := by
  unfold await at h
  split at h
  · rename_i hn
    injection h with h
    subst h
    have get : ∀ (s : Nat) (c : Comm), ((shared.take n).map fun id => ({ read := .outbox id, write := .inbox id } : Comm))[s]? = some c →
        s < n ∧ ∃ id, shared[s]? = some id ∧ c = { read := .outbox id, write := .inbox id } := by
      intro s c hs
      rw [List.getElem?_map, List.getElem?_take] at hs
      split at hs
      · rename_i hlt
        cases hx : shared[s]? with
        | none => simp [hx] at hs
        | some id => simp [hx] at hs; exact ⟨hlt, id, rfl, hs.symm⟩
      · simp at hs
    refine ⟨by simp [hn], ?_, ?_⟩
    · intro s c hs
      obtain ⟨_, id, h1, rfl⟩ := get s c hs
      exact ⟨id, h1, ⟨rfl, rfl⟩, fun id' _ hne => ⟨nofun, fun e => hne (by injection e with e; exact e.symm), fun e => hne (by injection e with e; exact e.symm), nofun⟩⟩
    · intro s t c d hst hs ht
      obtain ⟨hs', i, h1, rfl⟩ := get s c hs
      obtain ⟨ht', j, h2, rfl⟩ := get t d ht
      have hij : i ≠ j := by
        rintro rfl
        obtain ⟨hs1, he1⟩ := List.getElem?_eq_some_iff.mp h1
        obtain ⟨ht1, he2⟩ := List.getElem?_eq_some_iff.mp h2
        exact hst ((List.getElem_inj hd).mp (he1.trans he2.symm))
      exact ⟨fun e => hij (by injection e), nofun, nofun, fun e => hij (by injection e)⟩
  · cases h

/-- The manager's number of a worker is the worker's own number if workers sign up in the order of their numbers.  Partial: otherwise it is not,
see `C74_number_violated`. -/
theorem C74_number_partial (n : Nat) (cs : List Comm) (h : await n (List.range' 1 n) = some cs) (w : Nat) (hw : 1 ≤ w ∧ w ≤ n) :
    ∃ c, cs[w - 1]? = some c ∧ Linked c (workerComm w) := by
  obtain ⟨h1, h2, _⟩ := C74_linked n _ List.nodup_range' cs h
  have hlt : w - 1 < cs.length := by omega
  refine ⟨cs[w - 1], List.getElem?_eq_getElem hlt, ?_⟩
  obtain ⟨id, hid, hl, _⟩ := h2 (w - 1) _ (List.getElem?_eq_getElem hlt)
  rw [List.getElem?_range' (by omega)] at hid
  injection hid with hid
  have e : id = w := by omega
  rw [e] at hl
  exact hl

/-- Two workers that sign up in the other order change their numbers: the manager's worker 1 calls itself 2. -/
theorem C74_number_violated : ∃ cs c, await 2 [2, 1] = some cs ∧ cs[0]? = some c ∧ Linked c (workerComm 2) ∧ ¬ Linked c (workerComm 1) :=
  ⟨_, _, rfl, rfl, ⟨rfl, rfl⟩, fun h => by cases h.1⟩

/-- As long as fewer workers than expected have signed up the manager waits, without a limit of time. -/
theorem C74_waits (n : Nat) (shared : List Nat) : await n shared = none ↔ shared.length < n := by
  unfold await
  split
  · simp; omega
  · simp; omega

/-- Two workers with the same number use the same queues. -/
theorem C74_same_witness : ∃ cs c d, await 2 [1, 1] = some cs ∧ cs[0]? = some c ∧ cs[1]? = some d ∧ c = d := ⟨_, _, _, rfl, rfl, rfl, rfl⟩

example : client (form (tcpCmd [.text "/usr/bin/python"] [.text "run.py"] 3) (specsFor (.text "10.0.0.1") (.text "libE_auth_7") 9999 none 2)) =
    some (.text "run.py", { ip := .text "10.0.0.1", port := 9999, authkey := .text "libE_auth_7", workerID := some 2, nworkers := 3 }) := by decide

example : [Word.text "node1", .text "node2"][2 - 1]? = some (.text "node2") ∧ (Word.text "libE_auth_7").opt = false := by decide

example : await 2 [3, 1, 2] = some [⟨.outbox 3, .inbox 3⟩, ⟨.outbox 1, .inbox 1⟩] ∧ ([3, 1, 2] : List Nat).Nodup := by decide

example : (await 3 (List.range' 1 3)).isSome = true := by decide

end Verif.Tcp
