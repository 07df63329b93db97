import Verif.Logs.Model
/-!
# Log files: properties (C80)
-/

namespace Verif.Logs

/-! ### Specification -/

/-- The lines that a record labelled `w` should become: one line of its file, and one on stderr from the level chosen for that. -/
def expected (file statFile : String) (errLevel : Nat) (w : Nat) (r : Record) : List Out :=
  let r := { r with tag := some w }
  if r.stats then [.line statFile r] else .line file r :: (if errLevel ≤ r.lvl then [.err r] else [])

/-! ### Invariant of a process -/

/-- Before the set-up there are no handlers; afterwards nothing goes to the root logger, and the level of the main logger is the one chosen. -/
structure Inv (p : Proc) : Prop where
  clean : p.set = false → p.main.hs = [] ∧ p.stats.hs = [] ∧ p.main.lvl = 0 ∧ p.stats.lvl = 0
  closed : p.set = true → p.main.prop = false ∧ p.stats.prop = false ∧ p.main.lvl = p.level

theorem inv_start : Inv {} := ⟨fun _ => ⟨rfl, rfl, rfl, rfl⟩, nofun⟩

theorem inv_act {p : Proc} (h : Inv p) (a : Act) : Inv (act p a) := by
  have hdir : ∀ d, Inv (setDir p d) := fun d => ⟨h.clean, h.closed⟩
  have hman : ∀ {p : Proc}, Inv p → Inv (managerConfig p) := by
    intro p h
    refine ⟨fun hs => (nomatch (show true = false from hs)), fun _ => ⟨rfl, rfl, rfl⟩⟩
  cases a with
  | level n =>
    simp only [act, setLevel]
    split
    · rename_i hs
      exact ⟨fun h' => by simp_all, fun _ => ⟨(h.closed hs).1, (h.closed hs).2.1, rfl⟩⟩
    · rename_i hs
      exact ⟨fun h' => h.clean h', fun h' => absurd h' hs⟩
  | errLevel n => exact ⟨h.clean, h.closed⟩
  | file f =>
    simp only [act, setFile]
    split
    · exact h
    · exact ⟨h.clean, h.closed⟩
  | dir d => exact hdir d
  | manage files wdir =>
    simp only [act]
    split
    · apply hman
      cases wdir with
      | none => exact h
      | some d => exact hdir d
    · exact h
  | work w =>
    simp only [act, workerConfig]
    split
    · rename_i hs
      exact ⟨fun h' => absurd (h'.symm.trans hs) (by simp), fun _ => h.closed hs⟩
    · exact ⟨fun h' => (nomatch h'), fun _ => ⟨rfl, rfl, rfl⟩⟩

theorem inv_proc (as : List Act) : Inv (proc as) := by
  suffices h : ∀ (as : List Act) (p : Proc), Inv p → Inv (as.foldl act p) from h as {} inv_start
  intro as
  induction as with
  | nil => exact fun p h => h
  | cons a as ih => exact fun p h => ih _ (inv_act h a)

/-! ### After the set-up -/

theorem manager_shape {p : Proc} (h : Inv p) :
    (managerConfig p).main = ⟨p.level, false, [.file p.file, .stderr p.errLevel]⟩ ∧ (managerConfig p).stats = ⟨10, false, [.file p.statFile]⟩ := by
  simp only [managerConfig]
  split
  · exact ⟨rfl, rfl⟩
  · rename_i hs
    have := (h.clean (by simpa using hs)).1
    simp [this]

theorem worker_shape {p : Proc} (h : Inv p) (w : Nat) :
    (workerConfig p w).main = ⟨p.level, false, [.comm w]⟩ ∧ (workerConfig p w).stats.prop = false ∧ (workerConfig p w).stats.hs = [.comm w] ∧
    (workerConfig p w).stats.lvl = (if p.set then p.stats.lvl else p.level) := by
  simp only [workerConfig]
  split
  · rename_i hs
    obtain ⟨h1, h2, h3⟩ := h.closed hs
    simp [h1, h2, h3]
  · rename_i hs
    obtain ⟨h1, h2, _⟩ := h.clean (by simpa using hs)
    simp [h1, h2]

theorem handle_manager {p : Proc} (h : Inv p) (r : Record) :
    handle (managerConfig p) r = expected p.file p.statFile p.errLevel (r.tag.getD 0) r := by
  obtain ⟨h1, h2⟩ := manager_shape h
  simp only [handle, chain, h1, h2]
  cases hr : r.stats with
  | false =>
    simp only [Bool.false_eq_true, if_false, List.isEmpty_cons, emitAll, Handler.emit, expected, hr, Option.getD_some, List.append_nil]
    rfl
  | true => simp [emitAll, Handler.emit, expected, hr]

theorem handle_worker {p : Proc} (h : Inv p) (w : Nat) (r : Record) : handle (workerConfig p w) r = [.sent w { r with tag := some (r.tag.getD w) }] := by
  obtain ⟨h1, h2, h3, _⟩ := worker_shape h w
  simp only [handle, chain, h1, h2, h3]
  cases hr : r.stats <;> simp [emitAll, Handler.emit, hr]

/-- However often and in whatever way the process has been used before: what the manager logs, and what it receives, becomes exactly one line of the log
file or the statistics file, with the number of the worker or 0, and one on stderr from its level on. -/
theorem C80_manager (as : List Act) (r : Record) :
    handle (managerConfig (proc as)) r = expected (proc as).file (proc as).statFile (proc as).errLevel (r.tag.getD 0) r :=
  handle_manager (inv_proc as) r

/-- A worker with a communicator writes to no file: what it logs is sent once, with its number, or not at all. -/
theorem C80_worker (as : List Act) (w : Nat) (r : Record) (hr : r.tag = none) :
    log (workerConfig (proc as) w) r = if effective (workerConfig (proc as) w) r.stats ≤ r.lvl then [.sent w { r with tag := some w }] else [] := by
  simp only [log, handle_worker (inv_proc as), hr, Option.getD_none]

/-- The number of workers is noted once: a record that worker `w` sends becomes one line with its number. -/
theorem C80_once (as : List Act) (k : Kind) (hk : k ≠ .thread) (w : Nat) (r : Record) (hr : r.tag = none) :
    let p := proc as
    fromWorker k p (managerConfig p) w r =
      if effective (worker k p (managerConfig p) w) r.stats ≤ r.lvl then expected p.file p.statFile p.errLevel w r else [] := by
  have key : ∀ bs : List Act, (log (workerConfig (proc bs) w) r).flatMap (deliver (managerConfig (proc as))) =
      if effective (workerConfig (proc bs) w) r.stats ≤ r.lvl then expected (proc as).file (proc as).statFile (proc as).errLevel w r else [] := by
    intro bs
    rw [C80_worker bs w r hr]
    split
    · simp only [List.flatMap_cons, List.flatMap_nil, List.append_nil, deliver, C80_manager]
      rfl
    · rfl
  cases k with
  | forked => exact key as
  | own bs => exact key bs
  | thread => exact absurd rfl hk

/-- Forked workers use the level that was chosen before the call: each message from it on becomes a line, the others are lost. -/
theorem C80_forked_level (as : List Act) (w : Nat) (r : Record) (hr : r.tag = none) (hs : r.stats = false) (hl : (proc as).level ≠ 0) :
    fromWorker .forked (proc as) (managerConfig (proc as)) w r =
      if (proc as).level ≤ r.lvl then expected (proc as).file (proc as).statFile (proc as).errLevel w r else [] := by
  rw [C80_once as .forked (nofun) w r hr]
  have : effective (worker .forked (proc as) (managerConfig (proc as)) w) r.stats = (proc as).level := by
    simp only [worker, effective, (worker_shape (inv_proc as) w).1, hs]
    simp [hl]
  rw [this]

/-- The level after a series of actions is the one of the last `set_level`, or INFO. -/
def chosen : List Act → Nat → Nat
  | [], d => d
  | .level n :: as, _ => chosen as ((levels.lookup n.toUpper).getD 10)
  | _ :: as, d => chosen as d

theorem C80_level (as : List Act) : (proc as).level = chosen as 20 := by
  suffices h : ∀ (as : List Act) (p : Proc), (as.foldl act p).level = chosen as p.level from h as {}
  intro as
  induction as with
  | nil => exact fun p => rfl
  | cons a as ih =>
    intro p
    simp only [List.foldl_cons, ih]
    cases a with
    | level n => simp only [act, setLevel, chosen]; split <;> rfl
    | errLevel n => rfl
    | file f => simp only [act, setFile, chosen]; split <;> rfl
    | dir d => rfl
    | manage files wdir =>
      simp only [act, chosen]
      have hm : ∀ p : Proc, (managerConfig p).level = p.level := fun p => by
        simp only [managerConfig]; split <;> rfl
      split
      · rw [hm]; cases wdir <;> rfl
      · rfl
    | work w => simp only [act, workerConfig, chosen]; split <;> rfl

theorem managed (as : List Act) (wd) (h : Act.manage true wd ∈ as) : (proc as).set = true ∧ (proc as).stats.lvl = 10 := by
  have keep : ∀ (as : List Act) (p : Proc), p.set = true ∧ p.stats.lvl = 10 → (as.foldl act p).set = true ∧ (as.foldl act p).stats.lvl = 10 := by
    intro as
    induction as with
    | nil => exact fun p h => h
    | cons a as ih =>
      intro p h
      apply ih
      cases a with
      | level n => simp only [act, setLevel, h.1, if_true]; exact ⟨trivial, h.2⟩
      | errLevel n => exact h
      | file f => simp only [act, setFile, h.1, if_true]; exact ⟨trivial, h.2⟩
      | dir d => exact h
      | manage files wdir =>
        simp only [act]
        split
        · exact ⟨rfl, rfl⟩
        · exact h
      | work w => simp only [act, workerConfig, h.1, if_true]; exact ⟨trivial, h.2⟩
  obtain ⟨bs, cs, rfl⟩ := List.append_of_mem h
  simp only [proc, List.foldl_append, List.foldl_cons]
  exact keep cs _ ⟨rfl, rfl⟩

theorem unmanaged (as : List Act) (h : ∀ wd, Act.manage true wd ∉ as) (hw : ∀ w, Act.work w ∉ as) : (proc as).set = false := by
  suffices key : ∀ (as : List Act) (p : Proc), (∀ wd, Act.manage true wd ∉ as) → (∀ w, Act.work w ∉ as) → p.set = false → (as.foldl act p).set = false from
    key as {} h hw rfl
  intro as
  induction as with
  | nil => exact fun p _ _ h => h
  | cons a as ih =>
    intro p h hw hp
    refine ih _ (fun wd hm => h wd (List.mem_cons_of_mem _ hm)) (fun w hm => hw w (List.mem_cons_of_mem _ hm)) ?_
    cases a with
    | level n => simp only [act, setLevel]; split <;> exact hp
    | errLevel n => exact hp
    | file f => simp only [act, setFile]; split <;> exact hp
    | dir d => exact hp
    | manage files wdir =>
      cases files with
      | true => exact absurd (List.mem_cons_self ..) (h wdir)
      | false => exact hp
    | work w => exact absurd (List.mem_cons_self ..) (hw w)

/-- The statistics of a forked worker (level INFO) in a script that has made no call with log files yet: all lines or none, by the level chosen. -/
theorem C80_stats_first (as : List Act) (h : ∀ wd, Act.manage true wd ∉ as) (hw : ∀ w, Act.work w ∉ as) (hn : chosen as 20 ≠ 0) (w : Nat) (r : Record)
    (hr : r.tag = none) (hs : r.stats = true) (hl : r.lvl = 20) :
    fromWorker .forked (proc as) (managerConfig (proc as)) w r =
      if chosen as 20 ≤ 20 then [.line (proc as).statFile { r with tag := some w }] else [] := by
  rw [C80_once as .forked (nofun) w r hr]
  have h1 := (worker_shape (inv_proc as) w).2.2.2
  rw [unmanaged as h hw, C80_level] at h1
  have : effective (worker .forked (proc as) (managerConfig (proc as)) w) r.stats = chosen as 20 := by
    simp only [worker, effective, h1, hs, if_true]
    simp [hn]
  rw [this, hl]
  simp [expected, hs, hl]

/-- In a later call all lines of the statistics are written, whatever the level. Partial: in the first call they are lost if the level chosen is above INFO, see
`C80_stats_first` and `C80_stats_witness`. -/
theorem C80_stats_partial (as : List Act) (wd) (h : Act.manage true wd ∈ as) (w : Nat) (r : Record) (hr : r.tag = none) (hs : r.stats = true) (hl : r.lvl = 20) :
    fromWorker .forked (proc as) (managerConfig (proc as)) w r = [.line (proc as).statFile { r with tag := some w }] := by
  rw [C80_once as .forked (nofun) w r hr]
  have h1 := (worker_shape (inv_proc as) w).2.2.2
  rw [(managed as wd h).1, (managed as wd h).2] at h1
  have : effective (worker .forked (proc as) (managerConfig (proc as)) w) r.stats ≤ r.lvl := by
    simp only [worker, effective, h1, hs, hl, if_true]
    simp
  rw [if_pos this]
  simp [expected, hs]

/-- Witness: with the level WARNING the first call of a script has no lines of workers in the statistics file, the second call has. -/
theorem C80_stats_witness :
    let p1 := proc [.level "WARNING"]
    let p2 := proc [.level "WARNING", .manage true none]
    fromWorker .forked p1 (managerConfig p1) 3 ⟨20, true, 7, none⟩ = [] ∧
    fromWorker .forked p2 (managerConfig p2) 3 ⟨20, true, 7, none⟩ = [.line "libE_stats.txt" ⟨20, true, 7, some 3⟩] := by decide +kernel

/-- Witness: the level that the manager's script chooses is not known to a worker that is a process of its own and does not choose it too (TCP). -/
theorem C80_own_witness :
    let p := proc [.level "DEBUG"]
    fromWorker .forked p (managerConfig p) 3 ⟨10, false, 7, none⟩ = [.line "ensemble.log" ⟨10, false, 7, some 3⟩] ∧
    fromWorker (.own []) p (managerConfig p) 3 ⟨10, false, 7, none⟩ = [] := by decide +kernel

/-- With threads every line carries the number of the manager, whatever the worker. -/
theorem C80_threads (as : List Act) (w : Nat) (r : Record) (hr : r.tag = none) :
    fromWorker .thread (proc as) (managerConfig (proc as)) w r =
      if effective (managerConfig (proc as)) r.stats ≤ r.lvl then expected (proc as).file (proc as).statFile (proc as).errLevel 0 r else [] := by
  simp only [fromWorker, worker, log, C80_manager, hr, Option.getD_none]
  split
  · simp only [expected]
    cases r.stats <;> simp [deliver]
    split <;> simp [deliver]
  · rfl

/-- Witness: with threads the statistics of worker 3 are labelled as the manager's. -/
theorem C80_threads_witness :
    fromWorker .thread (proc []) (managerConfig (proc [])) 3 ⟨20, true, 7, none⟩ = [.line "libE_stats.txt" ⟨20, true, 7, some 0⟩] := by decide +kernel

/-- Nothing is sent on by the manager: there is no endless exchange of records. -/
theorem C80_no_loop (as : List Act) (r : Record) : ∀ o ∈ handle (managerConfig (proc as)) r, ∀ w r', o ≠ .sent w r' := by
  intro o ho w r' h
  subst h
  rw [C80_manager] at ho
  simp only [expected] at ho
  split at ho
  · simp at ho
  · simp only [List.mem_cons, reduceCtorEq, false_or] at ho
    split at ho <;> simp at ho

/-- What the set-up for threads avoids (libE.py:456): a manager that shares its loggers with a worker which sends its records would send the record it
receives again, for ever. -/
theorem C80_loop_witness (as : List Act) (w : Nat) (r : Record) (hr : r.tag = some w) :
    (handle (workerConfig (managerConfig (proc as)) w) r) = [.sent w r] := by
  have h : Inv (managerConfig (proc as)) := inv_act (inv_proc as) (.manage true none)
  rw [handle_worker h]
  cases r
  simp_all

/-- `disable_log_files` in the first call: nothing is written to files; what there is from WARNING on appears on stderr without the number of the worker's line. -/
theorem C80_disabled (as : List Act) (h : (proc as).set = false) (k : Kind) (hk : k ≠ .thread) (w : Nat) (r : Record) (hr : r.tag = none) :
    ∀ o ∈ fromWorker k (proc as) (proc as) w r, o = .lastResort { r with tag := some w } ∧ 30 ≤ r.lvl := by
  have key : ∀ bs : List Act, ∀ o ∈ (log (workerConfig (proc bs) w) r).flatMap (deliver (proc as)), o = .lastResort { r with tag := some w } ∧ 30 ≤ r.lvl := by
    intro bs o ho
    rw [C80_worker bs w r hr] at ho
    obtain ⟨h1, h2, _⟩ := (inv_proc as).clean h
    split at ho
    · simp only [List.flatMap_cons, List.flatMap_nil, List.append_nil, deliver, handle, chain, h1, h2] at ho
      cases hs : r.stats <;> simp [hs] at ho <;> exact ⟨ho.2, ho.1⟩
    · simp at ho
  cases k with
  | forked => exact key as
  | own bs => exact key bs
  | thread => exact absurd rfl hk

/-- Witness: in a later call of the same script `disable_log_files` has no effect, the handlers of the earlier call are still there. -/
theorem C80_disabled_witness :
    let p := proc [.manage true none, .manage false none]
    fromWorker .forked p p 3 ⟨20, false, 7, none⟩ = [.line "ensemble.log" ⟨20, false, 7, some 3⟩] := by decide +kernel

/-- After the first set-up the name of the log file cannot be changed with `set_filename`; and what is set for stderr counts from the next call on. -/
theorem C80_file (as : List Act) (f : String) : (act (managerConfig (proc as)) (.file f)) = managerConfig (proc as) := by
  simp only [act, setFile]
  have : (managerConfig (proc as)).set = true := rfl
  simp [this]

theorem C80_stderr_later (as : List Act) (n : String) (r : Record) :
    handle (act (managerConfig (proc as)) (.errLevel n)) r = handle (managerConfig (proc as)) r := rfl

/-- Lines of different workers, and of the manager, begin differently. -/
theorem C80_label {v w : Nat} (h : label v = label w) : v = w := by
  have strip : ∀ (n k : Nat), (List.replicate k ' ' ++ Nat.toDigits 10 n).dropWhile (· == ' ') = Nat.toDigits 10 n := by
    intro n k
    induction k with
    | zero =>
      simp only [List.replicate_zero, List.nil_append]
      cases hd : Nat.toDigits 10 n with
      | nil => rfl
      | cons c cs =>
        have hc : c.isDigit = true := Nat.isDigit_of_mem_toDigits (b := 10) (n := n) (by omega) (by omega) (by rw [hd]; exact List.mem_cons_self ..)
        have : (c == ' ') = false := by
          cases he : c == ' ' with
          | false => rfl
          | true => rw [eq_of_beq he] at hc; exact absurd hc (by decide)
        simp [List.dropWhile_cons, this]
    | succ k ih => simpa [List.replicate_succ, List.dropWhile_cons] using ih
  have differ : ∀ cs : List Char, "Manager     ".toList ≠ "Worker ".toList ++ cs := by
    intro cs h
    have := congrArg List.head? h
    revert this
    simp
  by_cases hv : v = 0
  · by_cases hw : w = 0
    · omega
    · rw [label, label, if_pos hv, if_neg hw] at h
      exact absurd h (differ _)
  · by_cases hw : w = 0
    · rw [label, label, if_neg hv, if_pos hw] at h
      exact absurd h.symm (differ _)
    · rw [label, label, if_neg hv, if_neg hw] at h
      have h2 := congrArg (List.dropWhile (· == ' ')) (List.append_cancel_left h)
      rw [strip, strip] at h2
      have := congrArg (Nat.ofDigitChars 10 · 0) h2
      simpa [Nat.ofDigitChars_ten_toDigits] using this

/-- A script that makes three calls: no line is doubled. -/
example : let p := proc [.manage true none, .level "debug", .manage true none]
    fromWorker .forked p (managerConfig p) 2 ⟨40, false, 1, none⟩ =
      [.line "ensemble.log" ⟨40, false, 1, some 2⟩, .err ⟨40, false, 1, some 2⟩] ∧
    fromWorker .forked p (managerConfig p) 2 ⟨10, false, 1, none⟩ = [.line "ensemble.log" ⟨10, false, 1, some 2⟩] := by decide +kernel

end Verif.Logs
