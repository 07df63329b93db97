import Verif.Settings.Model
/-
C76: an ensemble runs with the settings that it was given on the command line and by its script.
-/
namespace Verif.Settings

/-! ### The command line -/

/-- The communicator that a choice of `--comms` asks for. -/
def Choice.comms : Choice → Comms
  | .loc => .loc
  | .threads => .threads
  | .mpi => .mpi
  | .tcp | .ssh | .client => .tcp

/-- C76: the communicator of the command line: what `--comms` says; without it 'local' if `--nworkers` is given, and 'mpi' otherwise. -/
theorem C76_cmd_comms {e : Env} {a : Args} {p : Parsed} (h : parse e a = .ok p) :
    (∀ c, a.comms = some c → p.specs.comms = some c.comms)
    ∧ (a.comms = none → p.specs.comms = some (if a.nworkers = none then .mpi else .loc)) := by
  refine ⟨?_, ?_⟩
  · intro c hc
    unfold parse choice at h
    rw [hc] at h
    cases c <;> simp only [mpiArgs, localArgs, tcpArgs, sshArgs, clientArgs] at h
    case ssh => cases hh : a.hosts <;> rw [hh] at h <;> cases h <;> rfl
    case client => split at h <;> cases h; rfl
    all_goals cases h; rfl
  · intro hc
    unfold parse choice at h
    rw [hc] at h
    cases hn : a.nworkers with
    | none => rw [hn] at h; simp only [Option.isSome, Bool.false_eq_true, if_false] at h; cases h; rfl
    | some n => rw [hn] at h; simp only [Option.isSome, if_true] at h; cases h; rfl

/-- C76: the number of workers of the command line, for 'local' and 'threads': what `--nworkers` says; without it one more than `--nsim_workers`; without both
4. It is returned and is in the settings. -/
theorem C76_cmd_workers {e : Env} {a : Args} {p : Parsed} (h : parse e a = .ok p) (hc : p.specs.comms = some .loc ∨ p.specs.comms = some .threads) :
    p.specs.nworkers = some p.nworkers
    ∧ (∀ n, a.nworkers = some n → n ≠ 0 → p.nworkers = n)
    ∧ (∀ k, a.nworkers = none → a.nsim = some k → k + 1 ≠ 0 → p.nworkers = k + 1)
    ∧ (a.nworkers = none → a.nsim = none → p.nworkers = 4) := by
  have key : ∃ c, p = localArgs c a := by
    unfold parse at h
    revert h
    cases choice a <;> intro h <;> simp only [mpiArgs, tcpArgs, sshArgs, clientArgs] at h
    case loc => cases h; exact ⟨_, rfl⟩
    case threads => cases h; exact ⟨_, rfl⟩
    case mpi => cases h; simp at hc
    case tcp => cases h; simp at hc
    case ssh => cases hh : a.hosts <;> rw [hh] at h <;> cases h; simp at hc
    case client => split at h <;> cases h; simp at hc
  obtain ⟨c, rfl⟩ := key
  refine ⟨rfl, ?_, ?_, ?_⟩
  · intro n hn h0
    unfold localArgs
    cases a.nsim <;> simp [hn, por, h0]
  · intro k hn hs h0
    simp [localArgs, hn, hs, por, h0]
  · intro hn hs
    simp [localArgs, hn, hs, por]

/-- C76: the number of resource sets of the command line, for 'mpi', 'local' and 'threads': what `--nresource_sets` says, also with `--nsim_workers`; without it
what `--nsim_workers` says; without both it is not set. -/
theorem C76_cmd_sets {e : Env} {a : Args} {p : Parsed} (h : parse e a = .ok p) (hc : p.specs.comms ≠ some .tcp) :
    (∀ r, a.nres = some r → p.specs.rsets = some r) ∧ (a.nres = none → p.specs.rsets = a.nsim) := by
  have key : p.specs.rsets = setsOf a := by
    unfold parse at h
    revert h
    cases choice a <;> intro h <;> simp only [mpiArgs, tcpArgs, sshArgs, clientArgs, localArgs] at h
    case loc => cases h; rfl
    case threads => cases h; rfl
    case mpi => cases h; rfl
    case tcp => cases h; simp at hc
    case ssh => cases hh : a.hosts <;> rw [hh] at h <;> cases h; simp at hc
    case client => split at h <;> cases h; simp at hc
  rw [key]
  unfold setsOf
  exact ⟨fun r hr => by rw [hr], fun hr => by rw [hr]⟩

/-- C76: the process that the command line calls the manager: every process but clients and the MPI processes of rank above 0. With MPI the number of workers is
that of the other processes. -/
theorem C76_cmd_manager {e : Env} {a : Args} {p : Parsed} (h : parse e a = .ok p) :
    (p.isManager = false ↔ choice a = .client ∨ choice a = .mpi ∧ e.rank ≠ 0) ∧ (choice a = .mpi → p.nworkers = (e.size : Int) - 1) := by
  unfold parse at h
  cases hc : choice a <;> rw [hc] at h <;> simp only [mpiArgs, tcpArgs, sshArgs, clientArgs, localArgs] at h
  case ssh => cases hh : a.hosts <;> rw [hh] at h <;> cases h; simp
  case client => split at h <;> cases h; simp
  all_goals cases h; simp [mpiInit]

/-- Hypotheses of the theorems on the command line: two simulation workers and one more. -/
example : parse ⟨false, 0, 1⟩ { comms := some .loc, nsim := some 2, nres := some 8 }
    = .ok ⟨3, true, { comms := some .loc, nworkers := some 3, rsets := some 8 }⟩ := rfl

/-- C76 violated: the documentation says that with `--nsim_workers` and `--nworkers` "enough additional workers" are made; no worker is added: 4 workers stay 4
with 8 simulation workers asked for (and 8 resource sets). -/
theorem C76_cmd_additional_witness :
    parse ⟨false, 0, 1⟩ { comms := some .loc, nworkers := some 4, nsim := some 8 }
      = .ok ⟨4, true, { comms := some .loc, nworkers := some 4, rsets := some 8 }⟩ := rfl

/-- C76 violated: `--nworkers 0` gives 4 workers. -/
theorem C76_cmd_zero_witness : ∃ p, parse ⟨false, 0, 1⟩ { nworkers := some 0 } = .ok p ∧ p.nworkers = 4 := ⟨_, rfl, by decide⟩

/-! ### Communicator -/

/-- What an object of settings was before and is after a step. -/
theorem steps_append (e : Env) (w : World) (l m : List Op) : steps e w (l ++ m) = steps e (steps e w l) m := by
  induction l generalizing w with
  | nil => rfl
  | cons a l ih => exact ih _

/-- No step changes what an ensemble takes for its communicator, nor whether it takes itself for the manager. -/
theorem step_known {e : Env} {w : World} {k : Nat} {x : Ens} (op : Op) (h : w.ens[k]? = some x) :
    ∃ x', (step e w op).1.ens[k]? = some x' ∧ x'.known = x.known ∧ x'.isManager = x.isManager := by
  have hk : k < w.ens.length := (List.getElem?_eq_some_iff.mp h).1
  have hset : ∀ (j : Nat) (y y' : Ens), w.ens[j]? = some y → y'.known = y.known → y'.isManager = y.isManager →
      ∃ x', (w.ens.set j y')[k]? = some x' ∧ x'.known = x.known ∧ x'.isManager = x.isManager := by
    intro j y y' hj hy hm
    by_cases hjk : j = k
    · subst hjk
      rw [h] at hj
      cases hj
      exact ⟨y', by simp [hk], hy, hm⟩
    · exact ⟨x, by rw [List.getElem?_set_ne hjk, h], rfl, rfl⟩
  cases op with
  | create arg cli =>
    unfold step
    dsimp only
    split
    · exact ⟨x, by simp only [List.getElem?_append_left hk, h], rfl, rfl⟩
    · exact ⟨x, h, rfl, rfl⟩
  | object d => unfold step; dsimp only; split <;> exact ⟨x, h, rfl, rfl⟩
  | specs j new =>
    unfold step
    dsimp only
    split
    · exact ⟨x, h, rfl, rfl⟩
    · rename_i y hy
      split
      · exact ⟨x, h, rfl, rfl⟩
      · exact hset j y _ hy rfl rfl
  | workers j v =>
    unfold step
    dsimp only
    split
    · exact ⟨x, h, rfl, rfl⟩
    · rename_i y hy
      (repeat' split) <;> exact hset j y _ hy rfl rfl
  | comms i c =>
    unfold step
    dsimp only
    (repeat' split) <;> exact ⟨x, h, rfl, rfl⟩

theorem steps_known {e : Env} {k : Nat} (ops : List Op) {w : World} {x : Ens} (h : w.ens[k]? = some x) :
    ∃ x', (steps e w ops).ens[k]? = some x' ∧ x'.known = x.known ∧ x'.isManager = x.isManager := by
  induction ops generalizing w x with
  | nil => exact ⟨x, h, rfl, rfl⟩
  | cons op ops ih =>
    obtain ⟨x1, h1, e1, m1⟩ := step_known (e := e) op h
    obtain ⟨x2, h2, e2, m2⟩ := ih h1
    exact ⟨x2, h2, e2.trans e1, m2.trans m1⟩

theorem check_comms {o o' : Obj} (h : check o = .ok o') :
    o'.comms = o.comms ∧ o'.nworkers = o.nworkers ∧ o'.hosts = o.hosts ∧ o'.rsets = o.rsets ∧ o'.workerID = o.workerID ∧ o'.rest = o.rest := by
  unfold check at h
  split at h
  · cases h
  · split at h
    · cases h
    · cases h
      split <;> simp

theorem launch_comms {e : Env} {o : Obj} {l : Launch} (h : launch e o = .ok l) : l.comms = o.comms := by
  unfold launch at h
  split at h
  · cases h; simp_all
  · cases h; simp_all
  · split at h <;> cases h; simp_all
  · (repeat' split at h) <;> cases h <;> simp_all

/-- What a run that starts went through. -/
theorem run_ok {e : Env} {w : World} {x : Ens} {l : Launch} (h : run e w x = .ok l) :
    ∃ i o o', x.ref = some i ∧ w.objs[i]? = some o ∧ some o.comms = x.known ∧ check o = .ok o' ∧ launch e o' = .ok l := by
  unfold run at h
  split at h
  · cases h
  · rename_i o ho
    split at h
    · cases h
    · rename_i hne
      split at h
      · cases h
      · rename_i o' hc
        cases hr : x.ref with
        | none => rw [hr] at ho; cases ho
        | some i =>
          rw [hr] at ho
          exact ⟨i, o, o', rfl, ho, Classical.not_not.mp hne, hc, h⟩

/-- C76: whatever a script does after it made an ensemble (making further ensembles, setting their settings, writing into the objects), if the ensemble's `run`
starts, then with the communicator that the ensemble had when it was made. -/
theorem C76_comms {e : Env} {w : World} {k : Nat} {x : Ens} (ops : List Op) (h : w.ens[k]? = some x) :
    ∃ x', (steps e w ops).ens[k]? = some x' ∧ ∀ l, run e (steps e w ops) x' = .ok l → x.known = some l.comms := by
  obtain ⟨x', hx, hk, _⟩ := steps_known (e := e) ops h
  refine ⟨x', hx, fun l hl => ?_⟩
  obtain ⟨i, o, o', _, _, h3, h4, h5⟩ := run_ok hl
  rw [← hk, ← h3, launch_comms h5, (check_comms h4).1]

/-- What a successful construction gives: the objects and the ensemble at the end. -/
theorem create_step {e : Env} {w w' : World} {arg : Arg} {cli : Option Args} (h : step e w (.create arg cli) = (w', none)) :
    ∃ x, create e w.objs arg cli = (w'.objs, .ok x) ∧ w'.ens = w.ens ++ [x] := by
  unfold step at h
  dsimp only at h
  split at h
  · rename_i objs x hc
    cases h
    exact ⟨x, hc, rfl⟩
  · cases h

theorem finish_known {e : Env} {objs : List Obj} {ref : Option Nat} {cli : Option Parsed} {x : Ens} (h : finish e objs ref cli = .ok x) :
    x.known = (ref.bind fun i => objs[i]?).map (·.comms) ∧ x.ref = ref := by
  unfold finish at h
  dsimp only at h
  split at h
  · split at h
    · cases h
    · cases h; exact ⟨rfl, rfl⟩
  · split at h <;> cases h <;> exact ⟨rfl, rfl⟩

theorem build_ok {e : Env} {d : Dict} {o : Obj} (h : build e d = .ok o) :
    o.comms = defaultComms e d ∧ o.nworkers = d.nworkers.getD 0 ∧ o.hosts = d.hosts.getD [] ∧ o.rsets = d.rsets.getD 0 ∧ o.workerID = d.workerID
      ∧ o.rest = d.rest := by
  unfold build at h
  split at h
  · exact check_comms h
  · cases h

theorem build_append {e : Env} {d : Dict} {objs objs' : List Obj} {i : Nat}
    (h : ((build e d).map fun o => (objs ++ [o], objs.length)) = .ok (objs', i)) : ∃ o, build e d = .ok o ∧ objs' = objs ++ [o] ∧ i = objs.length := by
  cases hb : build e d with
  | error r => rw [hb] at h; cases h
  | ok o => rw [hb] at h; cases h; exact ⟨o, rfl, rfl, rfl⟩

/-- The object of an ensemble made with the command line. -/
theorem merge_ok {e : Env} {objs objs' : List Obj} {arg : Arg} {d : Dict} {i : Nat} (h : merge e objs arg d = .ok (objs', i)) :
    (∃ o, build e d = .ok o ∧ objs' = objs ++ [o] ∧ i = objs.length)
    ∨ (∃ o, objs[i]? = some o ∧ objs' = objs.set i (o.update d)) := by
  unfold merge at h
  dsimp only at h
  split at h
  · exact .inl (build_append h)
  · split at h
    · exact .inl (build_append h)
    · cases h
  · split at h
    · rename_i o ho
      cases h
      exact .inr ⟨o, ho, rfl⟩
    · cases h
  · rename_i j
    split at h
    · rename_i o ho
      cases h
      exact .inr ⟨o, ho, rfl⟩
    · cases h

/-- The object of settings with which an ensemble starts, if the command line gave `d` with a communicator. -/
theorem merge_obj {e : Env} {objs objs' : List Obj} {arg : Arg} {d : Dict} {i : Nat} {c : Comms} (h : merge e objs arg d = .ok (objs', i))
    (hc : d.comms = some c) : ∃ o, objs'[i]? = some o ∧ o.comms = c ∧ ∀ n, d.nworkers = some n → o.nworkers = n := by
  rcases merge_ok h with ⟨o, ho, rfl, rfl⟩ | ⟨o, ho, rfl⟩
  · refine ⟨o, by simp, ?_, ?_⟩
    · rw [(build_ok ho).1]; simp [defaultComms, hc]
    · intro n hn; rw [(build_ok ho).2.1, hn]; rfl
  · have hi := (List.getElem?_eq_some_iff.mp ho).1
    refine ⟨o.update d, by simp [hi], by simp [Obj.update, hc], ?_⟩
    intro n hn
    simp [Obj.update, hn]

/-- C76: the communicator of a new ensemble: with `parse_args=True` that of the command line, whatever `libE_specs` is; otherwise what the dictionary says, or
'local' for a dictionary with a number of workers, unless MPI is detected, or 'mpi'; the one of the object that is given; and none with `libE_specs=None`. -/
theorem C76_known {e : Env} {w w' : World} {arg : Arg} {cli : Option Args} (h : step e w (.create arg cli) = (w', none)) :
    ∃ x, w'.ens = w.ens ++ [x]
      ∧ (∀ a, cli = some a → x.known = some (choice a).comms)
      ∧ (∀ d c, cli = none → arg = .dict d → d.comms = some c → x.known = some c)
      ∧ (∀ d, cli = none → arg = .dict d → d.comms = none →
          x.known = some (if d.nworkers = none ∨ e.mpiEnv = true then .mpi else .loc))
      ∧ (∀ i o, cli = none → arg = .obj i → w.objs[i]? = some o → x.known = some o.comms)
      ∧ (cli = none → arg = .null → x.known = none) := by
  obtain ⟨x, hc, hx⟩ := create_step h
  refine ⟨x, hx, ?_, ?_, ?_, ?_, ?_⟩
  · rintro a rfl
    unfold create at hc
    dsimp only at hc
    cases hp : parse e a with
    | error r => rw [hp] at hc; cases (Prod.mk.inj hc).2
    | ok p =>
      rw [hp] at hc
      dsimp only at hc
      cases hm : merge e w.objs arg p.specs with
      | error r => rw [hm] at hc; cases (Prod.mk.inj hc).2
      | ok q =>
        obtain ⟨objs', i⟩ := q
        rw [hm] at hc
        obtain ⟨h1, h2⟩ := Prod.mk.inj hc
        have hpc : p.specs.comms = some (choice a).comms := by
          cases ha : a.comms with
          | some c => rw [(C76_cmd_comms hp).1 c ha]; simp [choice, ha]
          | none => rw [(C76_cmd_comms hp).2 ha]; unfold choice; rw [ha]; cases a.nworkers <;> simp [Choice.comms]
        obtain ⟨o, ho, hoc, _⟩ := merge_obj hm hpc
        rw [(finish_known h2).1]
        simp [ho, hoc]
  all_goals unfold create at hc
  · rintro d c rfl rfl hd
    dsimp only [adopt] at hc
    cases hb : build e d with
    | error r => rw [hb] at hc; cases (Prod.mk.inj hc).2
    | ok o =>
      rw [hb] at hc
      obtain ⟨h1, h2⟩ := Prod.mk.inj hc
      rw [(finish_known h2).1]
      simp [(build_ok hb).1, defaultComms, hd]
  · rintro d rfl rfl hd
    dsimp only [adopt] at hc
    cases hb : build e d with
    | error r => rw [hb] at hc; cases (Prod.mk.inj hc).2
    | ok o =>
      rw [hb] at hc
      obtain ⟨h1, h2⟩ := Prod.mk.inj hc
      rw [(finish_known h2).1]
      cases hn : d.nworkers <;> cases hm : e.mpiEnv <;> simp [(build_ok hb).1, defaultComms, hd, hn, hm]
  · rintro i o rfl rfl ho
    have hi := (List.getElem?_eq_some_iff.mp ho).1
    dsimp only [adopt] at hc
    rw [if_pos hi] at hc
    obtain ⟨h1, h2⟩ := Prod.mk.inj hc
    rw [(finish_known h2).1]
    simp [ho]
  · rintro rfl rfl
    dsimp only [adopt] at hc
    obtain ⟨h1, h2⟩ := Prod.mk.inj hc
    rw [(finish_known h2).1]
    rfl

/-- C76 violated: an ensemble made with `libE_specs=None` and without the command line never runs, whatever its settings are set to afterwards. -/
theorem C76_none_never {e : Env} {w : World} {k : Nat} {x : Ens} (ops : List Op) (h : w.ens[k]? = some x) (hx : x.known = none) :
    ∃ x', (steps e w ops).ens[k]? = some x' ∧ ∀ l, run e (steps e w ops) x' ≠ .ok l := by
  obtain ⟨x', h1, h2⟩ := C76_comms (e := e) ops h
  exact ⟨x', h1, fun l hl => by rw [hx] at h2; exact absurd (h2 l hl) nofun⟩

/-- Hypotheses of `C76_none_never`: such an ensemble that is given workers later has an object of settings, and does not run. -/
example : ∃ x, (steps ⟨false, 0, 1⟩ {} [.create .null none, .specs 0 (.dict { comms := some .loc, nworkers := some 4 })]).ens[0]? = some x ∧ x.known = none
    ∧ run ⟨false, 0, 1⟩ (steps ⟨false, 0, 1⟩ {} [.create .null none, .specs 0 (.dict { comms := some .loc, nworkers := some 4 })]) x = .error .changed :=
  ⟨_, rfl, rfl, rfl⟩

/-! ### Later settings -/

theorem lookup_append {α : Type} (l m : List (String × α)) (k : String) : (l ++ m).lookup k = (l.lookup k).or (m.lookup k) := by
  induction l with
  | nil => simp [Option.or]
  | cons p l ih =>
    obtain ⟨a, b⟩ := p
    simp only [List.cons_append, List.lookup]
    cases k == a <;> simp [ih]

/-- What the accepted setting of `libE_specs` does to the ensemble's object: `d` is taken over, without a communicator. -/
theorem set_ok {e : Env} {objs objs' : List Obj} {i : Nat} {o : Obj} {new : New} {r : Option Nat} (ho : objs[i]? = some o)
    (h : setSpecs e objs (some i) new = .ok (objs', r)) :
    ∃ d, News objs o new = .ok d ∧ d.comms = none ∧ r = some i ∧ objs' = objs.set i (o.update d) := by
  unfold setSpecs at h
  dsimp only at h
  rw [ho] at h
  dsimp only at h
  split at h
  · cases h
  · rename_i d hd
    split at h
    · cases h
    · rename_i hn
      cases h
      refine ⟨d, hd, ?_, rfl, rfl⟩
      cases hc : d.comms with
      | none => rfl
      | some c => rw [hc] at hn; exact absurd rfl hn

/-- C76: setting `libE_specs` of an ensemble to a dictionary takes over all that the dictionary has, and keeps everything else; other objects stay. -/
theorem C76_set_dict {e : Env} {objs objs' : List Obj} {i : Nat} {o : Obj} {d : Dict} {r : Option Nat} (ho : objs[i]? = some o)
    (h : setSpecs e objs (some i) (.dict d) = .ok (objs', r)) :
    r = some i ∧ (∀ j, j ≠ i → objs'[j]? = objs[j]?) ∧ ∃ o', objs'[i]? = some o'
      ∧ o'.comms = o.comms
      ∧ o'.nworkers = d.nworkers.getD o.nworkers ∧ o'.hosts = d.hosts.getD o.hosts ∧ o'.rsets = d.rsets.getD o.rsets
      ∧ o'.disableRM = d.disableRM.getD o.disableRM
      ∧ (∀ k v, d.rest.lookup k = some v → o'.rest.lookup k = some v)
      ∧ (∀ k, d.rest.lookup k = none → o'.rest.lookup k = o.rest.lookup k) := by
  obtain ⟨d', hd, hc, rfl, rfl⟩ := set_ok ho h
  cases hd
  have hi := (List.getElem?_eq_some_iff.mp ho).1
  refine ⟨rfl, fun j hj => List.getElem?_set_ne (Ne.symm hj), o.update d, by simp [hi], by simp [Obj.update, hc], rfl, rfl, rfl, rfl, ?_, ?_⟩
  · intro k v hk
    simp [Obj.update, lookup_append, hk]
  · intro k hk
    simp [Obj.update, lookup_append, hk]

theorem lookup_filter_absent (f : String → Option Int) (l : List (String × Int)) (k : String) (h : ∀ v, f k = some v → v = 0) :
    (l.filter fun p => (f p.1 == some p.2) && p.2 != 0).lookup k = none := by
  induction l with
  | nil => rfl
  | cons p l ih =>
    obtain ⟨a, b⟩ := p
    by_cases hp : ((f a == some b) && b != 0) = true
    · rw [show (List.filter (fun p : String × Int => (f p.1 == some p.2) && p.2 != 0) ((a, b) :: l)) = (a, b) :: l.filter (fun p => (f p.1 == some p.2) && p.2 != 0) from List.filter_cons_of_pos (p := fun p : String × Int => (f p.1 == some p.2) && p.2 != 0) hp]
      simp only [List.lookup]
      cases hk : k == a with
      | false => exact ih
      | true =>
        rw [beq_iff_eq] at hk
        subst hk
        simp only [Bool.and_eq_true, beq_iff_eq, bne_iff_ne, ne_eq] at hp
        exact absurd (h b hp.1) hp.2
    · rw [show (List.filter (fun p : String × Int => (f p.1 == some p.2) && p.2 != 0) ((a, b) :: l)) = l.filter (fun p => (f p.1 == some p.2) && p.2 != 0) from List.filter_cons_of_neg (p := fun p : String × Int => (f p.1 == some p.2) && p.2 != 0) hp]; exact ih

theorem lookup_filter_present (f : String → Option Int) (l : List (String × Int)) (k : String) (v : Int) (h : f k = some v) (h0 : v ≠ 0)
    (hm : (k, v) ∈ l) : (l.filter fun p => (f p.1 == some p.2) && p.2 != 0).lookup k = some v := by
  induction l with
  | nil => cases hm
  | cons p l ih =>
    obtain ⟨a, b⟩ := p
    by_cases hp : ((f a == some b) && b != 0) = true
    · rw [show (List.filter (fun p : String × Int => (f p.1 == some p.2) && p.2 != 0) ((a, b) :: l)) = (a, b) :: l.filter (fun p => (f p.1 == some p.2) && p.2 != 0) from List.filter_cons_of_pos (p := fun p : String × Int => (f p.1 == some p.2) && p.2 != 0) hp]
      simp only [List.lookup]
      cases hk : k == a with
      | false =>
        have : k ≠ a := by intro he; rw [he] at hk; simp at hk
        exact ih ((List.mem_cons.mp hm).resolve_left fun he => this (Prod.mk.inj he).1)
      | true =>
        rw [beq_iff_eq] at hk
        subst hk
        simp only [Bool.and_eq_true, beq_iff_eq] at hp
        rw [h] at hp
        exact congrArg some (Option.some.inj hp.1).symm
    · rw [show (List.filter (fun p : String × Int => (f p.1 == some p.2) && p.2 != 0) ((a, b) :: l)) = l.filter (fun p => (f p.1 == some p.2) && p.2 != 0) from List.filter_cons_of_neg (p := fun p : String × Int => (f p.1 == some p.2) && p.2 != 0) hp]
      refine ih ((List.mem_cons.mp hm).resolve_left fun he => hp ?_)
      obtain ⟨rfl, rfl⟩ := Prod.mk.inj he
      simp [h, h0]

theorem mem_of_lookup {l : List (String × Int)} {k : String} {v : Int} (h : l.lookup k = some v) : (k, v) ∈ l := by
  induction l with
  | nil => cases h
  | cons p l ih =>
    obtain ⟨a, b⟩ := p
    simp only [List.lookup] at h
    cases hk : k == a with
    | true =>
      rw [hk] at h
      rw [beq_iff_eq] at hk
      cases h
      rw [hk]
      exact .head _
    | false => rw [hk] at h; exact .tail _ (ih h)

/-- C76 (partial: a setting of the object that equals the default is not taken over, see `C76_reset_witness`; and objects with a number of workers are refused,
see `C76_class_refused`): setting `libE_specs` to an object takes over all its settings that differ from the defaults, and keeps everything else. -/
theorem C76_set_object_partial {e : Env} {objs objs' : List Obj} {i j : Nat} {o p : Obj} {r : Option Nat} (ho : objs[i]? = some o)
    (hp : objs[j]? = some p) (h : setSpecs e objs (some i) (.obj j) = .ok (objs', r)) :
    r = some i ∧ (∀ j, j ≠ i → objs'[j]? = objs[j]?) ∧ ∃ o', objs'[i]? = some o'
      ∧ o'.comms = o.comms
      ∧ o'.nworkers = (if p.nworkers = 0 then o.nworkers else p.nworkers)
      ∧ o'.hosts = (if p.hosts = [] then o.hosts else p.hosts)
      ∧ o'.rsets = (if p.rsets = 0 then o.rsets else p.rsets)
      ∧ o'.disableRM = (p.disableRM || o.disableRM)
      ∧ (∀ k v, p.rest.lookup k = some v → v ≠ 0 → o'.rest.lookup k = some v)
      ∧ (∀ k, (∀ v, p.rest.lookup k = some v → v = 0) → o'.rest.lookup k = o.rest.lookup k) := by
  obtain ⟨d', hd, hc, rfl, rfl⟩ := set_ok ho h
  unfold News at hd
  dsimp only at hd
  rw [hp] at hd
  dsimp only at hd
  split at hd
  · cases hd
  · cases hd
    have hi := (List.getElem?_eq_some_iff.mp ho).1
    refine ⟨rfl, fun j hj => List.getElem?_set_ne (Ne.symm hj), o.update p.dump, by simp [hi], by simp [Obj.update, hc], ?_, ?_, ?_, ?_, ?_, ?_⟩
    · simp only [Obj.update, Obj.dump, differ]; split <;> rfl
    · simp only [Obj.update, Obj.dump, differ]; split <;> rfl
    · simp only [Obj.update, Obj.dump, differ]; split <;> rfl
    · simp only [Obj.update, Obj.dump, differ]; cases p.disableRM <;> rfl
    · intro k v hk h0
      simp only [Obj.update, Obj.dump, lookup_append]
      rw [lookup_filter_present (fun k => p.rest.lookup k) p.rest k v hk h0 (mem_of_lookup hk)]
      rfl
    · intro k hk
      simp only [Obj.update, Obj.dump, lookup_append]
      rw [lookup_filter_absent (fun k => p.rest.lookup k) p.rest k hk]
      rfl

/-- C76 violated: an object with a number of workers and without a communicator is refused as the new settings of every ensemble that has settings, although the
communicator is the same: outside of MPI such an object has the communicator 'local', which "cannot be reset". -/
theorem C76_class_refused {e : Env} {objs : List Obj} {i j : Nat} {o p : Obj} {d : Dict} {n : Int} (he : e.mpiEnv = false) (hd : d.comms = none)
    (hn : d.nworkers = some n) (hb : build e d = .ok p) (ho : objs[i]? = some o) (hp : objs[j]? = some p) :
    setSpecs e objs (some i) (.obj j) = .error .overwrite := by
  have hc : p.comms = .loc := by rw [(build_ok hb).1]; simp [defaultComms, hd, hn, he]
  unfold setSpecs
  dsimp only
  rw [ho]
  dsimp only [News]
  rw [hp]
  dsimp only
  split
  · rename_i x hx
    split at hx
    · cases hx; rfl
    · cases hx
  · rename_i d' hx
    split at hx
    · cases hx
    · cases hx
      rw [if_pos]
      simp [Obj.dump, differ, hc]

/-- Hypotheses of the theorems on setters: a dictionary with 8 workers is taken over by an ensemble with 'local' and 4 workers, an object with 8 workers is
refused. -/
example : (step ⟨false, 0, 1⟩ (steps ⟨false, 0, 1⟩ {} [.create (.dict { nworkers := some 4 }) none]) (.specs 0 (.dict { nworkers := some 8, rest := [("safe_mode", 1)] })))
      = ({ objs := [{}, { comms := .loc, nworkers := 8, rest := [("safe_mode", 1)] }], ens := [⟨some 1, 0, true, some .loc⟩] }, none)
    ∧ (step ⟨false, 0, 1⟩ (steps ⟨false, 0, 1⟩ {} [.create (.dict { nworkers := some 4 }) none, .object { nworkers := some 8 }]) (.specs 0 (.obj 2))).2
      = some .overwrite := by decide

/-- Hypotheses of `C76_set_object_partial`: an object without a number of workers is taken over. -/
example : (step ⟨false, 0, 1⟩ (steps ⟨false, 0, 1⟩ {} [.create (.dict { nworkers := some 4 }) none, .object { rest := [("safe_mode", 1)] }]) (.specs 0 (.obj 2))).1.objs
      = [{}, { comms := .loc, nworkers := 4, rest := [("safe_mode", 1)] }, { rest := [("safe_mode", 1)] }] := by decide

/-- C76 violated: a setting that is set back to its default by an object is lost: `save_every_k_sims` stays 5 after
`ensemble.libE_specs = LibeSpecs(save_every_k_sims=0)`; with a dictionary it is 0. -/
theorem C76_reset_witness :
    let w := steps ⟨false, 0, 1⟩ {} [.create (.dict { nworkers := some 4, rest := [("save_every_k_sims", 5)] }) none, .object { rest := [("save_every_k_sims", 0)] }]
    ((step ⟨false, 0, 1⟩ w (.specs 0 (.obj 2))).1.objs[1]?.map fun o => o.rest.lookup "save_every_k_sims") = some (some 5)
    ∧ ((step ⟨false, 0, 1⟩ w (.specs 0 (.dict { rest := [("save_every_k_sims", 0)] }))).1.objs[1]?.map fun o => o.rest.lookup "save_every_k_sims") = some (some 0) := by
  decide

/-- C76 violated: a name that `LibeSpecs` does not have is refused in the constructor and accepted without a word by the setter. -/
theorem C76_typo_witness :
    (step ⟨false, 0, 1⟩ {} (.create (.dict { nworkers := some 4, rest := [("save_every_k_sim", 5)] }) none)).2 = some .refused
    ∧ (step ⟨false, 0, 1⟩ (steps ⟨false, 0, 1⟩ {} [.create (.dict { nworkers := some 4 }) none]) (.specs 0 (.dict { rest := [("save_every_k_sim", 5)] }))).2 = none := by
  decide

end Verif.Settings
