import Verif.Settings.Props
/-
C76: the number of workers, the manager, and ensembles next to each other.
-/
namespace Verif.Settings

/-! ### Number of workers -/

/-- What a script may do to its ensemble `k` without the number of workers in two places coming apart: settings by dictionaries without a number of workers, and
setting `nworkers` to a number that is not negative. -/
def Own (k : Nat) : Op → Prop
  | .specs j (.dict d) => j = k ∧ d.nworkers = none
  | .workers j v => j = k ∧ 0 ≤ v
  | _ => False

/-- Ensemble `k` has an object with the communicator `c`, and its number of workers is not another one than the object's. -/
def Agree (w : World) (k : Nat) (c : Comms) : Prop :=
  ∃ x i o, w.ens[k]? = some x ∧ x.ref = some i ∧ w.objs[i]? = some o ∧ o.comms = c ∧ x.known = some c ∧ (x.n = 0 ∨ x.n = o.nworkers)

theorem check_nonneg {o : Obj} {v : Int} (hc : o.comms = .loc ∨ o.comms = .threads) (hv : 0 ≤ v) :
    check { o with nworkers := v } = .ok { o with nworkers := v } := by
  unfold check
  rcases hc with hc | hc <;> simp [hc] <;> omega

theorem step_agree {e : Env} {w : World} {k : Nat} {c : Comms} {op : Op} (hc : c = .loc ∨ c = .threads) (ho : Own k op) (h : Agree w k c) :
    Agree (step e w op).1 k c := by
  obtain ⟨x, i, o, h1, h2, h3, h4, h5, h6⟩ := h
  have hk : k < w.ens.length := (List.getElem?_eq_some_iff.mp h1).1
  have hi : i < w.objs.length := (List.getElem?_eq_some_iff.mp h3).1
  cases op with
  | create arg cli => exact ho.elim
  | object d => exact ho.elim
  | comms i c => exact ho.elim
  | specs j new =>
    cases new with
    | obj m => exact ho.elim
    | dict d =>
      obtain ⟨rfl, hd⟩ : j = k ∧ d.nworkers = none := ho
      unfold step
      simp only [h1, h2]
      split
      · exact ⟨x, i, o, h1, h2, h3, h4, h5, h6⟩
      · rename_i objs ref hs
        obtain ⟨_, hd', hdc, rfl, rfl⟩ := set_ok h3 hs
        cases hd'
        refine ⟨{ x with ref := some i }, i, o.update d, by simp [hk], rfl, by simp [hi], ?_, h5, ?_⟩
        · simp [Obj.update, hdc, h4]
        · simpa [Obj.update, hd] using h6
  | workers j v =>
    obtain ⟨rfl, hv⟩ : j = k ∧ 0 ≤ v := ho
    unfold step
    simp only [h1, h2, Option.bind_some, h3, Option.map_some]
    rw [check_nonneg (by rw [h4]; exact hc) hv]
    exact ⟨{ x with n := v }, i, { o with nworkers := v }, by simp [hk, h2], h2, by simp [hi], h4, h5, .inr rfl⟩

theorem steps_agree {e : Env} {k : Nat} {c : Comms} (hc : c = .loc ∨ c = .threads) {ops : List Op} {w : World} (ho : ∀ op ∈ ops, Own k op)
    (h : Agree w k c) : Agree (steps e w ops) k c := by
  induction ops generalizing w with
  | nil => exact h
  | cons op ops ih => exact ih (fun o m => ho o (.tail _ m)) (step_agree hc (ho op (.head _)) h)

theorem finish_n {e : Env} {objs : List Obj} {ref : Option Nat} {cli : Option Parsed} {x : Ens} (h : finish e objs ref cli = .ok x)
    (hm : x.known ≠ some .mpi) : x.n = (cli.map (·.nworkers)).getD 0 := by
  have hk := (finish_known h).1
  unfold finish at h
  dsimp only at h
  split at h
  · split at h
    · cases h
    · cases h; rfl
  · split at h
    · rename_i hh
      exact absurd (hk.trans hh.1) hm
    · cases h; rfl

/-- A new ensemble whose communicator is 'local' or 'threads' agrees with its object. -/
theorem create_agree {e : Env} {w w' : World} {arg : Arg} {cli : Option Args} {x : Ens} {c : Comms} (hc : c = .loc ∨ c = .threads)
    (h : step e w (.create arg cli) = (w', none)) (hx : w'.ens[w.ens.length]? = some x) (hk : x.known = some c) : Agree w' w.ens.length c := by
  obtain ⟨y, hy, hens⟩ := create_step h
  have : y = x := by rw [hens] at hx; simpa using hx
  subst this
  have hm : y.known ≠ some .mpi := by rw [hk]; rcases hc with rfl | rfl <;> simp
  cases cli with
  | none =>
    unfold create at hy
    dsimp only at hy
    cases ha : adopt e w.objs arg with
    | error r => rw [ha] at hy; cases (Prod.mk.inj hy).2
    | ok q =>
      obtain ⟨objs', ref⟩ := q
      rw [ha] at hy
      obtain ⟨h1, h2⟩ := Prod.mk.inj hy
      obtain ⟨hk', hr⟩ := finish_known h2
      have hn := finish_n h2 hm
      rw [hk] at hk'
      cases hrr : ref with
      | none => rw [hrr] at hk'; cases hk'
      | some i =>
        cases ho : objs'[i]? with
        | none => rw [hrr] at hk'; simp [ho] at hk'
        | some o =>
          rw [hrr] at hk'
          simp only [Option.bind_some, ho, Option.map_some] at hk'
          exact ⟨y, i, o, hx, hr.trans hrr, by rw [← h1, ho], (Option.some.inj hk').symm, hk, .inl hn⟩
  | some a =>
    unfold create at hy
    dsimp only at hy
    cases hp : parse e a with
    | error r => rw [hp] at hy; cases (Prod.mk.inj hy).2
    | ok p =>
      rw [hp] at hy
      dsimp only at hy
      cases hmg : merge e w.objs arg p.specs with
      | error r => rw [hmg] at hy; cases (Prod.mk.inj hy).2
      | ok q =>
        obtain ⟨objs', i⟩ := q
        rw [hmg] at hy
        obtain ⟨h1, h2⟩ := Prod.mk.inj hy
        obtain ⟨hk', hr⟩ := finish_known h2
        have hn := finish_n h2 hm
        obtain ⟨cc, hcc⟩ : ∃ cc, p.specs.comms = some cc := by
          cases ha : a.comms with
          | some c => exact ⟨_, (C76_cmd_comms hp).1 c ha⟩
          | none => exact ⟨_, (C76_cmd_comms hp).2 ha⟩
        obtain ⟨o, ho, hoc, hon⟩ := merge_obj hmg hcc
        have hcce : cc = c := by
          rw [hk'] at hk
          simp only [Option.bind_some, ho, Option.map_some] at hk
          rw [← hoc]
          exact Option.some.inj hk
        subst hcce
        have hw := (C76_cmd_workers hp (by rcases hc with rfl | rfl <;> simp [hcc])).1
        refine ⟨y, i, o, hx, hr, by rw [← h1, ho], hoc, hk, .inr ?_⟩
        rw [hn, hon _ hw]
        rfl

/-- C76 (partial: a number of workers in later settings, and negative numbers, are excluded, see `C76_workers_witness`, `C76_refused_witness`; for 'tcp' see
`C76_hosts_witness`): an ensemble made in any way with the communicator 'local' or 'threads', whose script goes on with settings by dictionaries and by
`nworkers`, starts as many workers as its property `nworkers` says (the number for which random streams are made and that is written into the names of output
files). -/
theorem C76_workers_partial {e : Env} {w w1 : World} {arg : Arg} {cli : Option Args} {x : Ens} {c : Comms} (hc : c = .loc ∨ c = .threads)
    (h : step e w (.create arg cli) = (w1, none)) (hx : w1.ens[w.ens.length]? = some x) (hk : x.known = some c)
    (ops : List Op) (ho : ∀ op ∈ ops, Own w.ens.length op) :
    ∃ x', (steps e w1 ops).ens[w.ens.length]? = some x' ∧ ∀ l, run e (steps e w1 ops) x' = .ok l →
      l.comms = c ∧ l.role = .manager ((steps e w1 ops).nworkers x').toNat := by
  obtain ⟨x', i, o, h1, h2, h3, h4, h5, h6⟩ := steps_agree (e := e) hc ho (create_agree hc h hx hk)
  refine ⟨x', h1, fun l hl => ?_⟩
  obtain ⟨i', o', o'', g1, g2, g3, g4, g5⟩ := run_ok hl
  rw [h2] at g1; cases g1
  rw [h3] at g2; cases g2
  have hcc := check_comms g4
  have hnum : (steps e w1 ops).nworkers x' = o.nworkers := by
    unfold World.nworkers por
    simp only [h2, Option.bind_some, h3, Option.map_some, Option.getD_some]
    split
    · rfl
    · rename_i hne; exact h6.resolve_left hne
  rw [hnum]
  refine ⟨by rw [launch_comms g5, hcc.1, h4], ?_⟩
  unfold launch at g5
  rw [hcc.1, h4] at g5
  rcases hc with rfl | rfl <;> (cases g5; rw [hcc.2.1])

/-- Hypotheses of `C76_workers_partial`: the command line, a dictionary and `nworkers`. -/
example : run ⟨false, 0, 1⟩ (steps ⟨false, 0, 1⟩ {} [.create .dflt (some { nworkers := some 4 }), .specs 0 (.dict { rest := [("safe_mode", 1)] }), .workers 0 6])
    ⟨some 0, 6, true, some .loc⟩ = .ok ⟨.loc, .manager 6, true⟩
    ∧ (steps ⟨false, 0, 1⟩ {} [.create .dflt (some { nworkers := some 4 }), .specs 0 (.dict { rest := [("safe_mode", 1)] }), .workers 0 6]).ens
      = [⟨some 0, 6, true, some .loc⟩] := ⟨rfl, by decide⟩

/-- C76 violated: with the command line and later settings with a number of workers, 8 workers are started while `ensemble.nworkers` is 4; random streams are
then missing for 4 workers. -/
theorem C76_workers_witness :
    let w := steps ⟨false, 0, 1⟩ {} [.create .dflt (some { nworkers := some 4 }), .specs 0 (.dict { nworkers := some 8 })]
    w.ens = [⟨some 0, 4, true, some .loc⟩] ∧ w.nworkers ⟨some 0, 4, true, some .loc⟩ = 4
      ∧ run ⟨false, 0, 1⟩ w ⟨some 0, 4, true, some .loc⟩ = .ok ⟨.loc, .manager 8, true⟩ := ⟨by decide, by decide, rfl⟩

/-- C76 violated: `ensemble.nworkers = -1` is refused, yet `ensemble.nworkers` is -1 from then on; 4 workers are started. -/
theorem C76_refused_witness :
    let w := steps ⟨false, 0, 1⟩ {} [.create (.dict { nworkers := some 4 }) none]
    let w' := (step ⟨false, 0, 1⟩ w (.workers 0 (-1))).1
    (step ⟨false, 0, 1⟩ w (.workers 0 (-1))).2 = some .refused ∧ w'.ens = [⟨some 1, -1, true, some .loc⟩]
      ∧ w'.nworkers ⟨some 1, -1, true, some .loc⟩ = -1 ∧ run ⟨false, 0, 1⟩ w' ⟨some 1, -1, true, some .loc⟩ = .ok ⟨.loc, .manager 4, true⟩ :=
  ⟨by decide, by decide, by decide, rfl⟩

/-- C76 violated: three hosts on the command line (`--comms ssh`) with an object that has `nworkers=2`: two workers are started, and on no host of the list. -/
theorem C76_hosts_witness :
    let w := steps ⟨false, 0, 1⟩ {} [.object { comms := some .tcp, nworkers := some 2 }, .create (.obj 1) (some { comms := some .ssh, hosts := some ["a", "b", "c"] })]
    w.ens = [⟨some 1, 3, true, some .tcp⟩] ∧ run ⟨false, 0, 1⟩ w ⟨some 1, 3, true, some .tcp⟩ = .ok ⟨.tcp, .manager 2, false⟩ := ⟨by decide, rfl⟩

/-! ### The manager -/

/-- C76: with TCP no resources are managed, also if the settings came from the command line without being checked. -/
theorem C76_tcp_unmanaged {e : Env} {w : World} {x : Ens} {l : Launch} (h : run e w x = .ok l) (hc : l.comms = .tcp) : l.managed = false := by
  obtain ⟨i, o, o', _, _, _, h4, h5⟩ := run_ok h
  have hoc : o'.comms = .tcp := by rw [← launch_comms h5, hc]
  have hd : o'.disableRM = true := by
    have := (check_comms h4).1
    unfold check at h4
    split at h4
    · cases h4
    · split at h4
      · cases h4
      · cases h4
        rw [hoc] at this
        simp [← this]
  unfold launch at h5
  rw [hoc] at h5
  simp only [hd] at h5
  (repeat' split at h5) <;> cases h5 <;> rfl

/-- C76: a dictionary makes an object of settings exactly if all its names are known, it has no negative number of workers for 'local' or 'tcp', and for 'tcp' it
has a number of workers or hosts. -/
theorem C76_accepted {e : Env} {d : Dict} :
    (∃ o, build e d = .ok o) ↔ (∀ p ∈ d.rest, p.1 ∈ fields)
      ∧ (defaultComms e d = .loc ∨ defaultComms e d = .tcp → 0 ≤ d.nworkers.getD 0)
      ∧ (defaultComms e d = .tcp → 0 < d.nworkers.getD 0 ∨ d.hosts.getD [] ≠ []) := by
  unfold build
  by_cases hr : (d.rest.all fun p => fields.contains p.1) = true
  · rw [if_pos hr]
    have hr' : ∀ p ∈ d.rest, p.1 ∈ fields := by simpa [List.all_eq_true] using hr
    unfold check
    dsimp only
    by_cases h1 : (defaultComms e d = .loc ∨ defaultComms e d = .tcp) ∧ d.nworkers.getD 0 ≠ 0 ∧ d.nworkers.getD 0 < 1
    · rw [if_pos h1]
      refine ⟨fun ⟨o, ho⟩ => (nomatch ho), fun ⟨_, h2, _⟩ => ?_⟩
      have := h2 h1.1
      omega
    · rw [if_neg h1]
      have hnn : defaultComms e d = .loc ∨ defaultComms e d = .tcp → 0 ≤ d.nworkers.getD 0 := by
        intro hc
        apply Classical.byContradiction
        intro hlt
        exact h1 ⟨hc, by omega, by omega⟩
      by_cases h2 : defaultComms e d = .tcp ∧ d.nworkers.getD 0 = 0 ∧ d.hosts.getD [] = []
      · rw [if_pos h2]
        refine ⟨fun ⟨o, ho⟩ => (nomatch ho), fun ⟨_, _, h3⟩ => ?_⟩
        rcases h3 h2.1 with h | h
        · omega
        · exact absurd h2.2.2 h
      · rw [if_neg h2]
        refine ⟨fun _ => ⟨hr', hnn, fun hc => ?_⟩, fun _ => ⟨_, rfl⟩⟩
        by_cases hh : d.hosts.getD [] = []
        · left
          have := hnn (.inr hc)
          have : d.nworkers.getD 0 ≠ 0 := fun h0 => h2 ⟨hc, h0, hh⟩
          omega
        · exact .inr hh
  · rw [if_neg hr]
    refine ⟨fun ⟨o, ho⟩ => (nomatch ho), fun ⟨h1, _⟩ => absurd ?_ hr⟩
    simpa [List.all_eq_true] using h1

/-- C76: a team that is started has a worker, unless the number of workers in the settings is 0 or negative; with MPI and TCP always. -/
theorem C76_team_partial {e : Env} {w : World} {x : Ens} {l : Launch} {m : Nat} (h : run e w x = .ok l) (hr : l.role = .manager m) :
    1 ≤ m ∨ (l.comms = .loc ∨ l.comms = .threads) ∧ ∃ i o, x.ref = some i ∧ w.objs[i]? = some o ∧ o.nworkers ≤ 0 := by
  obtain ⟨i, o, o', h1, h2, _, h4, h5⟩ := run_ok h
  have hcc := check_comms h4
  have hch : o.comms = .tcp → o.nworkers ≠ 0 → 1 ≤ o.nworkers := by
    intro hc hn
    unfold check at h4
    split at h4
    · cases h4
    · rename_i hh
      apply Classical.byContradiction
      intro hlt
      exact hh ⟨.inr hc, hn, by omega⟩
  have hpos : ∀ o'' : Obj, o''.nworkers = o.nworkers → 1 ≤ o''.nworkers.toNat ∨ o.nworkers ≤ 0 := by intro o'' ho; omega
  unfold launch at h5
  split at h5
  · cases h5
    cases hr
    rcases hpos o' hcc.2.1 with h | h
    · exact .inl h
    · exact .inr ⟨.inl rfl, i, o, h1, h2, h⟩
  · cases h5
    cases hr
    rcases hpos o' hcc.2.1 with h | h
    · exact .inl h
    · exact .inr ⟨.inr rfl, i, o, h1, h2, h⟩
  · split at h5
    · cases h5
      dsimp only at hr
      split at hr
      · cases hr; exact .inl (by omega)
      · cases hr
    · cases h5
  · rename_i htcp
    split at h5
    · cases h5; cases hr
    · split at h5
      · rename_i hn
        cases h5
        cases hr
        have := hch (hcc.1 ▸ htcp) (hcc.2.1 ▸ hn)
        have := hcc.2.1
        exact .inl (by omega)
      · split at h5
        · rename_i hh
          cases h5
          cases hr
          refine .inl ?_
          cases hl : o'.hosts with
          | nil => exact absurd hl hh
          | cons a l => simp
        · cases h5

/-- C76: the team of a run with TCP or MPI: the number of workers of the settings, or with TCP and without it one worker for each host; with MPI one for each other
process. -/
theorem C76_team_size {e : Env} {w : World} {x : Ens} {l : Launch} {m : Nat} (h : run e w x = .ok l) (hr : l.role = .manager m) :
    ∃ i o, x.ref = some i ∧ w.objs[i]? = some o ∧ o.comms = l.comms
      ∧ (l.comms = .mpi → m + 1 = e.size)
      ∧ (l.comms ≠ .mpi → o.nworkers ≠ 0 → m = o.nworkers.toNat)
      ∧ (l.comms = .tcp → o.nworkers = 0 → m = o.hosts.length) := by
  obtain ⟨i, o, o', h1, h2, _, h4, h5⟩ := run_ok h
  have hcc := check_comms h4
  refine ⟨i, o, h1, h2, by rw [launch_comms h5, hcc.1], ?_⟩
  rw [launch_comms h5]
  unfold launch at h5
  rw [← hcc.2.1, ← hcc.2.2.1]
  split at h5
  · rename_i hh; cases h5; cases hr; simp [hh]
  · rename_i hh; cases h5; cases hr; simp [hh]
  · rename_i hh
    split at h5
    · cases h5
      dsimp only at hr
      split at hr
      · cases hr; simp [hh]; omega
      · cases hr
    · cases h5
  · rename_i hh
    split at h5
    · cases h5; cases hr
    · split at h5
      · rename_i hn; cases h5; cases hr; simp [hh, hn]
      · split at h5
        · rename_i hn _; cases h5; cases hr
          have : o'.nworkers = 0 := Classical.not_not.mp hn
          simp [hh, this]
        · cases h5

/-- Hypotheses of `C76_accepted` and `C76_team_size`: three hosts and no number of workers. -/
example : (∃ o, build ⟨false, 0, 1⟩ { comms := some .tcp, hosts := some ["a", "b", "c"] } = .ok o)
    ∧ (steps ⟨false, 0, 1⟩ {} [.create (.dict { comms := some .tcp, hosts := some ["a", "b", "c"] }) none]).ens = [⟨some 1, 0, false, some .tcp⟩]
    ∧ run ⟨false, 0, 1⟩ (steps ⟨false, 0, 1⟩ {} [.create (.dict { comms := some .tcp, hosts := some ["a", "b", "c"] }) none]) ⟨some 1, 0, false, some .tcp⟩
      = .ok ⟨.tcp, .manager 3, false⟩ := ⟨⟨_, rfl⟩, by decide, rfl⟩

/-- C76 violated: 'local' or 'threads' with no worker at all: refused by `Ensemble` for 'local', but not for 'threads', and not if the number is set later. -/
theorem C76_team_witness :
    (step ⟨false, 0, 1⟩ {} (.create (.dict { comms := some .loc }) none)).2 = some .workers
    ∧ run ⟨false, 0, 1⟩ (steps ⟨false, 0, 1⟩ {} [.create (.dict { comms := some .threads }) none]) ⟨some 1, 0, false, some .threads⟩
      = .ok ⟨.threads, .manager 0, true⟩
    ∧ run ⟨false, 0, 1⟩ (steps ⟨false, 0, 1⟩ {} [.create (.dict { comms := some .loc, nworkers := some 4 }) none, .workers 0 0]) ⟨some 1, 0, true, some .loc⟩
      = .ok ⟨.loc, .manager 0, true⟩ := ⟨by decide, rfl, rfl⟩

/-- Whether a run makes this process the manager. -/
def Role.isManager : Role → Bool
  | .manager _ => true
  | .worker => false

theorem finish_manager {e : Env} {objs : List Obj} {ref : Option Nat} {cli : Option Parsed} {x : Ens} (h : finish e objs ref cli = .ok x) :
    x.isManager = if x.known = some .loc then true else if x.known = some .mpi ∧ cli.isNone then e.rank == 0 else (cli.map (·.isManager)).getD false := by
  have hk := (finish_known h).1
  unfold finish at h
  dsimp only at h
  split at h
  · rename_i hh
    rw [if_pos (hk.trans hh)]
    split at h
    · cases h
    · cases h; rfl
  · rename_i hh
    rw [if_neg (fun he => hh (hk.symm.trans he))]
    split at h
    · rename_i h2
      rw [if_pos ⟨hk.trans h2.1, h2.2⟩]
      cases h; rfl
    · rename_i h2
      rw [if_neg (fun he => h2 ⟨hk.symm.trans he.1, he.2⟩)]
      cases h; rfl

/-- C76 (partial: not for 'threads' and 'tcp' without the command line, see `C76_manager_witness`): an ensemble made with 'local' or 'mpi', or with 'threads' from
the command line, takes itself for the manager exactly if its run, whenever it is started and whatever the script did before, makes this process the manager. -/
theorem C76_manager_partial {e : Env} {w w1 : World} {arg : Arg} {cli : Option Args} {x : Ens}
    (h : step e w (.create arg cli) = (w1, none)) (hx : w1.ens[w.ens.length]? = some x)
    (hk : x.known = some .loc ∨ x.known = some .mpi ∨ x.known = some .threads ∧ cli.isSome) (ops : List Op) :
    ∃ x', (steps e w1 ops).ens[w.ens.length]? = some x' ∧ ∀ l, run e (steps e w1 ops) x' = .ok l → x'.isManager = l.role.isManager := by
  obtain ⟨x', h1, h2, h3⟩ := steps_known (e := e) ops hx
  refine ⟨x', h1, fun l hl => ?_⟩
  rw [h3]
  obtain ⟨i, o, o', _, _, g3, g4, g5⟩ := run_ok hl
  have hoc : some o'.comms = x.known := by rw [(check_comms g4).1, g3, h2]
  obtain ⟨y, hy, hens⟩ := create_step h
  have : y = x := by rw [hens] at hx; simpa using hx
  subst this
  have hman : y.isManager = (match y.known with | some .mpi => e.rank == 0 | _ => true) := by
    cases cli with
    | none =>
      unfold create at hy
      dsimp only at hy
      cases ha : adopt e w.objs arg with
      | error r => rw [ha] at hy; cases (Prod.mk.inj hy).2
      | ok q =>
        rw [ha] at hy
        rw [finish_manager (Prod.mk.inj hy).2]
        rcases hk with hk | hk | ⟨_, hk⟩
        · simp [hk]
        · simp [hk]
        · cases hk
    | some a =>
      unfold create at hy
      dsimp only at hy
      cases hp : parse e a with
      | error r => rw [hp] at hy; cases (Prod.mk.inj hy).2
      | ok p =>
        rw [hp] at hy
        dsimp only at hy
        cases hmg : merge e w.objs arg p.specs with
        | error r => rw [hmg] at hy; cases (Prod.mk.inj hy).2
        | ok q =>
          rw [hmg] at hy
          have hch : y.known = some (choice a).comms := by
            obtain ⟨z, hz, hz2, _⟩ := C76_known h
            have : z = y := by rw [hz] at hx; simpa using hx
            rw [← this]
            exact hz2 a rfl
          rw [finish_manager (Prod.mk.inj hy).2]
          have hcm := (C76_cmd_manager hp).1
          have hval : p.isManager = !decide (choice a = .client ∨ choice a = .mpi ∧ e.rank ≠ 0) := by
            cases hq : p.isManager with
            | false => simp [hcm.mp hq]
            | true =>
              have hno : ¬ (choice a = .client ∨ choice a = .mpi ∧ e.rank ≠ 0) := fun hh => by
                have := hcm.mpr hh
                rw [hq] at this
                cases this
              rw [decide_eq_false hno]
              rfl
          simp only [Option.map_some, Option.getD_some, Option.isNone_some, Bool.false_eq_true, and_false, if_false, hval]
          rw [hch] at hk ⊢
          cases hcc : choice a <;> rw [hcc] at hk <;> simp_all [Choice.comms]
          cases e.rank <;> rfl
  rw [hman, ← hoc]
  rw [← hoc] at hk
  unfold launch at g5
  split at g5
  · rename_i hh; cases g5; rw [hh]; rfl
  · rename_i hh; cases g5; rw [hh]; rfl
  · rename_i hh
    split at g5
    · cases g5
      rw [hh]
      dsimp only
      cases e.rank <;> rfl
    · cases g5
  · rename_i hh
    rw [hh] at hk
    simp at hk

/-- Hypotheses of `C76_manager_partial`: a process of rank 1. -/
example : (step ⟨true, 1, 3⟩ {} (.create (.dict { nworkers := some 2 }) none)).1.ens = [⟨some 1, 2, false, some .mpi⟩]
    ∧ run ⟨true, 1, 3⟩ (step ⟨true, 1, 3⟩ {} (.create (.dict { nworkers := some 2 }) none)).1 ⟨some 1, 2, false, some .mpi⟩ = .ok ⟨.mpi, .worker, true⟩ :=
  ⟨by decide, rfl⟩

/-- C76 violated: with 'threads' or 'tcp' in `libE_specs` and without the command line, the process runs the manager and `is_manager` is false; `save_output`
then writes nothing. -/
theorem C76_manager_witness :
    (steps ⟨false, 0, 1⟩ {} [.create (.dict { comms := some .threads, nworkers := some 4 }) none]).ens = [⟨some 1, 0, false, some .threads⟩]
    ∧ run ⟨false, 0, 1⟩ (steps ⟨false, 0, 1⟩ {} [.create (.dict { comms := some .threads, nworkers := some 4 }) none]) ⟨some 1, 0, false, some .threads⟩
      = .ok ⟨.threads, .manager 4, true⟩
    ∧ (steps ⟨false, 0, 1⟩ {} [.create (.dict { comms := some .tcp, nworkers := some 4 }) none]).ens = [⟨some 1, 0, false, some .tcp⟩]
    ∧ run ⟨false, 0, 1⟩ (steps ⟨false, 0, 1⟩ {} [.create (.dict { comms := some .tcp, nworkers := some 4 }) none]) ⟨some 1, 0, false, some .tcp⟩
      = .ok ⟨.tcp, .manager 4, false⟩ := ⟨by decide, rfl, by decide, rfl⟩

/-! ### Ensembles next to each other -/

/-- The object that a step may write into: that of the ensemble, or the one that is given to a constructor that reads the command line. -/
def Touches (w : World) (i : Nat) : Op → Prop
  | .create arg (some _) => arg = .obj i ∨ arg = .dflt ∧ i = 0
  | .specs k _ => ∃ x, w.ens[k]? = some x ∧ x.ref = some i
  | .workers k _ => ∃ x, w.ens[k]? = some x ∧ x.ref = some i
  | .comms j _ => j = i
  | _ => False

theorem step_untouched {e : Env} {w : World} {i : Nat} {o : Obj} (op : Op) (h : w.objs[i]? = some o) (ht : ¬ Touches w i op) :
    (step e w op).1.objs[i]? = some o := by
  have hi : i < w.objs.length := (List.getElem?_eq_some_iff.mp h).1
  have happ : ∀ p, (w.objs ++ [p])[i]? = some o := fun p => by rw [List.getElem?_append_left hi, h]
  have hset : ∀ j p, j ≠ i → (w.objs.set j p)[i]? = some o := fun j p hj => by rw [List.getElem?_set_ne hj, h]
  cases op with
  | create arg cli =>
    have key : (create e w.objs arg cli).1[i]? = some o := by
      unfold create
      cases cli with
      | none =>
        dsimp only
        cases arg with
        | dict d => dsimp only [adopt]; cases build e d <;> first | exact h | exact happ _
        | null => exact h
        | dflt => exact h
        | obj j => dsimp only [adopt]; split <;> (try exact h); rename_i hh; split at hh <;> cases hh; exact h
      | some a =>
        dsimp only
        split
        · exact h
        · split
          · exact h
          · rename_i objs' j hm
            dsimp only
            unfold merge at hm
            dsimp only at hm
            split at hm
            · obtain ⟨p, _, rfl, _⟩ := build_append hm; exact happ p
            · split at hm
              · obtain ⟨p, _, rfl, _⟩ := build_append hm; exact happ p
              · cases hm
            · split at hm
              · cases hm
                exact hset 0 _ fun h0 => ht (.inr ⟨rfl, h0.symm⟩)
              · cases hm
            · split at hm
              · cases hm
                exact hset _ _ fun h0 => ht (.inl (by rw [h0]))
              · cases hm
    unfold step
    dsimp only
    split
    · rename_i objs x hc; rw [hc] at key; exact key
    · rename_i objs r hc; rw [hc] at key; exact key
  | object d => unfold step; dsimp only; split <;> first | exact h | exact happ _
  | specs k new =>
    unfold step
    dsimp only
    split
    · exact h
    · rename_i x hx
      split
      · exact h
      · rename_i objs ref hs
        dsimp only
        unfold setSpecs at hs
        split at hs
        · split at hs
          · rename_i d
            cases hb : build e d with
            | error r => rw [hb] at hs; cases hs
            | ok p => rw [hb] at hs; cases hs; exact happ p
          · split at hs <;> cases hs; exact h
        · rename_i j hj
          (repeat' split at hs) <;> cases hs
          exact hset j _ fun h0 => ht ⟨x, hx, by rw [hj, h0]⟩
  | workers k v =>
    unfold step
    dsimp only
    split
    · exact h
    · rename_i x hx
      split
      · exact h
      · rename_i j p hj
        have hjr : x.ref = some j := by
          cases hr : x.ref with
          | none => rw [hr] at hj; cases hj
          | some m =>
            rw [hr] at hj
            simp only [Option.bind_some, Option.map_eq_some_iff] at hj
            obtain ⟨_, _, hh⟩ := hj
            cases hh
            rfl
        split
        · exact h
        · exact hset j _ fun h0 => ht ⟨x, hx, by rw [hjr, h0]⟩
  | comms j c =>
    unfold step
    dsimp only
    (repeat' split) <;> first | exact h | exact hset j _ fun h0 => ht h0

/-- No step of a script writes into object `i` or sets something at ensemble `k`. -/
def Apart (e : Env) (k i : Nat) : World → List Op → Prop
  | _, [] => True
  | w, op :: ops => (¬ Touches w i op ∧ (∀ new, op ≠ .specs k new) ∧ ∀ v, op ≠ .workers k v) ∧ Apart e k i (step e w op).1 ops

theorem step_other {e : Env} {w : World} {k : Nat} {x : Ens} (op : Op) (h : w.ens[k]? = some x) (h1 : ∀ new, op ≠ .specs k new)
    (h2 : ∀ v, op ≠ .workers k v) : (step e w op).1.ens[k]? = some x := by
  have hk : k < w.ens.length := (List.getElem?_eq_some_iff.mp h).1
  cases op with
  | create arg cli =>
    unfold step
    dsimp only
    split
    · exact (List.getElem?_append_left hk).trans h
    · exact h
  | object d => unfold step; dsimp only; split <;> exact h
  | specs j new =>
    have hjk : j ≠ k := fun he => h1 new (by rw [he])
    unfold step
    dsimp only
    (repeat' split) <;> first | exact h | exact (List.getElem?_set_ne hjk).trans h
  | workers j v =>
    have hjk : j ≠ k := fun he => h2 v (by rw [he])
    unfold step
    dsimp only
    (repeat' split) <;> first | exact h | exact (List.getElem?_set_ne hjk).trans h
  | comms i c => unfold step; dsimp only; (repeat' split) <;> exact h

/-- C76 (partial: objects of settings may be shared, see `C76_shared_witness`): an ensemble runs as before, with the same number of workers, after a script has
made and set other ensembles that have other objects of settings. -/
theorem C76_alone_partial {e : Env} {k i : Nat} (ops : List Op) {w : World} {x : Ens} {o : Obj} (h : w.ens[k]? = some x) (hr : x.ref = some i)
    (ho : w.objs[i]? = some o) (ha : Apart e k i w ops) :
    (steps e w ops).ens[k]? = some x ∧ run e (steps e w ops) x = run e w x ∧ (steps e w ops).nworkers x = w.nworkers x := by
  have key : (steps e w ops).ens[k]? = some x ∧ (steps e w ops).objs[i]? = some o := by
    induction ops generalizing w with
    | nil => exact ⟨h, ho⟩
    | cons op ops ih =>
      obtain ⟨⟨a1, a2, a3⟩, a4⟩ := ha
      exact ih (step_other op h a2 a3) (step_untouched op ho a1) a4
  refine ⟨key.1, ?_, ?_⟩
  · unfold run; simp only [hr, Option.bind_some, key.2, ho]
  · unfold World.nworkers; simp only [hr, Option.bind_some, key.2, ho]

/-- C76: an ensemble made with a dictionary gets an object of its own, which no ensemble had before. -/
theorem C76_fresh {e : Env} {w w' : World} {d : Dict} (h : step e w (.create (.dict d) none) = (w', none)) :
    ∃ x, w'.ens = w.ens ++ [x] ∧ x.ref = some w.objs.length := by
  obtain ⟨x, hc, hx⟩ := create_step h
  refine ⟨x, hx, ?_⟩
  unfold create at hc
  dsimp only [adopt] at hc
  cases hb : build e d with
  | error r => rw [hb] at hc; cases (Prod.mk.inj hc).2
  | ok o =>
    rw [hb] at hc
    exact (finish_known (Prod.mk.inj hc).2).2

/-- Hypotheses of `C76_alone_partial`: a second ensemble, with 8 workers. -/
example : Apart ⟨false, 0, 1⟩ 0 1 (steps ⟨false, 0, 1⟩ {} [.create (.dict { nworkers := some 4 }) none])
    [.create (.dict { nworkers := some 2 }) none, .workers 1 8] := by
  refine ⟨⟨nofun, nofun, nofun⟩, ⟨?_, nofun, ?_⟩, trivial⟩
  · rintro ⟨x, h1, h2⟩
    cases h1
    revert h2
    decide
  · intro v hv
    cases hv

/-- C76 violated: the default of `libE_specs` is one object for all ensembles of a process. After an ensemble with the command line `-n 4`, an ensemble made
without anything is 'local' with 4 workers (in a new process: 'mpi'); setting `nworkers` of the second sets that of the first one's run. -/
theorem C76_shared_witness :
    let w := steps ⟨false, 0, 1⟩ {} [.create .dflt (some { nworkers := some 4 }), .create .dflt none]
    w.ens = [⟨some 0, 4, true, some .loc⟩, ⟨some 0, 0, true, some .loc⟩]
    ∧ (steps ⟨false, 0, 1⟩ {} [.create .dflt none]).ens = [⟨some 0, 0, true, some .mpi⟩]
    ∧ run ⟨false, 0, 1⟩ (step ⟨false, 0, 1⟩ w (.workers 1 8)).1 ⟨some 0, 4, true, some .loc⟩ = .ok ⟨.loc, .manager 8, true⟩ :=
  ⟨by decide, by decide, rfl⟩

end Verif.Settings
