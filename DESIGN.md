# Verification design

Target: libEnsemble, source in `/repo` (read only as text, never run).
Model and proofs: Lean 4.33.0, Lake project in `lean/`.

## Plan per property

| id | property | model part | how it will be proved |
|---|---|---|---|
| C01 | Row i of the history has sim_id i | History | Invariant over all operation lists of the history state machine: row i < index has sim_id i, rows beyond have -1. |
| C02 | Generated points are never lost, reordered or altered | History | Refinement: visible rows after an append = old visible rows ++ returned points (field by field). |
| C03 | The history never runs out of space and hidden rows stay hidden | History | Invariant index ≤ allocated rows, all update indices < allocated rows; by induction over operations. |
| C04 | Safe mode protects the bookkeeping fields from user functions | History | Exceptions as values with the partially updated state; frame lemma: protected fields of all rows equal before/after the data-writing phase. |
| C05 | A generator is marked informed only of evaluated points | History | Invariant gen_informed → sim_ended by induction over operations. |
| C06 | The generating worker of a point is recorded once | History | Once gen_ended_time ≠ 0 the three fields are constant; induction over operations. |
| C07 | A simulation return changes exactly the rows it was computed for | History | Frame theorem plus pointwise characterisation of written rows. |
| C08 | Prepended history is preserved and not charged to this run | History | Direct theorem on the initialiser for every subset of present columns. |
| C09 | A worker never receives a second task while it is busy | Manager | State machine with the allocation answer as an arbitrary input; every send event satisfies the idle predicate in the pre-state. |
| C10 | Evaluated implies given | Manager | Invariant over reachable states of manager + worker channels. |
| C11 | No point is evaluated twice | Manager+Alloc | Run-level invariant: the trace of row hand-outs has no duplicates, for each modelled allocation function. |
| C12 | sim_max limits the number of evaluations | Manager | Bound on hand-outs over every run; negation witness for batch hand-outs, partial theorem for one-row orders plus exact overshoot bound. |
| C13 | Exit criteria are checked in order and stop the hand-out of work | Manager | Decision logic of the term tests stated against an independent specification. |
| C14 | gen_max counts points generated in this run | Manager | Negation witness with H0, partial theorem under the guard. |
| C15 | stop_val stops strictly below the value | Manager | Negation witness at equality, partial theorem. |
| C16 | A worker exception stops the whole ensemble once | Manager | Trace invariant: a worker error is followed by STOP to all; no work order event afterwards; at most one raise. |
| C17 | Shutdown reaches every worker | Manager | Trace theorem about the shutdown procedure for every remaining message order. |
| C18 | Cancelled points are not started, and cancelled running points get one kill | Manager/History | Allocation part proved for all states; kill part: negation witness for out-of-order hand-out, partial theorem under monotone hand-out. |
| C19 | The manager's view of busy workers is exact | Protocol | Joint invariant of manager table, channels and worker states over all interleavings. |
| C20 | A resource set is never held by two workers | Resources | Invariant over assign/free/schedule traces. |
| C21 | The free-resource counters are exact | Resources | Counter = count invariant; exact characterisation of when it can fail (duplicate ids in a team). |
| C22 | Every scheduled team is valid | Scheduler | Soundness theorem of the whole scheduling function, for every iteration order of sets. |
| C23 | Requests that can never fit are rejected, others are not | Scheduler | Rejection theorem; negation witness on uneven layouts; partial theorem on even layouts. |
| C24 | The scheduler uses a fitting node when there is one | Scheduler | Characterisation of the single-group search. |
| C25 | The scheduler always answers | Scheduler | Loops modelled with explicit termination measures (no fuel) and explicit error values for index/zero-division; theorem: these values are unreachable for layouts built by the layout function. |
| C26 | Failed scheduling leaves nothing behind | Scheduler | State after failure = state before (up to the cache that does not influence answers). |
| C27 | Nodes are divided among resource sets completely and evenly | Partition | Arithmetic theorems about the split functions. |
| C28 | Default worker-to-resource mapping is one-to-one | Partition | Characterisation of the index list. |
| C29 | Workers sharing a node get different slots and GPUs | Partition | Slot and GPU index ranges. |
| C30 | Processes and GPUs convert to the least sufficient number of resource sets | AllocSupport | Least-sufficiency (Galois) theorem. |
| C31 | Only idle, suitable workers are chosen | AllocSupport | Membership characterisation of the filter. |
| C32 | Priorities are respected | AllocSupport | Maximality theorem for the point selector. |
| C33 | Default allocation obeys batch mode and the generator limit | Alloc functions | Theorem on the returned work dictionary for all inputs. |
| C34 | Persistent allocation returns each result to its own generator, once, at the right time | Alloc functions | Per-call theorem and run-level invariant. |
| C35 | In-order allocation functions give every uncancelled row once and in order | Alloc functions | Per-call theorem; negation witness for out-of-range row. |
| C36 | Messages arrive once, in order, with push-back | Comms | Refinement of inbox+buffer to a FIFO queue with cursor. |
| C37 | A worker answers every work order once and obeys stop signals | Worker | Trace theorem about the worker loop for arbitrary message lists and user-function oracles. |
| C38 | A stop received by a persistent user function also stops the worker | Worker | Same model with persistent user function programs. |
| C39 | A finished task stays finished with the same state | Executor | Task state machine with arbitrary process behaviour; stability by induction. |
| C40 | A manager kill or finish signal is noticed and kept | Executor | manager_poll over inbox model. |
| C41 | The polling loop ends with the right status | Executor | polling loop over an arbitrary stream of process/clock/manager observations. |
| C42 | MPI process layout is consistent with the request | MPI | Decision logic of task_partition. |
| C43 | Launched tasks stay within the worker's resources | MPI | Bounds on get_resources results. |
| C44 | Simulation directory names identify the evaluated rows | Misc | Decoder with decode (encode rows) = rows. |
| C45 | Dictionary and array forms of points convert without loss | Misc | Round-trip theorem over models of arrays as lists of records. |
| C46 | Mapping between array fields and generator variables is reversible | Misc | Round trip under full mapping; negation witness for unmapped fields. |
| C47 | Compressed node lists expand correctly | Misc | Range expansion equals the arithmetic list. |
| C48 | Working directory is restored | Misc | Well-bracketed programs with exceptions restore the directory. |
| C49 | Periodic checkpoints hold the promised number of points | Manager | File-set model of the checkpoint writer, induction over count sequences. |
| C50 | Total evaluation counters match the history | Manager | Invariant counter = number of flags, using C11/C19. |
| C51 | A failing launch is retried at most the configured number of times | Executor | Induction over the list of attempts. |
| C52 | The MPI layout and GPUs passed on by the executor stay consistent | MPI | Bounds through the whole of get_mpi_specs. |
| C53 | Node lists of Cobalt, LSF and PBS name every node once | Nodes | Expansion functions against sets of names. |
| C54 | persistent_aposmm_alloc runs one generator and feeds it only after the initial sample | Allocation | Invariants of `persis_info` over any sequence of calls. |
| C55 | finite_diff_alloc returns complete pairs to the generator | Allocation | Parts of the answer by the loops; rows by a counted set. |
| C56 | Inverse-Bayes allocation works in whole batches | Allocation | Induction over the loop that takes the smallest subbatch. |
| C57 | start_persistent_local_opt_gens leaves workers for evaluations and prefers rows of runs | Allocation | As C55; starts counted against the table. |
| C58 | Allocation with pausing gives every component once and stops points only for a reason | Allocation | A second pass finds nothing new; invariants between calls relating the bookkeeping to past answers. |
| C59 | Suggest/ingest runners alternate, send what is suggested and ingest what is received | Runner | The runner is a user function of the worker; an invariant over what it has observed, tied to the trace. |
| C60 | The command line of an MPI task states what was decided | MPI | A reader of option values is run over the command; reading of extra_args by argparse agrees with it. |
| C61 | APOSMM's distances to better points are right | APOSMM | Invariant over all known points, kept by the incremental update; independent of the order of arrivals. |
| C62 | APOSMM starts local runs exactly where it says | APOSMM | From C61: the tests on stored distances against all pairs of points. |
| C63 | APOSMM's local runs get their own results | APOSMM | Invariant tying run_order and child_to_run to the events that optimizers and manager see. |
| C64 | The class APOSMM hands out each point once and passes on the results it is given | APOSMM | Invariants over all calls; the class and the generator's process as one transition system, in which C63's assumption on results is proved. |
| C65 | Local optimizers get the values they asked for and APOSMM their answers | APOSMM | Invariant over all interleavings of two processes and two feeder threads; a measure that every step decreases gives that calls come back under any scheduler. |
| C66 | However a run ends, the workers are ended and the caller is told | End of a run | Induction over the team; case analysis of the wrapper. |
| C67 | The manager does not give up a run while something can be done | Manager | Invariants over the run at the state in which all workers are idle (all given rows are evaluated, all sets free, passed rows cancelled), and what each allocation function answers there. |
| C68 | A run with sim_max comes to its end | Manager | Bounds on answers by counting orders (a generator is called only when all rows are given or cancelled), a busy worker owes an answer, and fairness over infinite sequences of passes; for only_persistent_gens every order to a running generator returns a new row. |
| C69 | The runner of APOSMM moves every message once and in order, and ends when told to | APOSMM | Invariant over all interleavings of generator, runner and manager; a count of messages when turns are taken. |
| C70 | A whole run of manager and workers with sim_max comes to its end | System | Every worker is at one of finitely many stages of an order; a rank that falls with every step that is not the worker's own look, well-founded because functions return; with fair turns the answer comes, and C68 applies. |
| C71 | Persistent sampling generators keep the number of points under way | Gens | A generator is a function from what it has observed to what it does next; invariants over all conversations; the workers of the joint model are shown to have such conversations, and messages in channels are counted |
| C72 | The finite-difference generator | Gens | Rounds as a fold over the answers; the invariant relates the counter of each pair to the messages sent |
| C73 | The calibration generator | Gens | Its loop as a fold over the arrays received; an invariant relates the cells of its arrays to points sent, values received and requests to cancel |
| C74 | Teams of workers on TCP | Tcp | The template of the command is filled and parsed again; the list of sign-ups is arbitrary |
| C75 | The shutdown of manager and workers comes to its end | System | As C70, with the record of main loop and shutdown; a generator that was told to stop is at one of finitely many stages before its end, and a rank falls with its steps |
| C76 | An ensemble runs with the settings it was given | Settings | Scripts are lists of operations on a store of settings objects and ensembles; invariants by induction over scripts |
| C77 | The description of the platform | Platform | Case analysis over the sources; dictionaries are functions from fields, with `None` apart from absent |
| C78 | Persistent information of workers | Persis | Invariants over sequences of orders and returns, with and without shared objects; a stream is its source and its position |
| C79 | `persis_info` from one run to the next | Manager/Indep, Again, PropsAgain, Alloc/LocalRuns | Every function of the manager commutes with a change of `persis_info`; invariant for rows below the pointer |
| C80 | Log and statistics files | Logs/Model, Props | Invariant of the two loggers over all settings and earlier calls of a process; exact output of each record |
| C81 | Simulators of gest-api | Gest/Model, Props | Refinement of "one call for each point" for simulators with any state |
| C82 | gpCAM: choice of points | GpCam/Model, Props | Invariant of the greedy choice; a packing bound for the end of the search |
| C83 | Times of tasks | Timing/Model, Props | Invariant of a task under polls and kills; induction over the launch attempts |
| C84 | Copies of results | CopyBack/Model, Props | Invariant over interleavings of calls, writes and ends: each file is in the copy or a worker that may write there has not ended |
| C85 | What tasks are launched with | Launches/Model, Props | Invariants over interleavings of workers in processes or threads; induction over registrations |
| C86 | How generator objects are made | GenInit/Model, Props | Case analysis of the mapping; invariants over sequences of constructions on a heap of dictionaries |
| C87 | The interface to a persistent generator function | Interfacer/Model, Props | Induction over sequences of calls; invariant on how the process ends |
| C88 | Latin hypercube samples and samples of components | Sampling/Model, Props | Permutations of the strata; induction over calls |
| C89 | A local optimization run of uniform_or_localopt | LocalRun/Model, Props | Induction over evaluations; the optimizer is any function of what it has seen |
| C90 | The multitask generator for Ax | MultiTask/Model, Props | Invariant over replies; selection by a permutation that sorts |
| C91 | Settings from a file | FromFile/Model, Props | Laws of dictionary lookup; memory as a list of dictionaries |
| C92 | Simulators that watch a task | Watch/Model, Props | Composition of the models of tasks and workers; invariant over actions |
| C93 | Simulators that run a task for each point, or replay a run | Batch/Model, Props | Induction on the batch; composition with C07 |
| C94 | Gradients of test simulators | TestFuncs/Model, Props | Derivatives of Mathlib |
| C95 | Values of the points of a batch | Batch/Values, PropsValues | Induction on the batch; composition with C07 |
| C96 | Saved results are found again | Saved/Model, Props | Texts read from the end; numbers in names are injective |
| C97 | Picture of a running ensemble | Live/Model, Props | Induction on the updates |
| C98 | Checks of the settings | Checks/Model, Props | Paths as lists of parts; case analysis; a second check is the identity |
| C99 | Checks of run lines | RunLines/Model, Props | Induction over the words of a line; case analysis; arithmetic of indices |
| C100 | Uniform samples | Sampling/Uniform, UniformProps | The stream of random numbers is any; induction over batches; inequalities of integers |
| C101 | Requests of persistent samples | Sampling/Requests, RequestsProps | What every batch has, every run has (`rounds_all`); parts of the range by division of integers |
| C102 | Formulas of test simulators | TestFuncs/More, MoreProps | Completing squares; a Chebyshev polynomial; logarithms of Mathlib |
| C103 | Variables for GPUs | GpuEnv/Model, Text, Props, TextProps | Division of integers; case analysis of the worker |
| C104 | Data of the calibration generator | Gens/CalData, CalDataProps | Induction over places; the shuffle is any permutation |

Where the existing code violates the full statement, the negation is proved on a concrete witness and the guarded theorem is named `..._partial`.

## Trusted base

1. Lean 4.33.0's kernel. Nothing is proved with `native_decide`, `bv_decide`, `sorry` or axioms of our own; witnesses are
   evaluated by the kernel (`decide`, `decide +kernel`).
2. The axioms `propext`, `Classical.choice`, `Quot.sound`. Which theorem uses which is listed at the end.
3. The reading of the Python source. Every definition cites file and lines in `/repo`; simplifications are stated in the
   comment of the definition or at the head of its file.
4. For C94 and C102, that the real numbers, `Real.pi`, `Real.exp`, `Real.log`, `Real.sin`, `Real.cos` and `HasDerivAt` of Mathlib mean what they should. Elsewhere of
   Mathlib only one file on permutations of lists is used.
5. The abstractions listed under "How the code is represented".

### How the code is represented

* NumPy structured arrays are lists of rows; a row is a function from fields to values (`History/Model.lean`). A value is a
  scalar or a one-dimensional array of integers. Floats appear only where order and equality matter and are integers there,
  or an abstract type with an abstract comparison (`stop_val`, `Arrays`). NaN is not modelled.
* Wall-clock readings are inputs. The order in which Python iterates over sets is an arbitrary function (an input).
* User functions (generator, simulator, custom allocation function) are arbitrary inputs: any returned data, any message,
  any exception. Theorems that need well-behaved users name the assumption (`Honest`, `Polite`, `OrdersOk`; for what they
  do with their communicator `Careful`, `Disciplined`).
* Manager, workers and channels take steps in any order (`System.Joint`). The manager's record (`St.tr`) of an arbitrary run is
  the manager's side; a message can be received only if it is the oldest unreceived output of a worker program. `System/PropsBack.lean`
  proves for this joint model what theorems about the manager alone assume of messages (`Honest`, each row returned once);
  left as assumptions are `Faithful` and `OneShot`, which are about what user functions do.
* Fairness (`System.Course`, `System.FullCourse`, used by C70 and C75 only) is about infinite sequences of joint steps: turns of manager, channels and workers.
* The history inside a run is the one reached by the history operations the manager performed (`Reach.fine`); theorems ending in
  `_run` carry the history properties over to whole runs (`Manager/PropsHist.lean`, `Manager/PropsHist2.lean`; with workers
  `System/PropsHist.lean`). Start times of generators are read off the
  record of the run (`StartTime`, `Manager/GenStart.lean`).
* Python exceptions are values; where the code has changed state before raising, the model returns the changed state too.
* Channels are FIFO. That queues and MPI keep messages between two ends in order is assumed (`Comms/Model.lean`).

### Modelled code

| Code in `/repo/libensemble` | Model | Left out |
|---|---|---|
| `history.py` (all of `History`), `_check_H0` of `utils/specs_checkers.py` | `History/Model.lean`, `History/Check.lean` | columns with equal names and different types, two-dimensional cells, log messages |
| `manager.py` (work check, sending, receiving, state updates, kills, termination tests, main loop, final shutdown, saving every k) | `Manager/Model.lean` | logging, live data, `persis_info` per worker, dump on abort to the file system, profiling |
| `alloc_funcs/give_sim_work_first.py`, `fast_alloc.py`, `only_one_gen_alloc.py`, `give_pregenerated_work.py`, `start_only_persistent.py`, `persistent_aposmm_alloc.py` and `tools/alloc_support.py` | `Alloc/Model.lean` | `low_bound`, `libE_info` entries given by the user |
| `alloc_funcs/start_fd_persistent.py`, `inverse_bayes_allocf.py`, `start_persistent_local_opt_gens.py` | `Alloc/More.lean` | writes into columns of the user (`weight`, `started_run`, `num_active_runs`, `local_min`) and `persis_info[wid]`; the rows proposed by `decide_where_to_start_localopt` are an input |
| `alloc_funcs/fast_alloc_and_pausing.py` | `Alloc/Pausing.lean` | values of `combine_component_func` are integers or NaN, `total_gen_calls`, `last_worker` |
| `resources/resources.py` (sets, counters), `rset_resources.py`, `worker_resources.py`, `node_resources` splitting | `Resources/Model.lean` | detection of nodes and cores on the machine |
| `resources/scheduler.py` | `Scheduler/Model.lean` | nothing but log messages |
| `resources/mpi_resources.py`, numbers of `executors/mpi_runner.py` | `Mpi/Model.lean` | strings as numbers |
| command lines of `executors/mpi_runner.py`, `form_command` of `utils/launcher.py` | `Mpi/Command.lean` | quotation marks in `extra_args`, decimal notation, environment variables, words of the application; argparse as in Python 3.11 |
| `resources/env_resources.py` | `Nodes/Model.lean` | reading of environment variables and files |
| `comms/comms.py`, `comms/mpi.py` | `Comms/Model.lean` | TCP communicators, time, MPI tags |
| `worker.py`, `tools/persistent_support.py`, `Executor.manager_poll` | `Worker/Model.lean` | directories (see `Labels`, `Locs`), statistics files, timers |
| `utils/runners.py` (`StandardGenRunner`, `LibensembleGenRunner`) | `Runner/Model.lean` | `suggest_updates`, `persis_info`, runners for functions in threads and Globus Compute |
| `utils/runners.py` (`LibensembleGenThreadRunner`), `generators.py` (`PersistentGenInterfacer`) | `Aposmm/Thread.lean` | conversion of fields (C46), exceptions of the generator, the answer of the runner (a tuple that the manager ignores) |
| `gen_funcs/persistent_aposmm.py` (all of the generator but the following) | `Aposmm/Model.lean` | standalone mode, sample points given by the user, periodic domains, scaling, gradients and residuals, the processes in which the optimizers run (they give arbitrary answers; the exchange with them is C65), `calc_rk` (a given function); distances are never NaN, sorting is stable |
| `gen_classes/aposmm.py` (`APOSMM.suggest_numpy`, `ingest_numpy`, `suggest_updates`), `generators.py` (`PersistentGenInterfacer`) | `Aposmm/Class.lean`, `Aposmm/Joint.lean` | the constructor, `export`, conversions (C47), the fields of points and results other than number, mark and value; calls after `finalize` |
| `gen_funcs/aposmm_localopt_support.py` (`LocalOptInterfacer`, `opt_runner`, `put_set_wait_get`, `finish_queue`) | `LocalOpt/Model.lean` | what the optimizers compute (an arbitrary function of the values so far that takes one step), the choice of the optimizer, the checks of its setup, standalone mode |
| `libE.py` (`manager`, `kill_proc_team`, the end of `libE_local`, `_dump_on_abort`), `comms.py` (`QCommLocal.result`, `terminate` of threads and processes) | `Team/Model.lean` | time (which messages and ends come before the limit is given with each worker), what is logged, the contents of `persis_info`, the pickle file |
| manager and workers together, with the channels between them | `System/Model.lean`, `System/Live.lean` (fair interleavings) | `kill_pending` of an ending worker |
| `gen_funcs/persistent_sampling.py`, `persistent_sampling_var_resources.py`, `persistent_inverse_bayes.py` | `Gens/Model.lean` | coordinates and resources asked for (see `Sampling/Requests.lean`), posterior weights; which corner is drawn and how values are read is arbitrary |
| `gen_funcs/persistent_fd_param_finder.py` | `Gens/Fd.lean` | coordinates and step sizes (`noise_h_mat`), `ECnoise` (an arbitrary function of the values), `persis_info`; values are integers |
| `gen_funcs/persistent_surmise_calib.py` | `Gens/Cal.lean` | coordinates, priorities, the emulator (any function of the arrays received); values are integers |
| `tools/parse_args.py` (`_tcp_parse_args`, `_ssh_parse_args`, `_client_parse_args`), `utils/launcher.py` (`form_command`), `libE.py` (`libE_tcp_start_team`, choice of hosts), `comms/tcp_mgr.py` | `Tcp/Model.lean` | quotation marks and braces in texts, abbreviated options, sockets, errors of connections |
| `tools/parse_args.py`, `ensemble.py` (construction, setters, `run`), `utils/validators.py` (`default_comms`), `utils/specs_checkers.py` (workers), `libE.py` (choice of routine and team) | `Settings/Model.lean` | settings other than `libE_specs`; most fields of `LibeSpecs` (integers under their names); `mpi_comm`; pydantic itself: what it does at construction, assignment and call is written down in the header; files (`from_yaml`) |
| `resources/platforms.py`, `resources/node_resources.py`, `resources/gpu_detect.py` (order of methods), `resources/resources.py` (cores, GPUs, `update_scheduler_opts`), `executors/mpi_executor.py` (`add_platform_info`), `executors/mpi_runner.py` (`get_runner`, choice of the GPU setting) | `Platform/Model.lean` | the commands that detect something and their output; tiles; the checks of the fields of `Platform` |
| `tools/tools.py` (`add_unique_random_streams`), `ensemble.py` (`add_random_streams`), `manager.py` (merging of `persis_info`), `worker.py` and `utils/runners.py` (what goes to and comes from user functions) | `Persis/Model.lean` | objects that stand in two dictionaries; the time at which a queue pickles; results that are no dictionaries |
| `alloc_funcs/start_persistent_local_opt_gens.py` (lines 36-45, finished runs) | `Alloc/LocalRuns.lean` | other keys of the dictionaries; the effect on `cand` in `Alloc/More.lean` is an input there |
| `comms/logs.py`, `logger.py`, `manager.py` (555-557) | `Logs/Model.lean` | handlers, filters or levels added by the user; formatting apart from the label; the directory made by `set_directory`; the two lines at start and end; threads that log before the set-up |
| `sim_funcs/gest_api_wrapper.py`, `utils/runners.py` (choice of runner, arguments) | `Gest/Model.lean` | values are numbers; the VOCS object is its lists of names; shapes of outputs |
| `gen_funcs/persistent_gpCAM.py`, `gen_classes/gpCAM.py` (choice of points, telling results) | `GpCam/Model.lean` | the Gaussian process is any function; lengths are integers in a common unit, radii are halved exactly; `argsort` is its result |
| `utils/timer.py`; `executors/executor.py`, `executors/mpi_executor.py` (times of tasks) | `Timing/Model.lean` | whole milliseconds; each call is given its readings of the clock; no dates |
| `utils/output_directory.py` (`copy_back`) | `CopyBack/Model.lean` | one level of directories; the copy of one worker is one step; no links, no empty directories; errors of the file system are not modelled |
| `executors/executor.py`, `mpi_executor.py` (applications, names and environment of tasks), `worker.py` (what is set in the executor) | `Launches/Model.lean` | values of variables and arguments are inputs; `match_procs_to_gpus`, later attempts, `env_script` |
| `generators.py` (constructors), `gen_classes/aposmm.py` (constructor) | `GenInit/Model.lean` | of `gen_specs` only "user"; random streams are inputs; `History` and `libE_info` are left out; dictionaries nested in given ones are not shared |
| `generators.py` (`PersistentGenInterfacer`), `comms/comms.py` (`QCommProcess`) | `Interfacer/Model.lean` | the messages of the process are an input; timeouts, `libE_info` and the conversions of `export` (C46) are left out |
| `gen_funcs/sampling.py` (`lhs_sample`, `latin_hypercube_sample`, `uniform_random_sample_obj_components`) | `Sampling/Model.lean` | random numbers and permutations are inputs; rounding and priorities are left out |
| `gen_funcs/uniform_or_localopt.py` (persistent mode) | `LocalRun/Model.lean` | NLopt is an input; gradients and the other fields of the rows are left out |
| `gen_funcs/persistent_ax_multitask.py` | `MultiTask/Model.lean` | Ax is an input (points, predictions, order of equal entries in `argsort`); bounds, names of arms and files and NaN are left out |
| `ensemble.py` (settings from a file) | `FromFile/Model.lean` | Reading the file, importing functions and checks of values are inputs or left out; `libE_specs` is left out |
| `sim_funcs/executor_hworld.py` (polling), `sim_funcs/borehole_kills.py` | `Watch/Model.lean` | Processes are scripts; values are left out but for infinity; the kinds of calls in `executor_hworld` are left out |
| `sim_funcs/var_resources.py`, `sim_funcs/mock_sim.py` | `Batch/Model.lean` | A task has a process or not, a code, a first line; resources, run lines and `dry_run` for one point are left out; fields of the file have the shapes of `sim_specs["out"]` |
| `sim_funcs/six_hump_camel.py`, `rosenbrock.py`, `chwirut1.py`, `periodic_func.py` (formulas) | `TestFuncs/Model.lean` | Real numbers; the observations of `chwirut1.py` are any numbers; loops over batches are left out |
| Simulators of `sim_funcs` (which record gets which value) | `Batch/Values.lean` | What the value of a point is, is left open; `comms_testing.py`, `run_line_check.py` and `noisy_vector_mapping.py` (beyond its loop) are left out |
| `tools/tools.py` (`save_libE_output`, `check_npy_file_exists`) | `Saved/Model.lean` | Directories exist and can be written; the format of the files; times of the checks (their number is arbitrary) |
| `tools/live_data/plot2n.py` (`live_update`, what `_update_plot` draws) | `Live/Model.lean` | How it looks; a picture is the list of rows it is drawn from |
| `utils/specs_checkers.py`, `utils/validators.py` (directories, saving, `stop_val`, cores, fields of functions) | `Checks/Model.lean` | What pydantic does, except that it makes the checks again at assignments; links; names that begin with "//" |
| `tools/test_support.py`, expected lines of `sim_funcs/run_line_check.py` | `RunLines/Model.lean` | What is printed; decimal notation; rounding in `nodes_per_worker`; submitting the task |
| `gen_funcs/sampling.py` (the uniform samples), `gen_funcs/uniform_or_localopt.py` (the sample, `add_to_Out`) | `Sampling/Uniform.lean` | Random numbers are inputs, each takes one place of the stream; rounding; the fields of the same value are one |
| `gen_funcs/persistent_sampling_var_resources.py` (points and requests) | `Sampling/Requests.lean` | Random numbers are inputs; rounding (a coordinate near the upper end of a part may be rounded into the next one); the task of `uniform_sample_with_sim_gen_resources`; bounds are numpy arrays |
| `sim_funcs/branin/branin.py`, `borehole.py`, `noisy_vector_mapping.py`, `surmise_test_function.py` (formulas) | `TestFuncs/More.lean` | Real numbers; one point; two coordinates for the noisy function; `hard=False` |
| `resources/worker_resources.py` (`get_slots_as_string`, `set_env_to_slots`, `set_env_to_gpus`) | `GpuEnv/Model.lean`, `GpuEnv/Text.lean` | Values are lists of entries, and their texts; slots are an input |
| `gen_funcs/persistent_surmise_calib.py` (`load_H`, `assign_priority`, `gen_truevals`), `gen_funcs/surmise_calib_support.py` (`gen_xs`, `gen_observations`) | `Gens/CalData.lean` | Values and noise are integers; the root of the variance; priors and the calls of the surmise package |
| `executors/executor.py` (tasks, polling loop), `utils/launcher.py`, launching in `mpi_executor.py` | `Exec/Model.lean` | output files, environment |
| `utils/output_directory.py`, `extract_H_ranges` | `Labels/Model.lean` | copying and linking of files |
| `utils/loc_stack.py` | `Locs/Model.lean` | links, permissions |
| `utils/misc.py` conversions | `Arrays/Model.lean` | arrays of more than one dimension per cell |

Not modelled at all: the rest of `specs.py`, `utils/validators.py` and `ensemble.py`, the simulator functions shipped with the package
(but `gest_api_wrapper.py`, `mock_sim.py`, the formulas of eight test functions, which point gets which value, of `var_resources.py` all but the choice of resources, of `executor_hworld.py` and `borehole_kills.py` the watching of tasks, and of `run_line_check.py` the expected lines) and Globus Compute.

## Where the code differs from the properties

Each item marked W is a theorem (`..._witness` or a named negation) evaluated on a concrete state; the other items were found
while reading and are covered by the hypotheses of the `_partial` theorems.

**History.** W: a generator may return `sim_id = -1` on a full array and is accepted (C01). W: a simulator may return
`sim_id`; safe mode protects neither `sim_id` nor `cancel_requested` (C01). W: with `sim_max = 0` and a prepended history, ids and
times are wiped (C01, C08). W: a prepended history with `sim_ended` but no `sim_started` gets all rows marked as ended (C08).
`update_history_to_gen` counts all given rows though only the ended ones are marked. `np.max` of no new rows raises with
`kill_canceled_sims`. After a rejected return of a generator the rows stay numbered but hidden.

**Manager.** W: an order with `active_recv` for a worker that is not persistent is sent, and an AssertionError follows before
the start of the rows is recorded (C10). W: a row may be evaluated twice when a generator resets its flags outside safe mode (C11).
W: orders with several rows exceed `sim_max` (C12). W: `gen_max` subtracts only prepended rows marked `gen_informed` (C14). W: `stop_val` stops
at equality, and looks at hidden rows too (C15). W: exit status 1 is never returned; the exception is raised instead (C16). W: a message of a
finishing persistent worker that is rejected leaves it marked as persistent, so that the shutdown waits for ever (C17). W: rows of
`final_gen_send` go to the first persistent worker only, the others wait for rows that never come; an `active_recv`
generator makes it raise (C17). W: `last_started` is the largest row of the latest order, so that with priorities a cancelled row is
missed (C18). W: the order of `final_gen_send` names the default set, which another worker may hold (C20). W: the last checkpoint's
name is no multiple of k; a leftover checkpoint of an earlier run blocks writing (C49). W: functions that start at row 0 give prepended
evaluated rows again and overwrite their values (C08, C50); rows returned twice are counted twice (C50). Resource sets are not freed when a worker raises. Work[0] without
`gen_on_manager` addresses the last worker.

**Resources and scheduler.** W: repeated members of a team decrement the counters twice (C21). W: on uneven layouts a request for all sets
is never granted, e.g. 5 sets over nodes with 3 and 2 (C23). W: slot numbers of workers (`index % rsets_per_node`) differ from the table on uneven
layouts (C29). `gpus_per_group` is compared with sets per node. Splitting over more nodes is not tried when there are enough slots that
do not match. `assign_rsets` never raises although its comment says so. `doihave_gpus` looks at the first set only.

**Allocation.** W: `num_procs` is ignored when there is a `resource_sets` column (C30). W: a persistent generator started on a non-empty
history with empty `in` is rejected by the manager (C31). W: the order that starts a generator contains other generators' unreturned
rows, which are then marked as known (C34). W: the last array of `final_gen_send` goes to the first persistent worker, whichever generator produced the rows (C34). W: with trailing cancelled rows a row that does not exist is ordered (C35). An empty
`rset_team` counts as not given. `ensure_one_active_gen` raises IndexError without a generator worker.
`only_persistent_gens` can overwrite an order for a simulation by the start of a generator on the same worker. W: `finite_diff_alloc` never
returns a pair with more than `nf` evaluated rows (C55); it takes `sim_id`s for row numbers. W: the inverse-Bayes function raises as
soon as two generators have rows (the operands of `logical_and` differ in length; C56); it raises for an idle generator without rows. W: in
`start_persistent_local_opt_gens` an order to evaluate overwrites the start of a run that was already noted as started, and the
generator for a sample overwrites the first order to evaluate, unless workers are reserved for generators (C57). Its test for
candidates passes `~cancel_requested` as the output array of `logical_and`. All three raise IndexError when a generator is to be started
and no worker for generators is idle. W: in `fast_alloc_and_pausing`, without batch mode and reserved workers, the generator order overwrites
the simulation order just made and the row is never given out; rows of a paused point that arrive later are given out; the last
open point is never stopped, however bad; cancelled rows and rows already evaluated are given out (C58); a second start of a generator
with empty `in` is refused (C31). There, a point with a NaN counts as having value 0 in the comparison with the best complete point.

**Communicators and worker.** W: a second push-back overwrites the first in `QComm`; `mail_flag` does not see a pushed-back message;
`MPIComm.kill_pending` can cancel unsent answers (C36). W: a status of the user function after a finish signal hides the signal; a stop is taken for
rows when the manager fails in between; an order without rows makes `recv` wait or take the next order for rows; `manager_poll` drops every
message that is no stop (C38, C40). An array of length two is unpacked as two values. W: a persistent function that returns without
being asked to races with the manager's next order: the worker starts a new persistent call while the manager takes it for idle (C19). A user
function that returns status 20 ends its worker without an answer. With `use_persis_return_sim` the last message of a persistent simulator names
the rows of its last order, which are recorded and counted again.

**Runners.** W: with `out` given as a list (the default) and `variables_mapping`, `list_dicts_to_np` appends to the list of the specifications, so that
from the second batch on all mapped variables are sent as zeros; results after the first are ingested under the names of the array, the
first ones under those of the generator; a stop without data as answer to the initial batch makes `StandardGenRunner` raise, and `finalize` is
not called; a finish signal is hidden by the runner's own status; results without rows lead to a batch of no points (C59). Read only: in
`LibensembleGenThreadRunner` the tag of the first answer is ignored, so that a stop that comes with data is lost.

**Executor and MPI.** W: dry runs have no error code; a kill races with a normal end; `cancel()` sends no signal and waits (C39). W: the
polling loop reports signal or time-out although the process finished in the same pass; unlaunched or killed tasks give UNSET (C41). W: zero counts as
omitted (C42). W: negative numbers with the right product are accepted; requests that fit can be refused (C43). W: a user's machine file
bypasses all checks; asking for GPUs without GPUs divides by zero (C52). W: numbers given both as arguments and in `extra_args`, rounded numbers and 0 differ
between layout and command; `--gpus-per-task 0` when a node has more processes than GPUs; `-hosts` in `extra_args` is read as `-h` by
argparse, which ends the program; a platform's GPU option is refused when the runner has no default of its own (C60). Uneven slots raise a TypeError before the intended error.

**Names, nodes, directories, arrays.** W: an empty list of rows shares the directory of row 0; without `sim_dirs_make` all simulations share one (C44).
W: types are taken from the first point; partly present sources are lost; a variable named like a key is lost; a given dtype makes mapped
values zero; an empty list of sources raises (C45). W: `map_numpy_array` raises for every unmapped field; one-element fields come back as scalars;
shared scalars (C46). W: unpadded numbers are sorted as text; only the first bracket is expanded; other malformed input (C47). W: a failing entry leaves
its entry on the stack; a removed directory makes the exit raise; unregistered names save nothing (C48). W: PBS short names may repeat; Cobalt's node 0 has
an empty short name (C53).

**APOSMM.** W: rows given as `known_to_aposmm` keep infinite distances, because the distances are reset and known rows are skipped (C61). W: a point exactly
`mu` from the boundary or `nu` from a minimum is used, the documentation says more than (C62). W: a second result for a row of an ended run is a KeyError; an optimizer that ends
with its first answer makes the generator fail; `num_active_runs` of a starting point is 0 during and -1 after its run, since it is decreased for all of `run_order` but
increased only for the points asked for (C63). Read only: when `stop_after_k_minima` or `stop_after_k_runs` is reached the results just received are not
recorded in `local_H`; with an infinite `r_k` (`lhs_divisions`, at most one sample) nothing is started.
W, class `APOSMM` (C64): `suggest(n)` a second time before any result is a TypeError; `suggest(0)` after a partial handout hands out all points again; a run that ends without claiming
a minimum has its last point handed out again, and the result for it is a KeyError in the generator; results of the initial sample get new numbers in the order in which they come
(the condition on `sim_id` in `ingest_numpy` is the wrong way round: results without any number are all passed on with number 0); with `initial_sample_size = 0` the first
results are lost. Read only: results that already contain `sim_ended` lead to a dtype with a repeated name.
W, local optimizers (C65): when the first point asked for is not the starting point the constructor raises and the process it started waits for ever; a child that dies without
a message leaves the parent waiting for ever. (The other runs are destroyed when one raises; the run whose constructor raised is not among them.)

**End of a run (C66).** W: `kill_proc_team` catches `Timeout` only. If an exception left the program of a worker (from the constructor
of `Worker` or from the `finally` clause of `Worker.run`, for instance while directories are copied back), `result` raises
`RemoteException`: the workers after it are neither joined nor terminated, and as this happens in a `finally` clause it replaces the
value of a run that was fine as well as the `LoggedException` of one that was not; the log is not closed either. W: a thread that does
not end makes the clean-up wait for ever, as the second `terminate()` joins without a limit. The flag 1 set on an exception is never
returned. With MPI and `abort_on_exception` the clean-up is called before the abort, and again should the abort return.

**Giving up (C67).** W: the manager raises `alloc_f did not return any work, although all workers are idle` in these situations that users can bring about:
a row of the prepended history that was started but has no result stops `give_sim_work_first` in batch mode and `ensure_one_active_gen` (nobody evaluates
the row again, and the generator waits for it); `num_active_gens` 0; all workers reserved for generators; a request for more resource sets than the
even split allows on unevenly filled nodes (all sets free); a persistent generator on the only worker; a persistent generator that knows all results and sends no points;
a cancellation taken back after `ensure_one_active_gen` has passed over the row. The theorems say that there are no others, for the functions named.

**Coming to an end (C68).** A run is an infinite sequence of passes; the theorem says that the main loop ends after finitely many of them. What workers have to do
for this is stated on the record of messages (`Obliging`, `Fair`). W: two generators that send no points are called again and again for ever (the assertion in manager.py:525-527
stops only a run in which nothing else is active), and so is a generator that cancels all its points at once.
With `only_persistent_gens` no such condition is needed (`Responding`): every order to a running generator returns at least one evaluated row that was not returned
before (C34), an evaluated row came with the history or was given, and at most `sim_max` rows are given. With active receive a generator's
worker is counted as busy all the time, so the manager waits even if nothing is owed; there only the bound on answers is proved.

**Manager and workers together come to an end (C70).** C68 takes for granted that orders are answered once (`Answers`) and that answers come (`Fair`). C70 proves both of the joint model for
fair interleavings (`Course`): a message in a channel is carried eventually, a worker with something to do gets a turn, the manager receives eventually what has been carried to it. User functions are
`Simple`: they look for signals at most and return after finitely many looks (`C70_endless_witness`: without this nothing need end). For `only_persistent_gens` (`C70_gens_*`) persistent
generators are `Asking`: called, or given results, they send something and wait, or end (`C70_mute_witness`: one that waits without having sent anything never answers); there `Replies`, `Honest` and `Fair`
of C68 are proved. The proof is one for both cases (`Neat K`, `Stage`): with kill signals and without persistent functions, or the other way round, since a kill signal that reaches a waiting
persistent function ends it. Not covered: other persistent functions, `final_gen_send`, `alt_type`, active receive, and user functions that raise (a failing worker ends the run by the exception of C15). What
messages contain is still assumed in the first case (`Proper`).

**The shutdown comes to its end (C75).** `FullCourse` is a fair interleaving whose manager goes on to `_final_receive_and_kill`. There the manager sends persistent stops once and no orders; what a worker
still does is followed until the table shows nobody active or persistent. Generators are `Leaving`: `Asking`, and they return when they see a signal to stop (as `persistent_support` asks them to; a generator
that ignores the signal keeps the manager waiting, even after `wallclock_max`, which does not end the loop while somebody is persistent: `C75_stays_witness`). `clean` excludes main loops that ended with an error that leaves the table behind, as for C17, where the
witnesses are. A first worker exception in the shutdown is raised from it; after one in the main loop the receiving loop ends with its first round. When `run`
returns with flag 0, nobody is active, all channels hold at most signals without effect, and every worker ends with the signal to finish (`C75_dismissed_partial`, `C75_gens_dismissed_partial`). With flag 2 a
simulation may be at work: if it looks for signals while the signal to finish comes and returns with a status of its own, `_handle_calc` (worker.py:287-298) drops the signal and the worker waits for ever
(`C75_hidden_witness`).

**Sampling generators (C71).** `persistent_uniform_with_cancellations` cancels the points from `initial_batch_size // 2` on, one for each row it is given, before it sends the next points. When all results
come at once (without `async_return`) this goes beyond the points that exist (`C71_cancel_violated`), and as the manager accepts any non-negative `sim_id` of a generator, it adds rows that nobody has made:
cancelled, without coordinates (`C71_phantom_witness`). `batched_history_matching` and `persistent_inverse_bayes` send batches of fixed size whatever they are given, so that points pile up with
`async_return` (`C71_batched_witness`). Not formalized: `persistent_uniform_final_update` always numbers from 0, so rows of `H0` or of a second generator would be overwritten.

**The finite-difference generator (C72).** `reshape(-1, n)` (line 63) should be `reshape(-1, 2)`: the rows are unpacked into two numbers, so that the generator raises for every number of variables but two
(`C72_dimension`). The base point is left out where `k != nf // 2` (line 25) but looked for where `k != nf / 2` (line 78), which differ for odd `nf` (`C72_odd`). A pair that has been asked for `maxnoiseits`
times is not asked for again, but the loop only ends when all pairs have `inform == 1`: the generator sends an empty array and waits for ever (`C72_silent_witness`, `C72_stuck`). `C72_done_partial` and `C72_again_partial` say
that the generator ends by itself only if `ECnoise` gave 1 for the values last asked for of every pair, and asks for a pair again only if it gave 2 or more.

**The calibration generator (C73).** `load_H` (lines 112-125) writes the points of a batch place by place, but `update_arrays` (line 81) and `cancel_columns` read their numbers parameter by parameter: with
more than one place and more than one new parameter, values and cancellations go to the wrong cells (`C73_place` says exactly when). An array received by `ps.recv()` in the middle of the loop (line 192) is
overwritten by that of `send_recv` (line 237) if new points are sent in the same turn: its values are lost (`C73_lost`), and the generator can wait for ever for them (`C73_hang_witness`).

**Teams on TCP (C74).** `await_workers` (tcp_mgr.py:64-73) takes workers in the order in which they sign up, without looking at their numbers: `sim_worker` in the history, and everything that the manager
says about worker `w`, may be about the worker that calls itself otherwise in its log, its directories and `libE_info["workerID"]` (`C74_number_violated`). `form_command` splits every string at blanks, so a script in
a directory with a blank in its name is not found (`C74_blank_witness`). If `libE_specs["nworkers"]` is set in addition to the hosts (as for the other kinds of communication), `libE_tcp_mgr` forgets the hosts, and
the strings with missing entries are dropped silently: `ssh -R` (`C74_ssh_witness`). There is no limit of time for signing up (`C74_waits`).

**Settings (C76).** The documentation of `parse_args` promises additional workers if `--nsim_workers` comes with `--nworkers`; none are made (`C76_cmd_additional_witness`). `Ensemble` keeps the number of
workers in two places, and the setter of `libE_specs` writes one of them: after the command line `-n 4` and `ensemble.libE_specs = {"nworkers": 8}`, 8 workers start, and random streams are made for 4
(`C76_workers_witness`). The setter takes an object of settings by its values that differ from the defaults; `LibeSpecs(nworkers=8)` has the communicator 'local' from its own check, which "cannot be reset",
so it is always refused (`C76_class_refused`), and a value set back to its default is lost (`C76_reset_witness`). `libE_specs=None` makes an ensemble that never runs (`C76_none_never`). `is_manager` is only set for
'local', 'mpi' and the command line, so with `comms="threads"` in `libE_specs` `save_output` writes nothing (`C76_manager_witness`). The default argument `LibeSpecs()` is one object for all ensembles, and both
the command line and the setters write into it (`C76_shared_witness`); the same holds for `exit_criteria={}` with `from_yaml` (not modelled). `parse_args=True` with a dictionary raises `AttributeError`, since a
dictionary has no `__dict__` (`merge`).

**Platforms (C77).** `libE` dumps `libE_specs` before it calls `get_platform` (libE.py:239-250), so that `platform_specs` arrives there with all fields, `None` where nothing was given. Without a name these are
filtered (platforms.py:342), but with a named or detected platform they replace the known values (platforms.py:338-339): on Frontier, `platform_specs={"gpus_per_node": 4}` loses the runner, the cores and the way to set
GPUs, and since `gpu_setting_type` is there with `None`, GPUs are set by an environment variable named `None` (`C77_lost`, `C77_lost_witness`); the documentation says that fields are added or overwritten. The unit test
calls `get_platform` with a plain dictionary, for which this holds (`C77_kept_partial`). `resource_info["gpus_on_node"] or platform_info…` ignores a zero (`C77_zero_witness`). `add_platform_info` mixes the kind of runner that the
user chose with the platform's name of the command (`C77_runner_witness`), and keeps the result for later runs (`C77_second_witness`).

**Persistent information (C78).** The manager merges what comes back into the entry of the worker (manager.py:538), so that names that a user function deletes come back when messages are copied, and do not with threads, where the user function
has the manager's own dictionary (`C78_deleted_witness`). For the same reason a function that draws random numbers and returns another dictionary sees the same numbers in its next call, but not with threads
(`C78_repeat_witness`). `fast_alloc_and_pausing` sends the dictionary of the worker that ran the last generator (line 123-136); if `num_active_gens` lets two generators run at once the second gets what the first has not yet
returned, and both draw the same numbers (`C78_two_gens_witness`). `add_random_streams` uses `ensemble.nworkers`, which is 0 with hosts on TCP (`C78_hosts_witness`). A text or a numpy integer as `seed` is silently ignored
(`srcOf`), although the type in the signature is `str`.

**From one run to the next (C79).** The default of `persis_info` in `libE` (libE.py:156) is one dictionary, `validate_call` does not copy defaults, and the manager resets only `num_gens_started` (manager.py:639). With
`give_pregenerated_sim_work` a second run therefore stops at once and returns flag 0 although nothing was evaluated (`C79_stops`, `C79_pregen_witness`); `persistent_aposmm_alloc` likewise, because `first_call` is False and there
is no persistent generator yet (line 39); with `fast_alloc` and `only_one_gen` the rows below the old pointer are never given out (`C79_skipped`, `C79_fast_witness`). `start_persistent_local_opt_gens` looks into every entry of
`persis_info` (line 39) and raises at the number that a run leaves (`C79_number`). Its run counters are lowered again in every call for a run that ended without `x_opt` (exit codes from 5 on, uniform_or_localopt.py:107-108), `C79_again_down_witness`.

**Log messages (C80).** Workers are forked before the manager sets up its files (libE.py:494, 501), and `worker_logging_config` gives both loggers the level chosen only if the process had none before (logs.py:143-149), while
`manager_logging_config` gives the statistics DEBUG. With a level above INFO the first call of a script has no lines of workers in the statistics file and the second has (`C80_stats_first`, `C80_stats_witness`). Threads share
the loggers of the manager, so every line carries `[0]` or `Manager` (`C80_threads`). A worker started as a process of its own (TCP, or spawned) has level INFO whatever the script of the manager sets (`C80_own_witness`).
`disable_log_files` removes no handlers of an earlier call (`C80_disabled_witness`). `set_directory` changes names even after the set-up, against its comment; they count from the next call on.

**Simulators of gest-api (C81).** The wrapper finds out whether a simulator takes `libE_info` by calling it and catching TypeError (gest_api_wrapper.py:78-83). A TypeError from inside the simulator is caught as well: the same
point is evaluated a second time, without `libE_info` and so without an executor, in the state that the first call left (`C81_twice`). Outputs that are not returned stay 0 and count as results (`C81_missing`).

**gpCAM (C82).** (1) With a grid the radius is halved towards the spacing of the mesh until the batch is full, but never reaches it: in one variable (ten points) a batch of six or more is never found and the generator hangs
(`C82_line`; in exact arithmetic — in floating point the mean of neighbouring numbers is one of them, so that the loop may end after some sixty rounds with neighbouring points); nor, in any arithmetic, is a batch larger than the mesh
(`C82_too_many`). `C82_ends`: if no point has more than m mesh points within the spacing, b * m points are enough for a batch of b. (2) Without a grid `persistent_gpCAM_covar` computes variances for one list of random points
(persistent_gpCAM.py:279-280) and then indexes another, drawn at the top of the loop (line 251): the batch is random (`C82_func`, `C82_func_witness`). The class keeps the list (`C82_class`). (3) The comment of
`_find_eligible_points` is not what it does (`C82_comment_witness`).

**Times of tasks (C83).** (1) Without `wait_on_start` the MPI executor polls the new task before it starts the timer (mpi_executor.py:169, 384-386): a task that has ended by then keeps runtime 0 and total time None, and is shown with 0 in
libE_stats.txt (`C83_untimed_witness`). (2) `reset` leaves the timer, which goes on counting: after a retry libE_stats.txt shows the sum over the attempts, `task.total_time` the last one (`C83_stats_witness`).

**Copies of results (C84).** In a shared ensemble directory: (1) files of the user whose names begin with `sim` or `gen` and a digit (`sim0.out`) are taken for directories of calculations and never copied (`C84_name_witness`). (2) Without
`reuse_output_dir` a directory is copied by the first worker that ends; for the others `copytree` raises FileExistsError, which is passed over, so what they write into it later is lost (`C84_later_witness`).

**What tasks are launched with (C85).** (1) `_implement_env` writes the variables of a task into `os.environ` and nothing takes them out: a later task without GPUs gets the `CUDA_VISIBLE_DEVICES` of an earlier one, whose GPUs may be in use
elsewhere by then (`C85_left_witness`). (2) With `comms="threads"` all workers have the same executor object and environment: tasks may be launched with another worker's GPUs and directory (`C85_env_threads_witness`), carry the number of
the last worker constructed, take the numbers of another's order, and kill signals are looked for in another worker's messages, or fail once any worker has ended (`C85_threads_witness`). (3) `_set_gen_procs_gpus` does nothing for an order
without numbers, so those of the order before stay (`C85_stale_witness`). (4) The number 0 is left out of names, so a generator on the manager with an application called like `a_worker1` may name a task like that of a worker
(`C85_names_witness`).

**How generator objects are made (C86).** (1) `gen_specs: dict = {}` is one object for all calls: keyword arguments of one generator become settings of every other one made without `gen_specs`, before or after (`C86_shared_witness`).
(2) A mapping with entries is written to, so that a second generator made with the same dictionary takes the "x" and "f" added for the first for the user's (`C86_shared_map_witness`). (3) A variable which the "x" of the user leaves out is
mapped to no field (`C86_left_out_witness`), and with all variables mapped to other fields "x" becomes the empty list, for which conversions raise (`C86_empty_x_witness`). (4) A `persis_info` without a random stream is replaced and its
entries are lost (`C86_persis_witness`). (5) `APOSMM` counts the variables on the cube as well when it computes the default of `rk_const`: the dimension in the formula is twice that of the points (`C86_dimension_doubled`). (6) With the one
variable "x" its constructor ends with a KeyError instead of the message that asks for a mapping (`C86_key_witness`).

**The interface to a persistent generator function (C87).** (1) `setup` says that it must be called before `suggest` or `ingest`, but it only makes the process, and these start it only if there is none: after `setup` by hand the next
`suggest` or `finalize` waits forever (`C87_setup`). (2) An exception of the generator function ends `suggest` with a CommFinishedException that does not carry it; only `finalize` raises it (`C87_hidden_witness`). (3) Points that wait in
the queue are lost in `finalize` (`C87_dropped_witness`). (4) Results with a field `sim_ended` are refused by a generator that lists this field in `persis_in`, as `APOSMM` does: the field would come twice (`C87_refused`).

**Sampling (C88).** `uniform_random_sample_obj_components` numbers points by the length of the history it is given. Allocation functions give no rows when `gen_specs["in"]` has no fields, and the same rows to generators that run at a time:
then different points get one number (`C88_same_number_witness`), and `fast_alloc_and_pausing`, which sums components by number, mixes them.

**A local optimization run (C89).** `except Exception` (line 109) is meant for the stop by the manager but takes every error of the optimizer, and results without the value: the generator returns no updates
and the usual tag, so that the run is never "done" for the allocation function and nobody is told (`C89_hidden_witness`). NLopt raises an error also when rounding limits progress.

**The multitask generator (C90).** (1) `max_utility_from_GP` gives `[1.0] * n` weights whatever the number of arms: if the batch of low fidelity has fewer than `n_opt_hifi` points, GeneratorRun refuses (`C90_weights`).
(2) A stop after the first iteration leaves the loop before the experiment is saved: a batch of low fidelity that has been evaluated, and values that come with the stop, are in no file (`C90_unsaved_witness`); in the first
iteration they are saved.

**Settings from a file (C91).** `_parameterize` "updates and sets attributes". (1) It updates only dictionaries: an attribute that is an object, as are the defaults and everything already loaded, is replaced, so fields
set in the script or by an earlier file are lost (`C91_replaced`, witnesses). (2) The default `exit_criteria={}` is one dictionary for all ensembles and `old_spec.update` writes into it: a second ensemble gets the criteria
of the first (`C91_leak`, `C91_leak_witness`). (3) "avoid clashes" drops the value of the file if the script used the alias (`C91_dropped`), and being `if`/`elif` handles only one of the two fields (`C91_refused_witness`).
(4) An exception in a later part leaves the earlier parts in place (`C91_half_witness`).

**Simulators that watch a task (C92).** (1) `custom_polling_loop` returns MAN_SIGNAL_FINISH ("Worker will pick this up and close down") for either kill signal. MAN_SIGNAL_KILL is "Kill running task - but don't stop worker":
when the manager cancels a point, the worker ends without an answer though the manager expects one (`C92_kill_ends`, `C92_kill_witness`). (2) `borehole` for a `sim_specs` without `sim_killed` goes through the failure model
after a kill, where infinity exceeds the limit: the status becomes TASK_FAILED, the finish signal in the buffer is dropped and the worker waits for ever (`C92_bore_finish_lost`).

**Simulators that run tasks or replay a run (C93).** (1) With `six_hump_camel`, a task that fails before it prints makes `float("")` raise an exception: TASK_FAILED is never returned for it and the values of the other points are lost (`C93_lost`). (2) A dry run still reads `out.txt`: an exception, or the value of an earlier run for every point, with status done (`C93_dry`). (3) `gpu_variable_resources_subenv` submits without `stdout` and reads `out.txt` (`C93_subenv`). (4) The functions for one point return "FAILED", not TASK_FAILED (`C93_single_status`). (5) `mock_sim` looks at the first row of an order only; for an order of several rows the manager raises an IndexError (`C93_mock_batch`).

**Values of a batch (C95).** `borehole_func` of `borehole.py` computes the vector of all values and returns its entry 0; `borehole` assigns it to the whole field. Every point of an order of several points gets the value of the first, without any error (`C95_borehole_first`, `C95_borehole_stored`); the documentation says that a vector is returned. `norm_eval` (documented for a single point) and `borehole` of `surmise_test_function.py` fail for several points (`C95_norm`, `C95_surmise`).

**Saved results (C96).** `_get_shortname` keeps what follows the first "test_" anywhere in the name of the script: "a.py", "test_a.py" and "latest_a.py" have one short name, and with equal numbers of rows, evaluations and workers one replaces the results of the other (`C96_shared`, `C96_short_witness`). The name returned by `save_libE_output` is wrong if the short name ends with ".npy" and no attributes are appended (`C96_plain_wrong`). `check_npy_file_exists(…, basename=True)` accepts files of scripts whose short name begins in the same way and files of earlier runs (`C96_found_wrong`); with `max_wait=0` it makes no check. The documentation gives the form `<basename>_results_History_length=…_ranks=…`, which is not the one that is used (`C96_saved`).

**Pictures (C97).** `Plot2N.live_update` keeps the number of evaluations at the last picture and uses it as the number of the first row to look at. A local minimum is usually found in a row that was evaluated some time ago; if this row comes before, the minimum is not drawn until there are 50 more evaluations, and not at all in the last picture of a run, as `finalize` draws nothing (`C97_min_missed_run`, `C97_missed_witness`). The dots include all rows of `hist.H`, so there is one at zero for each reserved row (`C97_dots`).

**Checks of the settings (C98).** `_check_set_workflow_dir` takes a path of at most one character for no path: a workflow directory "w" is not used for log files (though `EnsembleDirectory` and the saved histories use the path), and with `use_workflow_dir` it is replaced by a random name (`C98_lost`). `workflow_dir_path=None` and `save_every_k_sims=None` are allowed by the types and raise `TypeError` (`C98_none`, `C98_save_none`). `check_input_dir_exists` makes a text absolute before it compares it with `Path(".")`, so "." is accepted (`C98_input_dot`); a relative `Path` stays relative and means another directory after a worker has changed its own (`C98_input_relative`). When another `sim_f` or `gen_f` is assigned, the fields filled in from the first one stay (`C98_fields_stale`; this assumes that pydantic makes the checks again, else they stay as well).

**Checks of run lines (C99).** The checks are used to test the settings for GPUs. When no GPUs are asked for, `check_gpu_setting` expects an empty dictionary and compares only its entries, so that any environment is accepted, also one that gives GPUs to the task (`C99_gpu_env_unasked`). It expects the smaller of the GPUs on a node and the number that the generator asks for, while the runner divides that number among the nodes: on several nodes right lines are rejected (`C99_gpu_nodes`). With `gpu_setting_type` "env" and no name the runner sets CUDA_VISIBLE_DEVICES; the check rejects every line, and with srun looks for a variable named "--gpus-per-node" (`C99_gpu_env_name`). The whole line is read, so that an argument of the application with the name of an option counts, and since the last one counts it hides that of the runner (`C99_gpu_app`). A value with "=" is cut (`C99_read_cut`). `exp_nodelist_for_worker` rounds towards zero, also for workers before the first simulator (`C99_shift_before`), and `runline_check_by_worker` takes lines from the end of the list for them (`C99_by_worker_before`).

**Uniform samples (C100).** `uniform_random_sample_cancel` cancels the points with number 0, 10, … of each batch, so that with batches of one point every point is cancelled and nothing is ever evaluated (`C100_cancel_all`). The points of the first batch of `uniform_random_sample_with_var_priorities_and_resources` have a lower priority than all later points (`C100_priorities`). `add_to_Out` divides by zero for a coordinate that is fixed by its bounds (`C100_local_fixed`).

**Requests of persistent samples (C101).** With `max_gpus` 0 each point of `uniform_sample_with_var_gpus` asks for one GPU, as the length of a part is infinite (`C101_gpus_zero`); it raises if the first coordinate has no range (`C101_raises`). An answer without rows makes all later batches empty (`C101_sizes`). The points of this generator are those of `uniform_random_sample` with the same numbers (`C101_gpus_points`); those of the others depend on the sizes of batches (`C101_points_witness`).

**Formulas of test simulators (C102).** The bounds of `borehole_func` admit every radius of influence from zero on. For all other values there is a radius in the bounds with a negative flow (`C102_flow_negative`); for the radius of the borehole itself the result is not a number.

**Variables for GPUs (C103).** `set_env_to_gpus` does nothing for a worker without GPUs, so that the variable of its last task stays, with GPUs that may belong to another worker by now (`C103_stale`). The limit of the generator counts for each node: with several nodes more GPUs are visible than were asked for (`C103_limit`). A platform of the type "env" without a name makes the call raise (`C103_unnamed`). `CUDA_variable_resources` lists slots, not GPUs (`C103_slots_witness`).

**Data of the calibration generator (C104).** With `num_x_vals = 1` the generator raises after its first batch was evaluated, because `np.squeeze` leaves an array without length (`C104_one`). `load_H` with an offset and an array that is too short raises for several parameters (`C104_short`), but leaves the place out for one parameter; no caller gives an offset.

**The runner of APOSMM (C69).** `LibensembleGenThreadRunner` ignores the tag of the first answer: if the run ends before the initial sample has been evaluated, the worker
fails with an exception (stop without results: `None.dtype`) or never returns (`C69_first_stop`, `C69_early_stop`). W: `ingest_numpy(results, PERSIS_STOP)` sends both messages with the
tag of a stop, and the generator's `PersistentSupport.recv` takes the second for an unexpected stop: the last results are lost (`C69_lost`). W: with results buffered for an incomplete
initial sample, nothing is sent to the generator at a stop, and `result()` waits for ever (`C69_sample_stop`). W: two answers of the manager passed on between two looks at the outbox
make the next two calls of `suggest_numpy` follow each other, which the class forbids (`C69_race`); this needs `async_return`.

## Testing the theorems against wrong programs

`seeded/LOG.jsonl` has one line per attempt. A wrong program is an edit of one definition of the model in a scratch copy. The
copy is rebuilt, proofs that fail are replaced by `sorry`, and the theorems that then depend on `sorryAx` are the ones that notice. If
none of the theorems of the claim notices, the theorem is strengthened and the edit is tried again.

## Axioms per theorem

<!-- axioms begin -->
* **no axioms** (21): `Sampling.Uniform.C101_sizes`, `GpuEnv.C103_slots_witness`, `Gens.CalData.C104_one`, `Aposmm.C64_zero_witness`, `Aposmm.C64_lost_witness`, `Settings.C76_cmd_additional_witness`, `Settings.C76_cmd_zero_witness`, `Gest.C81_calls`, `GpCam.C82_comment_witness`, `Timing.C83_timer_stopped`, `LocalRun.C89_hidden_witness`, `Batch.C93_lost_witness`, `Batch.C93_single`, `Batch.C93_single_status`, `Batch.C93_subenv`, `Batch.C93_subenv_witness`, `Batch.C95_borehole_witness`, `Live.C97_missed_witness`, `Live.C97_dots_witness`, `Checks.C98_save_none`, `RunLines.C99_shift_before`
* **propext** (150): `History.C01_sim_max_zero_witness`, `History.C08_sim_max_zero_witness`, `History.C08_ended_overwritten_witness`, `Sampling.Uniform.C101_raises`, `GpuEnv.C103_name`, `GpuEnv.C103_set_partial`, `GpuEnv.C103_slots`, `GpuEnv.C103_raises`, `GpuEnv.C103_unnamed`, `GpuEnv.C103_stale`, `Gens.CalData.C104_truth`, `Res.C21_duplicate_witness`, `Res.C29_uneven_witness`, `Alloc.C30_procs_ignored_witness`, `Comms.C36_local`, `Comms.C36_push_twice_witness`, `Comms.C36_push_twice_mpi`, `Comms.C36_mail_flag_witness`, `Comms.C36_kill_pending_witness`, `Worker.C38_own_status_witness`, `Worker.C38_stop_as_rows_witness`, `Worker.C38_no_rows_witness`, `Worker.C38_poll_witness`, `Exec.C39_noticed`, `Exec.C39_dry_run_witness`, `Exec.C39_race_witness`, `Exec.C39_cancel_witness`, `Worker.C40_second_poll_witness`, `Worker.C40_persis_stop_witness`, `Exec.C41_not_started`, `Exec.C41_same_pass_witness`, `Exec.C41_not_launched_witness`, `Exec.C41_killed_before_witness`, `Mpi.C42_honours_partial`, `Mpi.C42_default`, `Mpi.C42_machinefile`, `Mpi.C42_zero_witness`, `Mpi.C43_no_resources`, `Mpi.C43_negative_witness`, `Mpi.C43_refused_witness`, `Labels.C44_empty_witness`, `Arrays.C45_missing_source_witness`, `Arrays.C45_key_witness`, `Arrays.C45_given_witness`, `Arrays.C45_empty_list_witness`, `Arrays.C46_history_witness`, `Arrays.C46_sizes_witness`, `Arrays.C46_shared_witness`, `Locs.C48_entry_witness`, `Locs.C48_removed_witness`, `Locs.C48_unregistered_witness`, `Mpi.C52_machinefile_witness`, `Mpi.C52_no_gpus_witness`, `Nodes.C53_short`, `Runner.C59_real`, `Runner.C59_acts`, `Runner.C59_zeros_witness`, `Runner.C59_later_results_witness`, `Runner.C59_early_stop_witness`, `Runner.C59_finish_witness`, `Runner.C59_empty_witness`, `Team.C66_left_witness`, `Team.C66_thread_witness`, `Gens.C71_balance`, `Gens.C71_cancel`, `Gens.C71_batched_witness`, `Tcp.C74_number_violated`, `Tcp.C74_same_witness`, `Settings.C76_cmd_comms`, `Settings.C76_cmd_workers`, `Settings.C76_cmd_sets`, `Settings.C76_set_dict`, `Settings.C76_class_refused`, `Settings.C76_reset_witness`, `Settings.C76_typo_witness`, `Settings.C76_workers_witness`, `Settings.C76_refused_witness`, `Settings.C76_hosts_witness`, `Settings.C76_team_witness`, `Settings.C76_manager_witness`, `Settings.C76_fresh`, `Settings.C76_shared_witness`, `Platform.C77_name`, `Platform.C77_given`, `Platform.C77_kept_partial`, `Platform.C77_lost`, `Platform.C77_lost_witness`, `Platform.C77_known`, `Platform.C77_zero_witness`, `Platform.C77_env`, `Platform.C77_runner_witness`, `Platform.C77_second_witness`, `Platform.C77_envs`, `Platform.C77_match`, `Persis.C78_deleted_witness`, `Persis.C78_repeat_witness`, `Persis.C78_again_witness`, `Persis.C78_hosts_witness`, `Persis.C78_two_gens_witness`, `Gest.C81_length`, `Gest.C81_twice`, `Gest.C81_twice_witness`, `Gest.C81_args`, `GpCam.C82_func`, `GpCam.C82_tell_func_witness`, `Timing.C83_runtime`, `Timing.C83_stats`, `Timing.C83_stats_running`, `Timing.C83_stats_witness`, `Timing.C83_no_wait`, `Timing.C83_untimed_witness`, `Timing.C83_once`, `GenInit.C86_left_out_witness`, `GenInit.C86_empty_x_witness`, `GenInit.C86_shared_map_witness`, `GenInit.C86_shared_witness`, `GenInit.C86_persis_partial`, `GenInit.C86_persis_witness`, `GenInit.C86_key_witness`, `Interfacer.C87_all`, `Interfacer.C87_setup`, `Interfacer.C87_hidden_witness`, `Interfacer.C87_dropped_witness`, `Sampling.C88_same_number_witness`, `MultiTask.C90_unsaved_witness`, `MultiTask.C90_weights_witness`, `FromFile.C91_lost_witness`, `FromFile.C91_two_files_witness`, `FromFile.C91_leak_witness`, `FromFile.C91_refused_witness`, `FromFile.C91_half_witness`, `Watch.C92_bore_partial`, `Watch.C92_kill_witness`, `Watch.C92_timeout_witness`, `Batch.C95_each`, `Batch.C95_borehole_partial`, `Batch.C95_surmise`, `Live.C97_numbers`, `Checks.C98_input_text`, `Checks.C98_input_missing`, `Checks.C98_input_dot_partial`, `Checks.C98_input_dot`, `Checks.C98_make`, `Checks.C98_stop`, `Checks.C98_stop_accepts`, `Checks.C98_stop_strict`, `Checks.C98_fields`, `Checks.C98_fields_again`, `Checks.C98_fields_stale`, `RunLines.C99_by_worker_before`
* **propext, Classical.choice, Quot.sound** (440): `History.C01_row_ids_partial`, `History.C01_ids_unique_partial`, `Manager.C01_run_partial`, `History.C02_append`, `History.C02_kept`, `History.C02_accepted`, `Manager.C02_run`, `History.C03_capacity_partial`, `History.C03_visible_rows_generated`, `Manager.C03_run`, `History.C04_gen_rejected`, `History.C04_bookkeeping`, `History.C05_informed_ended`, `History.C05_prepended`, `Manager.C05_run`, `History.C06_stamp_of_first_return`, `History.C06_stamp_constant`, `Manager.C06_started`, `Manager.C06_run`, `Manager.C07_run_final`, `System.C07_workers_partial`, `History.C08_prepended_partial`, `History.C08_validated_partial`, `History.C08_counters`, `Manager.C08_run_partial`, `System.C08_workers_partial`, `Manager.C09_only_idle`, `Manager.C09_refused`, `Manager.C10_evaluated_was_given_partial`, `Manager.C10_final_partial`, `Manager.C10_bundled_partial`, `System.C10_only_given_partial`, `System.C10_workers_partial`, `Sampling.Uniform.C100_inside`, `Sampling.Uniform.C100_resources`, `Sampling.Uniform.C100_cancel`, `Sampling.Uniform.C100_cancel_all`, `Sampling.Uniform.C100_local_rows`, `Sampling.Uniform.C101_rsets`, `Sampling.Uniform.C101_procs`, `Sampling.Uniform.C101_diff`, `Sampling.Uniform.C101_priorities`, `Sampling.Uniform.C101_gpus_partial`, `Sampling.Uniform.C101_stream`, `Sampling.Uniform.C101_stream_diff`, `Sampling.Uniform.C101_stream_prio`, `TestFuncs.C102_branin`, `TestFuncs.C102_branin_minima`, `TestFuncs.C102_branin_file`, `TestFuncs.C102_noise`, `TestFuncs.C102_flow_partial`, `TestFuncs.C102_flow_negative`, `TestFuncs.C102_scale`, `TestFuncs.C102_fail`, `GpuEnv.C103_entries`, `GpuEnv.C103_limit`, `GpuEnv.C103_text`, `GpuEnv.C103_text_disjoint`, `Gens.CalData.C104_priority`, `Manager.C11_in_order`, `Manager.C11_waiting_partial`, `Manager.C12_gate`, `Manager.C12_at_most_partial`, `Manager.termTest_iff`, `Manager.C13_loop`, `Manager.C13_no_work_after`, `Manager.C14_counts`, `Manager.C14_new_points_partial`, `Manager.C15_strictly_below_partial`, `Manager.C16_reported`, `Manager.C16_once`, `Manager.C16_no_more_work`, `Manager.C16_outcome`, `Manager.C16_one_more_pass`, `Manager.C16_status_never_returned`, `Manager.C17_finish`, `Manager.C17_persistent_partial`, `Manager.C17_received_partial`, `System.C17_all_received_partial`, `Manager.C18_cancelled_not_given`, `Manager.C18_kill_running_partial`, `Manager.C18_kill_once_partial`, `Manager.C18_search_window_partial`, `Manager.C18_search_rising_partial`, `Manager.C18_in_order_partial`, `Manager.C18_checked_start`, `Manager.C19_table_exact`, `System.C19_both_sides_partial`, `System.C19_table_workers_partial`, `Manager.C20_sets_partial`, `Manager.C20_bundled_partial`, `Res.C21_counters_partial`, `Sched.C22_team_valid`, `Sched.C22_teams_disjoint`, `Sched.C23_rejected_only`, `Sched.C23_granted_partial`, `Sched.C24_single_node`, `Sched.C25_always_answers`, `Res.C27_more_nodes`, `Res.C27_more_sets`, `Res.C27_local`, `Res.C27_groups`, `Res.C28_one_to_one`, `Res.C29_group_slots`, `Res.C29_disjoint`, `Res.C29_gpu_bound_partial`, `Alloc.C30_convert`, `Alloc.C30_team_covers`, `Alloc.C31_fast_alloc_accepted`, `Alloc.C31_one_gen_accepted`, `Alloc.C31_pregenerated_accepted`, `Alloc.C31_aposmm_accepted_partial`, `Alloc.C31_local_opt_accepted`, `Alloc.C31_pausing_accepted_partial`, `Alloc.C32_give_sim_work_first`, `Alloc.C32_only_persistent_gens`, `Alloc.C34_answer`, `Manager.C34_run_orders`, `Manager.C34_run_once_partial`, `Manager.C34_run_all_running`, `Manager.C34_run_finished`, `Manager.C34_run_asks`, `Alloc.C35_in_order`, `Alloc.C35_skips_cancelled`, `Alloc.C35_fast_alloc_rows_exist`, `Alloc.C35_rows_exist_partial`, `Comms.C36_complete`, `Worker.C38_finish_partial`, `Worker.C38_one_answer`, `Exec.C39_stays`, `Exec.C39_reported`, `Exec.C39_success_partial`, `Worker.C40_kept`, `Mpi.C43_refused`, `Mpi.C43_node_total`, `Labels.C44_label`, `Labels.C44_injective`, `Labels.C44_directories`, `Labels.C44_sim_gen`, `Labels.C44_worker_dirs`, `Labels.C44_gen_dirs`, `Labels.C44_shared_witness`, `Arrays.C45_round_trip_partial`, `Arrays.C45_types_witness`, `Arrays.C46_round_trip_partial`, `Arrays.C46_other_fields`, `Arrays.C46_carried`, `Nodes.C47_expand`, `Nodes.C47_zeros`, `Nodes.C47_in_order_partial`, `Nodes.C47_range`, `Nodes.C47_range_down`, `Nodes.C47_order_witness`, `Nodes.C47_second_bracket_witness`, `Nodes.C47_other_witness`, `Locs.C48_stack_partial`, `Locs.C48_block_partial`, `Locs.C48_location_partial`, `Locs.C48_program_partial`, `Locs.C48_exception_partial`, `Locs.C48_no_slips`, `Manager.C49_contents`, `Manager.C49_up_to_date`, `Manager.C49_at_end`, `Manager.C50_totals_partial`, `Manager.C50_final_partial`, `System.C50_once_partial`, `System.C50_workers_partial`, `Exec.C51_launch`, `Exec.C51_result`, `Mpi.C52_setting`, `Nodes.C53_cobalt`, `Nodes.C53_lsf`, `Nodes.C53_lsf_short`, `Nodes.C53_cobalt_short`, `Nodes.C53_pbs_witness`, `Nodes.C53_cobalt_short_witness`, `Alloc.C54_answer`, `Alloc.C54_one_generator`, `Alloc.C54_after_sample`, `Alloc.C54_in_order`, `Alloc.C54_none_skipped`, `Alloc.C55_returns`, `Alloc.C55_evaluations`, `Alloc.C55_generator`, `Alloc.C56_returns`, `Alloc.C56_evaluations`, `Alloc.C56_generator`, `Alloc.C56_one_generator`, `Alloc.C57_returns`, `Alloc.C57_starts`, `Alloc.C57_evaluations_partial`, `Alloc.C57_sample`, `Alloc.C57_progress_partial`, `Alloc.C58_once`, `Alloc.C58_reason`, `Alloc.C58_nan_partial`, `Alloc.C58_worse_partial`, `Alloc.C58_kept_partial`, `Alloc.C58_generator`, `Runner.C59_answer`, `Runner.C59_points_partial`, `Runner.C59_ingests_partial`, `Runner.C59_both_sides_partial`, `Runner.C59_all_received_partial`, `Mpi.C60_stated`, `Mpi.C60_complete`, `Mpi.C60_gpus`, `Mpi.C60_attached`, `Mpi.C60_agrees_partial`, `Mpi.C60_hosts`, `Mpi.C60_machinefile`, `Mpi.C60_both_witness`, `Mpi.C60_rounded_witness`, `Mpi.C60_zero_witness`, `Mpi.C60_task_gpus_witness`, `Mpi.C60_help_witness`, `Mpi.C60_gpu_name_witness`, `Aposmm.C61_distances_partial`, `Aposmm.C61_exact_partial`, `Aposmm.C62_sound_partial`, `Aposmm.C62_complete_partial`, `Aposmm.C62_sorted`, `Aposmm.C62_started`, `Aposmm.C62_samples`, `Aposmm.C62_best_partial`, `Aposmm.C63_errors`, `Aposmm.C63_begin`, `Aposmm.C63_own_points`, `Aposmm.C63_apart`, `Aposmm.C63_values`, `Aposmm.C63_ends`, `Aposmm.C63_sent`, `Aposmm.C63_busy`, `Aposmm.C63_reported`, `Aposmm.C63_minima`, `Aposmm.C64_handed_partial`, `Aposmm.C64_suggest`, `Aposmm.C64_passed`, `Aposmm.C64_ingest_errors`, `Aposmm.C64_numbers_partial`, `Aposmm.C64_generator_partial`, `Aposmm.C64_values_partial`, `Aposmm.C64_answers_partial`, `LocalOpt.C65_answers`, `LocalOpt.C65_returns`, `Manager.C67_gives_up`, `Manager.C67_simFirst_partial`, `Manager.C67_fast_partial`, `Manager.C67_pregen_partial`, `Manager.C67_oneGen_partial`, `Manager.C67_persGens_partial`, `Manager.C68_answers_partial`, `Manager.C68_waits_partial`, `Manager.C68_ends_partial`, `Manager.C68_simFirst_partial`, `Manager.C68_persGens_answers_partial`, `Manager.C68_persGens_waits_partial`, `Manager.C68_persGens_ends_partial`, `Aposmm.C69_read_partial`, `Aposmm.C69_no_error_partial`, `Aposmm.C69_turn_partial`, `System.C70_answers_partial`, `System.C70_fair_partial`, `System.C70_ends_partial`, `System.C70_gens_replies_partial`, `System.C70_gens_fair_partial`, `System.C70_gens_ends_partial`, `Gens.C71_stops`, `Gens.C71_limit`, `Gens.C71_cancel_violated`, `Gens.C71_ends_partial`, `Gens.Fd.C72_batch`, `Gens.Fd.C72_answered_partial`, `Gens.Fd.C72_bound_partial`, `Gens.Fd.C72_rounds_partial`, `Gens.Fd.C72_silent_partial`, `Gens.Fd.C72_done_partial`, `Gens.Fd.C72_again_partial`, `Gens.Fd.C72_stuck`, `Gens.Fd.C72_odd`, `Gens.Cal.C73_place`, `Gens.Cal.C73_answers`, `Gens.Cal.C73_books`, `Gens.Cal.C73_cancel`, `Gens.Cal.C73_request`, `Gens.Cal.C73_waits`, `Gens.Cal.C73_stored_partial`, `Tcp.C74_client`, `Tcp.C74_blank_witness`, `Tcp.C74_ssh`, `Tcp.C74_number_partial`, `System.C75_returns_partial`, `System.C75_ends_partial`, `System.C75_gens_returns_partial`, `System.C75_gens_ends_partial`, `System.C75_dismissed_partial`, `System.C75_gens_dismissed_partial`, `Settings.C76_comms`, `Settings.C76_none_never`, `Settings.C76_set_object_partial`, `Settings.C76_workers_partial`, `Settings.C76_tcp_unmanaged`, `Settings.C76_team_partial`, `Settings.C76_manager_partial`, `Settings.C76_accepted`, `Settings.C76_team_size`, `Platform.C77_way`, `Persis.C78_streams`, `Persis.C78_sources`, `Persis.C78_entries`, `Persis.C78_given`, `Persis.C78_passed`, `Persis.C78_transports`, `Persis.C78_no_repeat`, `Persis.C78_unique`, `Persis.C78_covered_partial`, `Persis.C78_chain_partial`, `Manager.C79_skipped`, `Manager.C79_stops`, `Logs.C80_manager`, `Logs.C80_worker`, `Logs.C80_once`, `Logs.C80_forked_level`, `Logs.C80_level`, `Logs.C80_stats_first`, `Logs.C80_stats_partial`, `Logs.C80_stats_witness`, `Logs.C80_own_witness`, `Logs.C80_threads`, `Logs.C80_threads_witness`, `Logs.C80_no_loop`, `Logs.C80_loop_witness`, `Logs.C80_disabled`, `Logs.C80_disabled_witness`, `Logs.C80_file`, `Logs.C80_stderr_later`, `Logs.C80_label`, `Gest.C81_stored`, `Gest.C81_runner`, `GpCam.C82_spread`, `GpCam.C82_best`, `GpCam.C82_line`, `GpCam.C82_line_ends`, `GpCam.C82_func_witness`, `GpCam.C82_tell`, `GpCam.C82_tell_class`, `GpCam.C82_tell_func_partial`, `Timing.C83_submit`, `Timing.C83_stats_partial`, `CopyBack.C84_own`, `CopyBack.C84_shared_partial`, `CopyBack.C84_name_witness`, `CopyBack.C84_later_witness`, `CopyBack.C84_only`, `Launches.C85_names`, `Launches.C85_names_witness`, `Launches.C85_env_threads_witness`, `Launches.C85_left_witness`, `Launches.C85_task`, `Launches.C85_poll`, `Launches.C85_threads_witness`, `Launches.C85_stale_witness`, `Launches.C85_app`, `Launches.C85_default`, `GenInit.C86_mapping`, `GenInit.C86_covered_partial`, `GenInit.C86_proper`, `GenInit.C86_settings_partial`, `GenInit.C86_bounds`, `GenInit.C86_dimension_doubled`, `Interfacer.C87_points`, `Interfacer.C87_fields`, `Interfacer.C87_refused`, `Interfacer.C87_sent`, `Sampling.C88_strata`, `MultiTask.C90_batches`, `MultiTask.C90_values`, `MultiTask.C90_stop`, `MultiTask.C90_saved_partial`, `MultiTask.C90_weights`, `FromFile.C91_added_partial`, `FromFile.C91_replaced`, `FromFile.C91_dropped`, `FromFile.C91_only_named`, `FromFile.C91_leak`, `FromFile.C91_outputs`, `TestFuncs.C94_camel`, `TestFuncs.C94_rosen_sum`, `TestFuncs.C94_rosen_comp`, `TestFuncs.C94_rosen_grad_sum`, `TestFuncs.C94_rosen`, `TestFuncs.C94_rosen_scaled`, `TestFuncs.C94_chwirut`, `TestFuncs.C94_periodic`, `Saved.C96_saved`, `Saved.C96_stem`, `Saved.C96_distinct`, `Saved.C96_kept`, `Saved.C96_plain_partial`, `Saved.C96_plain_wrong`, `Saved.C96_short`, `Saved.C96_short_test`, `Saved.C96_shared`, `Saved.C96_found`, `Saved.C96_found_wrong`, `Saved.C96_base`, `Saved.C96_short_witness`, `Saved.C96_lost_witness`, `Saved.C96_plain_witness`, `Saved.C96_found_witness`, `Saved.C96_no_wait_witness`, `Live.C97_min_missed`, `Live.C97_min_missed_run`, `Checks.C98_given_partial`, `Checks.C98_generated`, `Checks.C98_off`, `Checks.C98_lost`, `Checks.C98_none`, `Checks.C98_again`, `Checks.C98_lost_witness`, `Checks.C98_root_witness`, `Checks.C98_stale_witness`, `Checks.C98_stop_witness`, `RunLines.C99_read_cut`, `RunLines.C99_runner`, `RunLines.C99_runner_srun_accepts`, `RunLines.C99_gpu_option`, `RunLines.C99_gpu_no_option`, `RunLines.C99_gpu_env_partial`, `RunLines.C99_gpu_env_unasked`, `RunLines.C99_want`, `RunLines.C99_gpu_accepts`, `RunLines.C99_gpu_nodes`, `RunLines.C99_gpu_env_name`, `RunLines.C99_defaults`, `RunLines.C99_gpu_app`, `RunLines.C99_gpu_ppn`, `RunLines.C99_circ`, `RunLines.C99_by_worker_offset`
* **propext, Quot.sound** (243): `History.C01_negative_id_witness`, `History.C01_sim_id_from_sim_witness`, `History.C04_sim_rejected`, `History.C05_initial`, `History.C07_exact_rows`, `History.C07_too_long_rejected`, `Manager.C07_run`, `Manager.C08_again_witness`, `Manager.C10_not_started_witness`, `Sampling.Uniform.C100_batches`, `Sampling.Uniform.C100_priorities`, `Sampling.Uniform.C100_local`, `Sampling.Uniform.C100_local_fixed`, `Sampling.Uniform.C101_gpus_zero`, `Sampling.Uniform.C101_gpus_points`, `Sampling.Uniform.C101_points_witness`, `GpuEnv.C103_tiles`, `GpuEnv.C103_disjoint`, `Gens.CalData.C104_batch`, `Gens.CalData.C104_pairs`, `Gens.CalData.C104_short`, `Gens.CalData.C104_places`, `Gens.CalData.C104_observe_partial`, `Manager.C11_twice_witness`, `Manager.C12_exceeded`, `Manager.C12_bundled_quiet`, `Manager.C14_stops_early`, `Manager.C15_stops_at_equal`, `Manager.C17_recorded`, `Manager.C17_missed_witness`, `Manager.C17_final_send_witness`, `Manager.C18_missed_witness`, `System.C19_received_once`, `System.C19_race_witness`, `Manager.C20_final_send_witness`, `Sched.C23_rejected`, `Sched.C23_uneven_witness`, `Sched.C26_failed_leaves_nothing`, `Res.C28_order`, `Alloc.C30_sim_request_partial`, `Alloc.C30_gen_request`, `Alloc.C31_avail_exact`, `Alloc.C31_avail_active_recv`, `Alloc.C31_give_sim_work_first_accepted`, `Alloc.C31_only_persistent_gens_accepted_partial`, `Alloc.C31_finite_diff_accepted`, `Alloc.C31_inverse_bayes_accepted`, `Alloc.C31_pausing_empty_in_witness`, `Alloc.C31_rejected_witness`, `Alloc.C32_choice`, `Alloc.C33_default_allocation`, `Alloc.C34_foreign_rows_witness`, `Manager.C34_final_send_witness`, `Alloc.C35_missing_row_witness`, `Comms.C36_in_order`, `Comms.C36_prefix`, `Comms.C36_never_refused`, `Worker.C37_in_order`, `Worker.C37_put_back`, `Worker.C37_called`, `Worker.C37_runs`, `Worker.C37_one_answer`, `Worker.C37_answers`, `Worker.C37_kill_ignored`, `Worker.C37_nothing_after`, `Worker.C37_finish`, `Worker.C37_exception`, `Worker.C37_report`, `Worker.C37_user_exception`, `Worker.C38_told`, `Worker.C38_separate_partial`, `Exec.C39_killed`, `Exec.C39_signals`, `Worker.C40_reported_partial`, `Exec.C41_status`, `Exec.C41_returns`, `Exec.C41_finished`, `Exec.C41_truth`, `Exec.C41_exact_partial`, `Mpi.C42_accepted_iff`, `Mpi.C43_bounds`, `Mpi.C43_default_within`, `Mpi.C43_nothing_requested`, `Mpi.C43_accepts`, `Mpi.C43_hosts`, `Manager.C49_last_name_witness`, `Manager.C49_leftover_witness`, `Manager.C50_prepended_witness`, `Manager.C50_twice_witness`, `Mpi.C52_layout`, `Mpi.C52_gpus`, `Mpi.C52_accepts`, `Mpi.C52_accepts_over`, `Mpi.C52_gpus_asked`, `Nodes.C53_pbs_partial`, `Alloc.C55_too_many_witness`, `Alloc.C56_two_generators_witness`, `Alloc.C57_start_lost_witness`, `Alloc.C57_order_witness`, `Alloc.C58_lost_witness`, `Alloc.C58_late_witness`, `Alloc.C58_last_open_witness`, `Alloc.C58_cancelled_witness`, `Runner.C59_sends`, `Runner.C59_waits`, `Runner.C59_returns`, `Runner.C59_no_exception_partial`, `Runner.C59_numpy_points`, `Runner.C59_numpy_ingests`, `Runner.C59_disciplined`, `Aposmm.C61_known_witness`, `Aposmm.C62_mu_witness`, `Aposmm.C63_twice_witness`, `Aposmm.C63_first_answer_witness`, `Aposmm.C63_count_witness`, `Aposmm.C64_suggest_errors`, `Aposmm.C64_again_witness`, `Aposmm.C64_second_witness`, `Aposmm.C64_twice_witness`, `Aposmm.C64_order_witness`, `LocalOpt.C65_values`, `LocalOpt.C65_one`, `LocalOpt.C65_outcome`, `LocalOpt.C65_orphan_witness`, `LocalOpt.C65_crash_witness`, `Team.C66_team_partial`, `Team.C66_wrap`, `Team.C66_local_partial`, `Team.C66_stuck`, `Manager.C67_left_over_witness`, `Manager.C67_no_gens_witness`, `Manager.C67_only_gens_witness`, `Manager.C67_uneven_witness`, `Manager.C67_one_worker_witness`, `Manager.C67_silent_gen_witness`, `Manager.C67_taken_back_witness`, `Manager.C68_no_points_witness`, `Manager.C68_cancelling_witness`, `Aposmm.C69_sent`, `Aposmm.C69_given`, `Aposmm.C69_end_partial`, `Aposmm.C69_first_stop`, `Aposmm.C69_lost`, `Aposmm.C69_sample_stop`, `Aposmm.C69_race`, `Aposmm.C69_early_stop`, `System.C70_endless_witness`, `System.C70_mute_witness`, `Gens.C71_cancel_sent_partial`, `Gens.C71_phantom_witness`, `Gens.C71_final`, `Gens.C71_flight`, `Gens.Fd.C72_first`, `Gens.Fd.C72_dimension`, `Gens.Fd.C72_silent_witness`, `Gens.Cal.C73_misplaced`, `Gens.Cal.C73_first`, `Gens.Cal.C73_lost`, `Gens.Cal.C73_hang_witness`, `Tcp.C74_ssh_witness`, `Tcp.C74_linked`, `Tcp.C74_waits`, `System.C75_stays_witness`, `System.C75_hidden_witness`, `Settings.C76_cmd_manager`, `Settings.C76_known`, `Settings.C76_alone_partial`, `Platform.C77_detected`, `Platform.C77_cores`, `Platform.C77_gpus_partial`, `Platform.C77_lsf`, `Platform.C77_runner_partial`, `Platform.C77_lsf_short`, `Platform.C77_methods`, `Manager.C79_same`, `Manager.C79_second`, `Manager.C79_reset`, `Manager.C79_pregen_witness`, `Manager.C79_fast_witness`, `Alloc.Runs.C79_counts`, `Alloc.Runs.C79_once_partial`, `Alloc.Runs.C79_again_down_witness`, `Alloc.Runs.C79_number`, `Gest.C81_once_partial`, `Gest.C81_missing`, `Gest.C81_unknown`, `GpCam.C82_ends`, `GpCam.C82_too_many`, `GpCam.C82_class`, `Timing.C83_attempt`, `Timing.C83_timer_with`, `Timing.C83_lines`, `Launches.C85_env`, `Launches.C85_rest_partial`, `GenInit.C86_kept_partial`, `GenInit.C86_default`, `Interfacer.C87_result`, `Interfacer.C87_exported`, `Interfacer.C87_returns_partial`, `Sampling.C88_bounds`, `Sampling.C88_components`, `Sampling.C88_same_point`, `LocalRun.C89_honest`, `LocalRun.C89_end_partial`, `LocalRun.C89_returns`, `MultiTask.C90_best`, `MultiTask.C90_no_failure`, `Watch.C92_custom`, `Watch.C92_goes_on`, `Watch.C92_bore_goes_on`, `Watch.C92_custom_goes_on_partial`, `Watch.C92_kill_ends`, `Watch.C92_answered`, `Watch.C92_bore_finish_lost`, `Batch.C93_own`, `Batch.C93_answered`, `Batch.C93_lost`, `Batch.C93_dry`, `Batch.C93_mock`, `Batch.C93_mock_batch`, `Batch.C93_mock_witness`, `Batch.C95_each_stored`, `Batch.C95_borehole_first`, `Batch.C95_borehole_right`, `Batch.C95_borehole_stored`, `Batch.C95_short`, `Batch.C95_norm`, `Batch.C95_stored_witness`, `Saved.C96_exact`, `Live.C97_recent`, `Live.C97_min_partial`, `Live.C97_opts_partial`, `Live.C97_marks`, `Live.C97_dots`, `Checks.C98_input_relative`, `Checks.C98_save_partial`, `Checks.C98_cores`, `RunLines.C99_read_none`, `RunLines.C99_read_last`, `RunLines.C99_read_eq`, `RunLines.C99_shift_partial`, `RunLines.C99_expected`, `RunLines.C99_by_worker_partial`
<!-- axioms end -->
