{"id": "C01", "title": "Row i of the history has sim_id i", "statement": "In a run started without H0 (or with H0 whose sim_ids are 0..n-1), after any sequence of generator returns, work hand-outs, simulation returns and give-backs that the history accepts, the visible history returned to the user has sim_id i in row i: ids are unique, contiguous from 0, and never -1.", "quantifier": "every sequence of accepted history operations, every batch size, generators that let libEnsemble number points and generators that supply their own non-negative sim_id", "why_tests_cant": "the ids depend on the whole sequence of batch sizes, gaps, growth events and user-chosen ids; tests use a handful of batches", "anchors": ["libensemble/history.py: History.update_history_x_in", "libensemble/history.py: History.grow_H", "libensemble/history.py: History.trim_H", "libensemble/history.py: History.__init__"]}
{"id": "C02", "title": "Generated points are never lost, reordered or altered", "statement": "When a generator returns n points without a sim_id field, exactly n rows are appended to the visible history, holding the returned field values in the returned order, and every earlier visible row keeps all of its field values.", "quantifier": "every history state reached by any operations, every batch, every number of remaining preallocated rows", "why_tests_cant": "growth happens at data-dependent moments and must copy every field of every row; tests check a few sizes", "anchors": ["libensemble/history.py: History.update_history_x_in", "libensemble/history.py: History.grow_H", "libensemble/history.py: History._append_new_fields"]}
{"id": "C03", "title": "The history never runs out of space and hidden rows stay hidden", "statement": "However many points the generators return, the number of visible rows never exceeds the allocated rows, every write of a generator return lands inside the allocation, and rows that were never generated are not part of the history handed to the user or to the allocation function.", "quantifier": "every sequence of generator returns of any sizes, any sim_max", "why_tests_cant": "the capacity arithmetic (remaining rows, growth doubling) depends on the unbounded sequence of batch sizes", "anchors": ["libensemble/history.py: History.update_history_x_in", "libensemble/history.py: History.grow_H", "libensemble/history.py: History.trim_H"]}
{"id": "C04", "title": "Safe mode protects the bookkeeping fields from user functions", "statement": "With safe_mode set, data returned by a simulation or generator function that contains a protected field (gen_worker, times, sim_worker, sim_started, sim_ended, gen_informed, kill_sent) raises an error and does not write the returned value of any protected field into any row; without protected fields in the data, bookkeeping fields change only as the manager itself changes them.", "quantifier": "every returned record array with any fields in any order, every history state", "why_tests_cant": "field order and row order decide how much is written before the error; tests try one field", "anchors": ["libensemble/history.py: History.update_history_f", "libensemble/history.py: History.update_history_x_in", "libensemble/tools/fields_keys.py: protected_libE_fields"]}
{"id": "C05", "title": "A generator is marked informed only of evaluated points", "statement": "Every row whose gen_informed flag is set also has sim_ended set, at every moment of the run.", "quantifier": "every sequence of history operations from an initial history with that property, safe mode on", "why_tests_cant": "give-backs can name any mixture of ended and unended rows at any time", "anchors": ["libensemble/history.py: History.update_history_to_gen", "libensemble/history.py: History.update_history_f"]}
{"id": "C06", "title": "The generating worker of a point is recorded once", "statement": "Once a row has been produced by a generator, its gen_worker, gen_started_time and gen_ended_time never change, even when another generator later updates that row by sim_id; and they are those of the first generator return that produced the row.", "quantifier": "every later sequence of history operations, safe mode on, clock values positive", "why_tests_cant": "needs arbitrary later updates by other workers", "anchors": ["libensemble/history.py: History.update_history_x_in"]}
{"id": "C07", "title": "A simulation return changes exactly the rows it was computed for", "statement": "Recording the result of a simulation writes the returned values to exactly the rows of the work order, marks exactly these as sim_ended, leaves all other rows untouched, and a vector result shorter than the field replaces only the leading entries; a longer vector is rejected.", "quantifier": "every history, every list of rows of a work order, every returned record array", "why_tests_cant": "rows, fields and widths combine unboundedly", "anchors": ["libensemble/history.py: History.update_history_f"]}
{"id": "C08", "title": "Prepended history is preserved and not charged to this run", "statement": "H0 rows appear first, with their field values unchanged; rows without start/end flags are treated as evaluated; the counters used for the sim_max and gen_max tests start at zero for the new run.", "quantifier": "every H0 with any subset of the bookkeeping fields, every sim_max", "why_tests_cant": "subset of present fields and row counts are unbounded", "anchors": ["libensemble/history.py: History.__init__", "libensemble/manager.py: Manager.term_test_sim_max", "libensemble/manager.py: Manager.term_test_gen_max"]}
{"id": "C09", "title": "A worker never receives a second task while it is busy", "statement": "Whatever the allocation function returns, the manager sends a work order only to a worker that is idle at that moment (or that is in active-receive persistent mode and is sent an active-receive order); otherwise the run stops with an error and nothing is sent to that worker.", "quantifier": "every allocation function (arbitrary answers), every worker state, every interleaving of worker messages", "why_tests_cant": "the allocation function is arbitrary user code; the check must hold for every answer", "anchors": ["libensemble/manager.py: Manager._check_work_order", "libensemble/manager.py: Manager._send_work_order", "libensemble/manager.py: Manager.run"]}
{"id": "C10", "title": "Evaluated implies given", "statement": "Every row that becomes sim_ended during the run was first marked sim_started by a work order to the worker recorded as its sim_worker.", "quantifier": "every allocation function, every schedule of worker replies, crash of any worker", "why_tests_cant": "depends on the interleaving of hand-outs and replies", "anchors": ["libensemble/manager.py: Manager._update_state_on_alloc", "libensemble/manager.py: Manager._update_state_on_worker_msg", "libensemble/history.py: History.update_history_f"]}
{"id": "C11", "title": "No point is evaluated twice", "statement": "With the bundled allocation functions, over the whole run each row is sent to a simulation worker at most once.", "quantifier": "every schedule, every sequence of generator returns, any number of workers, with or without resource limits", "why_tests_cant": "a race between hand-out, cancellation and return would need a specific interleaving", "anchors": ["libensemble/alloc_funcs/give_sim_work_first.py: give_sim_work_first", "libensemble/alloc_funcs/start_only_persistent.py: only_persistent_gens", "libensemble/tools/alloc_support.py: AllocSupport.points_by_priority", "libensemble/manager.py: Manager.run"]}
{"id": "C12", "title": "sim_max limits the number of evaluations", "statement": "With exit criterion sim_max = N, at most N new points are handed to simulation workers during the run.", "quantifier": "every allocation function, every schedule", "why_tests_cant": "batch hand-outs and the order of the work dictionary decide; tests use one-point work orders", "anchors": ["libensemble/manager.py: Manager._sim_max_given", "libensemble/manager.py: Manager.run", "libensemble/specs.py: ExitCriteria.sim_max"]}
{"id": "C13", "title": "Exit criteria are checked in order and stop the hand-out of work", "statement": "The run loop stops exactly when one of the given criteria holds: elapsed time reached (status 2), sim_max new evaluations, gen_max new points or stop_val reached (status 1); wallclock takes precedence; with no criterion met the run continues.", "quantifier": "every history, every set of criteria, every clock value", "why_tests_cant": "combination of criteria and counters is unbounded", "anchors": ["libensemble/manager.py: Manager.term_test", "libensemble/manager.py: Manager.term_test_wallclock", "libensemble/manager.py: Manager.term_test_sim_max", "libensemble/manager.py: Manager.term_test_gen_max", "libensemble/manager.py: Manager.term_test_stop_val"]}
{"id": "C14", "title": "gen_max counts points generated in this run", "statement": "With exit criterion gen_max = N the run stops for that reason exactly when N points have been generated by generator functions in this run, whatever history was prepended.", "quantifier": "every H0, every sequence of generator returns", "why_tests_cant": "needs H0 rows in all combinations of gen_informed flags", "anchors": ["libensemble/manager.py: Manager.term_test_gen_max", "libensemble/history.py: History.__init__", "libensemble/specs.py: ExitCriteria.gen_max"]}
{"id": "C15", "title": "stop_val stops strictly below the value", "statement": "With exit criterion stop_val = (f, v) the run stops for that reason exactly when some evaluated point of the history has f < v, as documented.", "quantifier": "every history and every value v", "why_tests_cant": "the boundary and unevaluated rows are measure-zero for sampled tests", "anchors": ["libensemble/manager.py: Manager.term_test_stop_val", "libensemble/specs.py: ExitCriteria.stop_val"]}
{"id": "C16", "title": "A worker exception stops the whole ensemble once", "statement": "When any worker reports an exception the manager tells every worker to stop, raises the exception exactly once, hands out no further work, and ends with exit status 1 even if further workers fail during shutdown.", "quantifier": "every moment of the run, every set of failing workers", "why_tests_cant": "requires all crash points and double failures", "anchors": ["libensemble/manager.py: Manager._handle_msg_from_worker", "libensemble/manager.py: Manager._final_receive_and_kill", "libensemble/manager.py: Manager._kill_workers"]}
{"id": "C17", "title": "Shutdown reaches every worker", "statement": "However the run loop ends, before the manager returns every persistent worker has been sent a persistent stop, every worker has been sent a finish signal, and unless the time limit or a worker exception intervenes every outstanding result has been received and recorded.", "quantifier": "every state at the end of the loop, every order of the remaining replies", "why_tests_cant": "the order of remaining replies and persistent finishes is unbounded", "anchors": ["libensemble/manager.py: Manager._final_receive_and_kill", "libensemble/manager.py: Manager._kill_workers"]}
{"id": "C18", "title": "Cancelled points are not started, and cancelled running points get one kill", "statement": "A point whose cancellation is requested before it is handed out is never handed out by the bundled allocation functions; with kill_canceled_sims set, every point that is running when the manager next looks and whose cancellation is requested is sent exactly one kill signal, to the worker running it, and no other worker receives one.", "quantifier": "every order of hand-out, cancellation and return", "why_tests_cant": "the search window kept by the manager depends on the order in which rows are handed out and come back", "anchors": ["libensemble/manager.py: Manager._kill_cancelled_sims", "libensemble/history.py: History.update_history_x_out", "libensemble/history.py: History.update_history_f", "libensemble/alloc_funcs/give_sim_work_first.py: give_sim_work_first"]}
{"id": "C19", "title": "The manager's view of busy workers is exact", "statement": "A worker is recorded as busy exactly when a work order sent to it has not been answered yet; so no result is lost, none is recorded twice, and the run cannot end while results are outstanding (except on time limit or exception).", "quantifier": "every interleaving of sends and receives over FIFO channels, any number of workers", "why_tests_cant": "interleavings of distributed messages are unbounded", "anchors": ["libensemble/manager.py: Manager._update_state_on_alloc", "libensemble/manager.py: Manager._update_state_on_worker_msg", "libensemble/worker.py: Worker.run", "libensemble/comms/comms.py: QComm"]}
{"id": "C20", "title": "A resource set is never held by two workers", "statement": "At every moment each resource set is held by at most one worker, a worker holds exactly the sets of its current work order, and when the work order is answered (or a persistent worker finishes) exactly these sets become free.", "quantifier": "every allocation function that takes its sets from the scheduler, every schedule", "why_tests_cant": "depends on the interleaving of assignment and release", "anchors": ["libensemble/resources/worker_resources.py: ResourceManager.assign_rsets", "libensemble/resources/worker_resources.py: ResourceManager.free_rsets", "libensemble/resources/scheduler.py: ResourceScheduler.assign_resources", "libensemble/manager.py: Manager._set_resources"]}
{"id": "C21", "title": "The free-resource counters are exact", "statement": "After any sequence of assignments and releases the numbers of free resource sets reported (total, GPU, non-GPU) equal the actual numbers of unassigned sets.", "quantifier": "every sequence of assign/free operations with any teams", "why_tests_cant": "needs arbitrary sequences, including repeated and overlapping teams", "anchors": ["libensemble/resources/worker_resources.py: ResourceManager.assign_rsets", "libensemble/resources/worker_resources.py: ResourceManager.free_rsets"]}
{"id": "C22", "title": "Every scheduled team is valid", "statement": "A team returned by the scheduler consists of distinct, existing resource sets that are currently free, were not already promised earlier in the same allocation call, have the requested type (GPU/non-GPU), are sorted, number at least as many as requested, and take the same number of sets from every node used; with match_slots the same slots on each.", "quantifier": "every resource layout, every free/busy pattern, every sequence of requests within one allocation call, every option setting and every iteration order of Python sets", "why_tests_cant": "patterns of busy sets are exponential in number", "anchors": ["libensemble/resources/scheduler.py: ResourceScheduler.assign_resources"]}
{"id": "C23", "title": "Requests that can never fit are rejected, others are not", "statement": "A request for more sets than exist of the given type raises InsufficientResourcesError, and any other request, when every set of the ensemble is free, is granted.", "quantifier": "every layout (including unevenly filled nodes), every request size and type", "why_tests_cant": "unevenly filled layouts and sizes near the total are rarely tested", "anchors": ["libensemble/resources/scheduler.py: ResourceScheduler.check_total_rsets_sufficient", "libensemble/resources/scheduler.py: ResourceScheduler.calc_rsets_even_grps", "libensemble/resources/scheduler.py: ResourceScheduler.assign_resources"]}
{"id": "C24", "title": "The scheduler uses a fitting node when there is one", "statement": "Without slot matching, a request that fits on one node is granted whenever some node has enough free sets of the type; the team then lies on a single node with the fewest sufficient free sets, so larger gaps are kept.", "quantifier": "every layout and busy pattern", "why_tests_cant": "best-fit choice depends on all groups' free counts", "anchors": ["libensemble/resources/scheduler.py: ResourceScheduler.find_candidate", "libensemble/resources/scheduler.py: ResourceScheduler.find_rsets_any_slots"]}
{"id": "C25", "title": "The scheduler always answers", "statement": "Every call of the scheduler terminates and ends in a team, 'not enough free' or 'not enough in total'; it never fails with an internal error such as division by zero or an index error.", "quantifier": "every layout produced from node and worker counts, every request and option setting", "why_tests_cant": "loop termination and index bounds over all inputs", "anchors": ["libensemble/resources/scheduler.py: ResourceScheduler.calc_even_split_uneven_groups", "libensemble/resources/scheduler.py: ResourceScheduler.assign_resources"]}
{"id": "C26", "title": "Failed scheduling leaves nothing behind", "statement": "When the scheduler cannot grant a request, later requests in the same allocation call are answered as if the failed one had never been made.", "quantifier": "every sequence of requests", "why_tests_cant": "needs sequences mixing failures and successes", "anchors": ["libensemble/resources/scheduler.py: ResourceScheduler.assign_resources", "libensemble/tools/alloc_support.py: AllocSupport.assign_resources"]}
{"id": "C27", "title": "Nodes are divided among resource sets completely and evenly", "statement": "Splitting nodes over resource sets gives every set at least one node, uses every node, keeps node order, and part sizes differ by at most one; when sets outnumber nodes, every set has exactly one node and per-node counts differ by at most one.", "quantifier": "every number of nodes and resource sets", "why_tests_cant": "remainders for every pair of numbers", "anchors": ["libensemble/resources/rset_resources.py: RSetResources.get_split_list", "libensemble/resources/rset_resources.py: RSetResources.best_split", "libensemble/resources/rset_resources.py: RSetResources.expand_list", "libensemble/resources/rset_resources.py: RSetResources.get_group_list"]}
{"id": "C28", "title": "Default worker-to-resource mapping is one-to-one", "statement": "Without dynamic scheduling each worker that needs resources maps to its own resource set, zero-resource workers map to none, and the mapped sets are 0..n-1 in worker order.", "quantifier": "every number of workers and every set of zero-resource workers", "why_tests_cant": "arbitrary zero-resource sets", "anchors": ["libensemble/resources/worker_resources.py: ResourceManager.get_index_list"]}
{"id": "C29", "title": "Workers sharing a node get different slots and GPUs", "statement": "Two different resource sets on the same node have different slots, slots on a node are 0..k-1, and the GPU index ranges handed to workers holding different slots of a node never overlap and stay below the number of GPUs on the node when that number is divided among the slots.", "quantifier": "every layout, every GPU count per node", "why_tests_cant": "index arithmetic over all counts", "anchors": ["libensemble/resources/worker_resources.py: WorkerResources.get_slots_as_string", "libensemble/resources/worker_resources.py: WorkerResources.set_slot_count", "libensemble/resources/rset_resources.py: RSetResources.get_group_list"]}
{"id": "C30", "title": "Processes and GPUs convert to the least sufficient number of resource sets", "statement": "The number of resource sets computed for a point from num_procs/num_gpus is the least number whose combined processors and GPUs cover the request, never less than the explicit resource_sets given, over all rows of the work order.", "quantifier": "every request and every per-set capacity", "why_tests_cant": "integer rounding on all values", "anchors": ["libensemble/tools/alloc_support.py: AllocSupport._convert_to_rsets", "libensemble/tools/alloc_support.py: AllocSupport._req_resources_sim"]}
{"id": "C31", "title": "Only idle, suitable workers are chosen", "statement": "The list of available workers contains exactly the workers that are idle, in the requested persistent state, generator-only or zero-resource only when asked, each once, so bundled allocation functions never produce a work order the manager rejects.", "quantifier": "every worker table", "why_tests_cant": "all combinations of flags per worker", "anchors": ["libensemble/tools/alloc_support.py: AllocSupport.avail_worker_ids", "libensemble/alloc_funcs/give_sim_work_first.py: give_sim_work_first", "libensemble/alloc_funcs/start_only_persistent.py: only_persistent_gens"]}
{"id": "C32", "title": "Priorities are respected", "statement": "When the history has a priority field, a point handed out has a priority at least as high as every other point available at that moment; with give_all_with_same_priority exactly the available points of the highest priority are handed out together; without the field, points go in order of generation.", "quantifier": "every history and availability mask", "why_tests_cant": "ties and masks", "anchors": ["libensemble/tools/alloc_support.py: AllocSupport.points_by_priority"]}
{"id": "C33", "title": "Default allocation obeys batch mode and the generator limit", "statement": "give_sim_work_first starts a generator only when no point is waiting, never exceeds num_active_gens active generators, and in batch_mode only when every generated point has been evaluated (or cancelled without being started).", "quantifier": "every worker table, history, option setting and resource state", "why_tests_cant": "all combinations", "anchors": ["libensemble/alloc_funcs/give_sim_work_first.py: give_sim_work_first", "libensemble/tools/alloc_support.py: AllocSupport.all_sim_ended"]}
{"id": "C34", "title": "Persistent allocation returns each result to its own generator, once, at the right time", "statement": "only_persistent_gens gives an evaluated point back only to the worker that generated it, at most once over the run, in batch mode only when all points of that generator are evaluated, and starts at most num_active_gens generators; when a generator has finished it asks for shutdown.", "quantifier": "every run, every schedule", "why_tests_cant": "depends on the interleaving of returns and give-backs", "anchors": ["libensemble/alloc_funcs/start_only_persistent.py: only_persistent_gens", "libensemble/history.py: History.update_history_to_gen"]}
{"id": "C35", "title": "In-order allocation functions give every uncancelled row once and in order", "statement": "fast_alloc, ensure_one_active_gen and give_pregenerated_sim_work hand out rows in increasing order, skip cancelled rows, and never hand out a row that does not exist.", "quantifier": "every history with any cancelled rows, any number of idle workers", "why_tests_cant": "trailing cancelled rows and the number of idle workers interact", "anchors": ["libensemble/alloc_funcs/fast_alloc.py: give_sim_work_first", "libensemble/alloc_funcs/only_one_gen_alloc.py: ensure_one_active_gen", "libensemble/alloc_funcs/give_pregenerated_work.py: give_pregenerated_sim_work", "libensemble/tools/alloc_support.py: AllocSupport.skip_canceled_points"]}
{"id": "C36", "title": "Messages arrive once, in order, with push-back", "statement": "Over a communicator every message sent is received exactly once and in order of sending, including when the receiver pushes one received message back before receiving again.", "quantifier": "every interleaving of send, receive and push-back operations", "why_tests_cant": "interleavings unbounded", "anchors": ["libensemble/comms/comms.py: QComm.send", "libensemble/comms/comms.py: QComm.recv", "libensemble/comms/comms.py: QComm.push_to_buffer", "libensemble/comms/mpi.py: MPIComm"]}
{"id": "C37", "title": "A worker answers every work order once and obeys stop signals", "statement": "A worker processes its incoming messages in order, sends exactly one answer per work order it runs, ignores kill signals while idle, sends nothing after a finish signal, and after an exception sends exactly one error report and stops.", "quantifier": "every message sequence and every behaviour of the user function", "why_tests_cant": "arbitrary message sequences", "anchors": ["libensemble/worker.py: Worker.run", "libensemble/worker.py: Worker._handle", "libensemble/worker.py: Worker._handle_calc"]}
{"id": "C38", "title": "A stop received by a persistent user function also stops the worker", "statement": "If a persistent user function receives a finish signal and returns, the worker leaves its main loop without waiting for another message; a persistent stop leads to exactly one final answer; data messages are not consumed as control messages or vice versa.", "quantifier": "every sequence of manager messages and user-function receive calls", "why_tests_cant": "message order races", "anchors": ["libensemble/tools/persistent_support.py: PersistentSupport.recv", "libensemble/worker.py: Worker._handle_calc", "libensemble/comms/comms.py: QComm.push_to_buffer"]}
{"id": "C39", "title": "A finished task stays finished with the same state", "statement": "Once a task is finished its state, error code and success flag never change under any further poll, wait or kill; a task is reported as exactly one of FINISHED, FAILED, USER_KILLED or FAILED_TO_START, and success holds exactly for FINISHED with error code zero.", "quantifier": "every sequence of poll, wait and kill calls, every behaviour of the process", "why_tests_cant": "sequences and process timing unbounded", "anchors": ["libensemble/executors/executor.py: Task.poll", "libensemble/executors/executor.py: Task.wait", "libensemble/executors/executor.py: Task.kill", "libensemble/executors/executor.py: Task._set_complete"]}
{"id": "C40", "title": "A manager kill or finish signal is noticed and kept", "statement": "Polling the manager from a simulation reports a kill or finish signal if one has arrived, and a finish signal remains available to the worker loop afterwards.", "quantifier": "every sequence of arrived messages and polls", "why_tests_cant": "arrival order and repeated polls", "anchors": ["libensemble/executors/executor.py: Executor.manager_poll", "libensemble/comms/comms.py: QComm"]}
{"id": "C41", "title": "The polling loop ends with the right status", "statement": "The executor's polling loop returns WORKER_DONE exactly for tasks that finished with code zero, TASK_FAILED for failing ones, the manager's signal if it was killed by the manager and WORKER_KILL_ON_TIMEOUT on timeout, and the task is finished when the loop returns.", "quantifier": "every process behaviour, timeout and signal arrival", "why_tests_cant": "timing combinations", "anchors": ["libensemble/executors/executor.py: Executor.polling_loop"]}
{"id": "C42", "title": "MPI process layout is consistent with the request", "statement": "If the executor accepts num_procs, num_nodes and procs_per_node, then the resulting layout satisfies num_procs = num_nodes * procs_per_node, every value supplied by the user is honoured, and inconsistent requests raise an error.", "quantifier": "every combination of supplied and omitted values", "why_tests_cant": "all integers, all subsets of arguments", "anchors": ["libensemble/resources/mpi_resources.py: task_partition"]}
{"id": "C43", "title": "Launched tasks stay within the worker's resources", "statement": "The layout chosen from a worker's resources never uses more nodes than assigned and, without oversubscription allowed, never more processes per node than cores assigned; requests beyond raise an error.", "quantifier": "every worker allocation and every request", "why_tests_cant": "all integers", "anchors": ["libensemble/resources/mpi_resources.py: get_resources"]}
{"id": "C44", "title": "Simulation directory names identify the evaluated rows", "statement": "The directory label computed for a work order determines the list of rows exactly; two work orders for different row lists never share a simulation directory, with any zero padding.", "quantifier": "every non-empty list of rows (contiguous or not, any order), every padding width", "why_tests_cant": "encoding injectivity over all lists", "anchors": ["libensemble/utils/misc.py: extract_H_ranges", "libensemble/utils/output_directory.py: EnsembleDirectory._make_calc_dir"]}
{"id": "C45", "title": "Dictionary and array forms of points convert without loss", "statement": "Converting a list of points (dictionaries) to the array form used in the history and back gives the same points.", "quantifier": "every list of points over the same variables, scalars and numbered vector components", "why_tests_cant": "names and dimensions unbounded", "anchors": ["libensemble/utils/misc.py: list_dicts_to_np", "libensemble/utils/misc.py: np_to_list_dicts"]}
{"id": "C46", "title": "Mapping between array fields and generator variables is reversible", "statement": "Unmapping an array to individual variables and mapping it back gives the original array, for every variables mapping; fields that are not part of the mapping are carried through.", "quantifier": "every mapping and array", "why_tests_cant": "arbitrary mappings", "anchors": ["libensemble/utils/misc.py: unmap_numpy_array", "libensemble/utils/misc.py: map_numpy_array"]}
{"id": "C47", "title": "Compressed node lists expand correctly", "statement": "Expanding a scheduler's bracketed node list yields every node of each range exactly once, in order, with zero padding kept.", "quantifier": "every range and width", "why_tests_cant": "all ranges", "anchors": ["libensemble/resources/env_resources.py: EnvResources._range_split", "libensemble/resources/env_resources.py: EnvResources._noderange_append", "libensemble/resources/env_resources.py: EnvResources.get_slurm_nodelist"]}
{"id": "C48", "title": "Working directory is restored", "statement": "After any nesting of directory changes the working directory is the one from before, also when user code raises.", "quantifier": "every nesting and exception point", "why_tests_cant": "arbitrary nesting", "anchors": ["libensemble/utils/loc_stack.py: LocationStack.push", "libensemble/utils/loc_stack.py: LocationStack.pop", "libensemble/utils/loc_stack.py: LocationStack.loc"]}
{"id": "C49", "title": "Periodic checkpoints hold the promised number of points", "statement": "With save_every_k_sims (or gens) a checkpoint is written each time the completed count passes a multiple of k, at most one checkpoint file per kind exists at a time, its name carries the largest multiple of k reached, and it contains all points of the history at that moment.", "quantifier": "every sequence of count increments, any k > 0", "why_tests_cant": "increments may skip multiples", "anchors": ["libensemble/manager.py: Manager._save_every_k", "libensemble/manager.py: Manager._save_every_k_sims", "libensemble/manager.py: Manager._save_every_k_gens"]}
{"id": "C50", "title": "Total evaluation counters match the history", "statement": "The number of points counted as started and as ended equals the number of rows flagged sim_started and sim_ended in the history.", "quantifier": "every run with the bundled allocation functions, every schedule", "why_tests_cant": "would drift only under specific repeated hand-outs", "anchors": ["libensemble/history.py: History.update_history_x_out", "libensemble/history.py: History.update_history_f"]}
{"id": "C51", "title": "A failing launch is retried at most the configured number of times", "statement": "Submitting a task starts its process at most max_launch_attempts times; every attempt but the last one failed (raised, or the process had ended with a non-zero code within the fail time), a task that started well is not launched again, and the state the user sees is that of the last attempt alone.", "quantifier": "every number of attempts and every behaviour of each attempt", "why_tests_cant": "sequences of failing and succeeding launches, unbounded", "anchors": ["libensemble/executors/mpi_executor.py: MPIExecutor._launch_with_retries", "libensemble/executors/executor.py: Task.reset"]}
{"id": "C52", "title": "The MPI layout and GPUs passed on by the executor stay consistent", "statement": "The layout passed to the MPI runner by the executor satisfies num_procs = num_nodes * procs_per_node, honours the supplied num_nodes and procs_per_node, honours num_procs or rounds it up to the next multiple of the nodes, stays within the worker's nodes and (when enforced) cores, and never asks for more GPUs per node than the worker holds.", "quantifier": "every worker allocation, every request for processes, nodes and GPUs", "why_tests_cant": "all integers and all subsets of arguments", "anchors": ["libensemble/executors/mpi_runner.py: MPIRunner.get_mpi_specs", "libensemble/executors/mpi_runner.py: MPIRunner._get_min_nodes", "libensemble/executors/mpi_runner.py: MPIRunner._adjust_procs", "libensemble/executors/mpi_runner.py: MPIRunner._assign_gpus"]}
{"id": "C53", "title": "Node lists of Cobalt, LSF and PBS name every node once", "statement": "The node list read from a Cobalt, LSF or PBS environment names every node (without batch nodes) exactly once, in the order of the numbers (Cobalt) or of the source (LSF, PBS); short names identify the nodes.", "quantifier": "every list of ranges, every list of words or lines", "why_tests_cant": "all lists and ranges", "anchors": ["libensemble/resources/env_resources.py: EnvResources.get_cobalt_nodelist", "libensemble/resources/env_resources.py: EnvResources.get_lsf_nodelist", "libensemble/resources/env_resources.py: EnvResources.get_lsf_nodelist_frm_shortform", "libensemble/resources/env_resources.py: EnvResources.get_pbs_nodelist", "libensemble/resources/env_resources.py: EnvResources.abbrev_nodenames", "libensemble/resources/env_resources.py: EnvResources.cobalt_abbrev_nodenames"]}
{"id": "C54", "title": "persistent_aposmm_alloc runs one generator and feeds it only after the initial sample", "statement": "Over any sequence of calls persistent_aposmm_alloc starts at most one persistent generator; it returns results to the running generator only once the initial sample is evaluated, and then all evaluated rows not returned yet; rows are given out one at a time in the order of their numbers, none twice, none that does not exist or is cancelled and none left out; after the first call it asks for shutdown exactly when no generator runs.", "quantifier": "every sequence of calls with every worker table and history", "why_tests_cant": "state in persis_info is carried over arbitrarily many calls", "anchors": ["libensemble/alloc_funcs/persistent_aposmm_alloc.py: persistent_aposmm_alloc"]}
{"id": "C55", "title": "finite_diff_alloc returns complete pairs to the generator", "statement": "An order of finite_diff_alloc for a running generator contains exactly the evaluated, unreturned rows of the pairs (x_ind, f_ind) that have nf such rows, each once, and is there as soon as there is such a row; waiting rows are given out singly, oldest first, none twice; one generator is started exactly when the history is empty and none runs, and shutdown is asked for exactly when there is a history and none runs.", "quantifier": "every worker table, history and set of options", "why_tests_cant": "all histories and all subsets of idle workers", "anchors": ["libensemble/alloc_funcs/start_fd_persistent.py: finite_diff_alloc"]}
{"id": "C56", "title": "Inverse-Bayes allocation works in whole batches", "statement": "only_persistent_gens_for_inverse_bayes returns to a running generator its whole last batch, exactly when all its rows are evaluated; waiting rows are given out in whole subbatches in the order of their numbers, none twice; a generator is started exactly when none runs and nothing waits.", "quantifier": "every worker table, history and set of options", "why_tests_cant": "all batch and subbatch numberings", "anchors": ["libensemble/alloc_funcs/inverse_bayes_allocf.py: only_persistent_gens_for_inverse_bayes"]}
{"id": "C57", "title": "start_persistent_local_opt_gens leaves workers for evaluations and prefers rows of runs", "statement": "start_persistent_local_opt_gens returns to a run the result of its row given out last, exactly when all its rows are evaluated; runs are started at a best proposed row and never on all workers; waiting rows are given out singly, rows of runs first and older ones first, none twice; a generator for a sample is started exactly when no generator runs, is busy or is started.", "quantifier": "every worker table, history and proposal of starting rows", "why_tests_cant": "all histories and tables", "anchors": ["libensemble/alloc_funcs/start_persistent_local_opt_gens.py: start_persistent_local_opt_gens"]}
{"id": "C58", "title": "Allocation with pausing gives every component once and stops points only for a reason", "statement": "give_sim_work_first of fast_alloc_and_pausing gives every row at most once in a run and never after it was paused; a row is paused only when its point has a NaN or is worse than a complete point and the options say so, and such points are not continued; every row is given, paused or kept for a later call; generators are started within num_active_gens and in batch mode only when all new rows are evaluated or paused.", "quantifier": "every sequence of calls, worker table, history, set order and combining function", "why_tests_cant": "all interleavings of results, pauses and starts", "anchors": ["libensemble/alloc_funcs/fast_alloc_and_pausing.py: give_sim_work_first"]}
{"id": "C59", "title": "Suggest/ingest runners alternate, send what is suggested and ingest what is received", "statement": "StandardGenRunner and LibensembleGenRunner ingest H0 first, if there is one, then alternate between suggest and ingest: every array sent is the one suggested last, every array received is ingested once and in order, and sizes are initial_batch_size, batch_size or the number given by the manager, later batch_size or the number of results. They return exactly when a stop is received, after ingesting the data that came with it and calling finalize once, and the worker then answers once with the status of a finished persistent generator. Without exceptions of the generator they raise none. Points arrive at the manager and results at the generator with the same values.", "quantifier": "every generator, every sequence and timing of messages, every interleaving with the manager", "why_tests_cant": "all generators, message sequences and interleavings", "anchors": ["libensemble/utils/runners.py: StandardGenRunner", "libensemble/utils/runners.py: LibensembleGenRunner"]}
{"id": "C60", "title": "The command line of an MPI task states what was decided", "statement": "For every supported MPI runner the command names the program, the options for processes, nodes and processes per node, the hosts or machine file, and the user's extra arguments. Each quantity is stated by libEnsemble at most once and only if the user did not state it in extra_args; the value the MPI program reads is the one of the layout that was checked against the worker's resources, and the hosts are as many of the worker's nodes as the layout has. With a machine file of the user libEnsemble states no numbers.", "quantifier": "every runner, every request, every extra_args, every worker's resources", "why_tests_cant": "all combinations of runners, arguments and extra arguments", "anchors": ["libensemble/executors/mpi_runner.py: get_mpi_specs, _parse_extra_args, _rm_replicated_args", "libensemble/utils/launcher.py: form_command"]}
{"id": "C61", "title": "APOSMM's distances to better points are right", "statement": "After every pass, every evaluated point (value not NaN) knows its distance to the boundary of the unit cube, and its distances to better local and better sample points are those of other evaluated points of that kind that are at least as good, with no strictly better one closer (exactly the nearest better point if values differ); other points have infinite distances.", "quantifier": "every set of given points, every sequence of results, every metric, every behaviour of the local optimizers", "why_tests_cant": "the distances are updated incrementally in the order in which results arrive", "anchors": ["libensemble/gen_funcs/persistent_aposmm.py: update_history_dist, update_local_H_after_receiving, initialize_APOSMM"]}
{"id": "C62", "title": "APOSMM starts local runs exactly where it says", "statement": "A local optimization run is started only at an evaluated point with finite value that has not been used to start a run, is in no active run, is at least mu from the boundary and at least nu from the minima found, and has no strictly better evaluated point within r_k; every such point with no other point at least as good within r_k is chosen, and equal values do not keep the best sample point from being chosen. Points are tried in the order of their values, each once, as far as max_active_runs allows.", "quantifier": "every set of given points, every sequence of results, every metric and radius, every behaviour of the local optimizers", "why_tests_cant": "the condition concerns all pairs of points after any order of arrivals", "anchors": ["libensemble/gen_funcs/persistent_aposmm.py: decide_where_to_start_localopt, aposmm"]}
{"id": "C63", "title": "APOSMM's local runs get their own results", "statement": "Every local run is given its starting point and then, in order and each once, the results of the points it asked for, and waits for at most one point; no point is asked for by two runs; max_active_runs is respected. Every row is sent to the manager once, numbered consecutively; every pass sends at least as many new points as results came in. For every ended run the row closest to the reported minimum is reported and marked, and no other rows are marked than those of runs that claim a minimum. A pass fails only if a local optimizer fails.", "quantifier": "every set of given points without known_to_aposmm and num_active_runs of an earlier run, every sequence of results that come once each, every behaviour of the local optimizers", "why_tests_cant": "any interleaving of the runs' results and any behaviour of the optimizers", "anchors": ["libensemble/gen_funcs/persistent_aposmm.py: aposmm, update_history_optimal, add_to_local_H, add_k_sample_points_to_local_H"]}
{"id": "C64", "title": "The class APOSMM hands out each point once and passes on the results it is given", "statement": "suggest hands out the points sent by the generator in order and each once, and suggest_updates the minima, in order and each once. Results are passed to the generator together once initial_sample_size of them are given, later ones as they come, unchanged and in order. Used with its generator by a caller that gives each result once, the points are numbered 0, 1, 2, ... without gaps, the generator records exactly the values given for the numbers handed out, fails only if a local optimizer fails, and answers every batch once.", "quantifier": "every sequence of calls of suggest, ingest and suggest_updates with any numbers of points, every interleaving with the generator's process, every behaviour of the local optimizers", "why_tests_cant": "calls, the generator and the optimizers interleave in unboundedly many ways", "anchors": ["libensemble/gen_classes/aposmm.py: APOSMM.suggest_numpy, ingest_numpy, suggest_updates", "libensemble/generators.py: PersistentGenInterfacer", "libensemble/gen_funcs/persistent_aposmm.py: aposmm"]}
{"id": "C65", "title": "Local optimizers get the values they asked for and APOSMM their answers", "statement": "The interfacer and the process of a local optimizer exchange points and values over one shared queue and two events so that the k-th answer APOSMM takes is what the optimizer says after the first k values: its next point, its end or its exception. The optimizer receives exactly the values passed to iterate, in order and each once, each for the point it asked for. Neither side takes a message of its own, at most one message is under way, and every call comes back: after it either the optimizer waits for the value of the point returned, or its process has ended.", "quantifier": "every optimizer, every sequence of calls of iterate and destroy with any values, every interleaving of the statements of both processes and of the feeder threads of the queue", "why_tests_cant": "races between two processes, two feeder threads and two events show only under particular interleavings", "anchors": ["libensemble/gen_funcs/aposmm_localopt_support.py: LocalOptInterfacer.__init__, iterate, destroy, close", "libensemble/gen_funcs/aposmm_localopt_support.py: opt_runner, put_set_wait_get, finish_queue"]}
{"id": "C66", "title": "However a run ends, the workers are ended and the caller is told", "statement": "The clean-up of a run with threads or processes ends every worker that can be ended, within its time limit or by force, and leaves none running. It is done in every case, also after an exception, after the rows produced have been saved if this was asked for, and before MPI is aborted. The caller gets the rows produced and the flag only if the manager's routine returned and the workers were ended; otherwise an exception is raised.", "quantifier": "every team of workers in any states, every way in which the manager's routine ends, all options", "why_tests_cant": "which workers are still busy, have failed or hang at the end, and in which order, has unboundedly many combinations", "anchors": ["libensemble/libE.py: manager, kill_proc_team, libE_local, _dump_on_abort", "libensemble/comms/comms.py: QCommLocal.result, QCommThread.terminate, QCommProcess.terminate, _qcomm_main"]}
{"id": "C67", "title": "The manager does not give up a run while something can be done", "statement": "The manager raises 'alloc_f did not return any work, although all workers are idle' only if all workers are idle, no exit criterion holds and the allocation function gave no orders or sim_max is reached. With give_sim_work_first, fast_alloc, ensure_one_active_gen and give_pregenerated_sim_work this never happens. With only_persistent_gens it happens only if rows wait but every worker that may simulate runs a persistent function, or if no row waits, every persistent generator has been told all results of its points, and no further generator can be started.", "quantifier": "every run of the main loop: any messages of the workers in any order, any points, any number of workers and resource sets, all options", "why_tests_cant": "a stall needs a particular combination of idle workers, rows given, cancelled or waiting and resource sets held, reached by one of unboundedly many histories", "anchors": ["libensemble/manager.py: Manager.run, lines 700-723", "libensemble/alloc_funcs/give_sim_work_first.py: give_sim_work_first", "libensemble/alloc_funcs/fast_alloc.py: give_sim_work_first", "libensemble/alloc_funcs/only_one_gen_alloc.py: ensure_one_active_gen", "libensemble/alloc_funcs/give_pregenerated_work.py: give_pregenerated_sim_work", "libensemble/alloc_funcs/start_only_persistent.py: only_persistent_gens", "libensemble/resources/scheduler.py: ResourceScheduler.assign_resources"]}
{"id": "C68", "title": "A run with sim_max comes to its end", "statement": "With sim_max and an allocation function without persistent functions, the manager receives at most sim_max answers of simulations, and at most as many answers of generators as evaluations, rows cancelled before they were given and workers together. The main loop goes on after a pass only if an exit criterion holds, so that it ends at the next test, or if some worker owes it an answer. So if every worker that owes an answer sends one at some time, and generators send points, the main loop ends; with give_sim_work_first it does not end because the manager finds no work. With only_persistent_gens, the answers of generators are at most as many as generators may run at once, rows came with the history and evaluations are asked for; without active receive the main loop waits only for answers, and ends if those that are owed are sent.", "quantifier": "every infinite sequence of passes of the main loop: any messages of the workers in any order, any points, any number of workers, all options, all times", "why_tests_cant": "that a run ends is a statement about infinite executions; a test that has not ended yet shows nothing", "anchors": ["libensemble/manager.py: Manager.run, term_test, _update_state_on_worker_msg, lines 276-302, 525-527, 700-723", "libensemble/alloc_funcs/give_sim_work_first.py: give_sim_work_first", "libensemble/alloc_funcs/fast_alloc.py: give_sim_work_first", "libensemble/alloc_funcs/only_one_gen_alloc.py: ensure_one_active_gen", "libensemble/alloc_funcs/give_pregenerated_work.py: give_pregenerated_sim_work", "libensemble/alloc_funcs/start_only_persistent.py: only_persistent_gens"]}
{"id": "C69", "title": "The runner of APOSMM moves every message once and in order, and ends when told to", "statement": "LibensembleGenThreadRunner sends every message of the generator to the manager once and in the order in which it came: its points, then its minima (those of the first message after the points of the second). It gives every message of the manager to the generator class once and in order; the generator reads the results of the initial sample in one batch, numbered by position, and the later ones as they came. If generator and manager take turns, the runner raises no exception, nobody waits for ever before a stop, and when a stop comes the generator is told to stop; the runner returns only after this.", "quantifier": "every interleaving of the messages of the generator, the messages of the manager and the steps of the runner; any initial_sample_size, any H0, any messages", "why_tests_cant": "generator, runner and manager run at the same time; tests see the few interleavings that the timing of the machine gives, and the exception of the runner needs two answers to be passed on between two looks at the outbox", "anchors": ["libensemble/utils/runners.py: LibensembleGenThreadRunner, lines 210-245; StandardGenRunner._persistent_result, lines 161-178", "libensemble/gen_classes/aposmm.py: suggest_numpy, ingest_numpy", "libensemble/generators.py: PersistentGenInterfacer", "libensemble/tools/persistent_support.py: PersistentSupport.recv"]}
{"id": "C70", "title": "A whole run of manager and workers with sim_max comes to its end", "statement": "Manager, channels and workers take their steps in any order in which everybody gets their turn. If sim_max is given, the allocation function uses no persistent functions or is only_persistent_gens, user functions that are not persistent look for signals at most and return after finitely many looks, persistent generators send points when they are called and when they get results, or end, and generators send proper points, then every order is answered once, every answer is received, no worker fails, and the main loop ends.", "quantifier": "every run of the manager with give_sim_work_first, fast_alloc, ensure_one_active_gen, give_pregenerated_sim_work or only_persistent_gens, every fair interleaving with the workers and channels, any number of workers, any user functions of that kind, queue or MPI communicators", "why_tests_cant": "that nothing waits for ever is a statement about infinite executions of several processes; a test sees one interleaving and cannot tell a slow run from one that hangs", "anchors": ["libensemble/manager.py: Manager.run, _receive_from_workers, _send_work_order, _kill_cancelled_sims", "libensemble/worker.py: Worker.run, _handle, _recv_H_rows", "libensemble/comms/comms.py: QComm", "libensemble/comms/mpi.py: MPIComm"]}
{"id": "C71", "title": "Persistent sampling generators keep the number of points under way, cancel existing points, and report complete estimates", "statement": "Whatever the manager sends and in arrays of whatever sizes, a sampling generator that waits has sent exactly initial_batch_size points more than it has been given results for; it ends when it is told to stop (or, with a limit, when it has been given that many results) and not before; with cancellations it asks to cancel each point at most once, in order, and only points that have been generated; with a final update it numbers its points from 0 without gaps and returns one row for each, with the mean of all values received for its corner. Together with manager and workers the points received from such a generator are never more than the rows given to it and one first batch for each call, and runs with only_persistent_gens and sim_max end.", "quantifier": "every batch size, every conversation with the manager (any message sizes, any order of results, any tags), every interleaving of manager, channels and workers", "why_tests_cant": "message sizes depend on timing; a test sees a few of them, usually all results at once or one at a time", "anchors": ["libensemble/gen_funcs/persistent_sampling.py: persistent_uniform, uniform_nonblocking, persistent_request_shutdown, batched_history_matching, persistent_uniform_with_cancellations, persistent_uniform_final_update", "libensemble/gen_funcs/persistent_sampling_var_resources.py", "libensemble/gen_funcs/persistent_inverse_bayes.py"]}
{"id": "C72", "title": "The finite-difference generator asks for complete stencils, finds all values it looks for, and stops asking", "statement": "fd_param_finder sends, for each pair of variable and component in a message, nf points, all of the stencil but the base point; if every message is answered completely it finds every value it looks for; the first message is about all pairs, no pair is asked for more than maxnoiseits times (or once), and after maxnoiseits rounds it has ended, or asks for nothing any more.", "quantifier": "every number of variables and components, every nf, every maxnoiseits, all values, rows of answers in any order", "why_tests_cant": "the test has two variables and even nf; the mistakes are with other numbers of variables, with odd nf and with pairs whose estimate never succeeds", "anchors": ["libensemble/gen_funcs/persistent_fd_param_finder.py: fd_param_finder"]}
{"id": "C73", "title": "The calibration generator keeps its books, cancels only pending points, and loses no value", "statement": "surmise_calib stores every value it is given in the cell of its place and parameter; every point sent after the first batch is at any time in exactly one state: pending, recorded with a value that some array brought, or given up by a request to cancel; points are cancelled at most once, only while pending and only in columns that the emulator finds superfluous; the generator never runs in circles without receiving, fails only on an initial batch of the wrong length, and waits only while something is pending that has not been given back.", "quantifier": "every number of places and initial parameters, every answer of the emulator (numbers of new parameters, columns to give up), every sequence of arrays with every numbers and values", "why_tests_cant": "The arrays come in an order and in groups that depend on timing; the tests run one emulator with a few settings and do not look at the cells.", "anchors": ["libensemble/gen_funcs/persistent_surmise_calib.py:54-86", "libensemble/gen_funcs/persistent_surmise_calib.py:89-125", "libensemble/gen_funcs/persistent_surmise_calib.py:128-260"]}
{"id": "C74", "title": "A team of workers on TCP is launched with the right arguments and connected without mixing", "statement": "Each worker that the manager launches over TCP or ssh runs the user's script on its host and learns there its number, the number of workers and how to reach the manager; when all have signed up, in whatever order, the manager has for each exactly one communicator, which is linked with that worker's and shares no queue with any other; the manager's number of a worker is the worker's own number.", "quantifier": "every number of workers, address, port, key, list of hosts, and every order of signing up", "why_tests_cant": "Workers of one test machine usually sign up in the order in which they are started; ssh is not tested.", "anchors": ["libensemble/tools/parse_args.py:94-155", "libensemble/utils/launcher.py:14-25", "libensemble/libE.py:567-616", "libensemble/comms/tcp_mgr.py:15-122"]}
{"id": "C75", "title": "The shutdown of manager and workers comes to its end", "statement": "Manager, channels and workers take their steps in any order in which everybody gets their turn. Once the main loop has ended, without having lost track of the workers, the manager tells every persistent generator to stop, every order is still answered, every generator sends its last message, all of these are received, and run returns or raises an error: it does not wait for ever in _final_receive_and_kill. After a run that returned normally every worker gets the signal to finish, and ends.", "quantifier": "every run of the manager with give_sim_work_first, fast_alloc, ensure_one_active_gen, give_pregenerated_sim_work or only_persistent_gens, however its main loop ends, every fair interleaving with the workers and channels, any number of workers, any user functions that return and generators that end when told to, queue or MPI communicators", "why_tests_cant": "that nothing waits for ever is a statement about infinite executions of several processes; at the end of a run the signals to stop cross results and orders that are on their way, in orders that a test does not choose", "anchors": ["libensemble/manager.py: Manager.run, _final_receive_and_kill, _kill_workers", "libensemble/worker.py: Worker.run, _handle", "libensemble/tools/persistent_support.py: recv, send_recv", "libensemble/comms/comms.py: QComm", "libensemble/comms/mpi.py: MPIComm"]}
{"id": "C76", "title": "An ensemble runs with the settings it was given", "statement": "The command line gives the communicator, number of workers, resource sets and manager that its documentation promises. An Ensemble runs, if it runs, with the communicator it was made with; settings given later are taken over and all others kept; the number of workers it reports is the number it starts; it takes itself for the manager exactly if it is; and other ensembles of the same process do not change its settings.", "quantifier": "every command line, every kind of libE_specs argument, every script of constructions, assignments to libE_specs and nworkers and writes into settings objects, any number of ensembles, any MPI rank and size", "why_tests_cant": "tests make one ensemble per process, in one of a few ways, and look at it right after; the faults appear in combinations of command line, settings objects, dictionaries and later assignments", "anchors": ["libensemble/tools/parse_args.py:35-258", "libensemble/ensemble.py:270-432", "libensemble/utils/validators.py:25-44", "libensemble/utils/specs_checkers.py:66-76", "libensemble/libE.py:151-267"]}
{"id": "C77", "title": "The description of the platform respects the order of its sources", "statement": "The name of the platform comes from libE_specs, else from LIBE_PLATFORM, else from detection, and a detected name is always known. In the description, what the user gives comes first, then what is known about the platform. Cores and GPUs per node come from resource_info, else from the platform, else from the environment, else from detection; a stage does not replace what an earlier one gave. The MPI runner comes from the executor's settings, else from the platform, else from detection, with the command that belongs to it.", "quantifier": "every combination of settings, environment variables, detected names and numbers, and platform_specs with any set of fields, in each of the forms in which they reach get_platform", "why_tests_cant": "the tests run on one machine without the batch systems, and call get_platform with dictionaries that libE never passes", "anchors": ["libensemble/resources/platforms.py:133-343", "libensemble/resources/resources.py:174-270", "libensemble/resources/node_resources.py:53-176", "libensemble/resources/gpu_detect.py:71-96", "libensemble/executors/mpi_executor.py:91-129", "libensemble/executors/mpi_runner.py:14-31, 207-225"]}
{"id": "C78", "title": "Each worker keeps its persistent information and its random numbers", "statement": "add_unique_random_streams gives every number below its limit an unused stream and its number and keeps everything else. A call of a user function gets exactly what earlier calls on the same worker sent back, name by name. If user functions return the dictionary they are given, every call gets what the last call on its worker left, with threads as well as with processes, and no random number is used by two calls. The generators of fast_alloc_and_pausing draw from one stream without repetition.", "quantifier": "every sequence of orders and returns on any number of workers, every user function on dictionaries of the class stated, every initial persis_info, both ways of sending (copies and shared objects), every seed argument", "why_tests_cant": "repeated random numbers and entries of other workers show up only for certain orders of returns and certain transports, and results stay plausible", "anchors": ["libensemble/tools/tools.py:170-220", "libensemble/ensemble.py:540-563", "libensemble/manager.py:537-538", "libensemble/worker.py:292-304", "libensemble/utils/runners.py:51-54", "libensemble/alloc_funcs/fast_alloc_and_pausing.py:121-143", "libensemble/alloc_funcs/give_sim_work_first.py:71-90"]}
{"id": "C79", "title": "What allocation functions keep in persis_info from one run to the next", "statement": "libE returns persis_info for use in a later call, and its default argument is one dictionary for all calls. give_sim_work_first, only_persistent_gens, finite_diff_alloc and the function for inverse Bayes decide from the settings of generators and the number of started generators only, and every run that ends sets that number to 0: a run with the persis_info of an earlier one is the same, event by event, as one with fresh persis_info. Functions with a pointer (fast_alloc, only_one_gen, give_pregenerated_work, persistent_aposmm_alloc) never give out rows below the pointer they begin with. start_persistent_local_opt_gens lowers the number of active runs of the rows of a finished run once.", "quantifier": "every start, every sequence of passes and messages, every pair of persis_info that agree on what is read, every history and set of finished runs", "why_tests_cant": "each test calls libE with persis_info of its own; what is left over matters only in the next call in the same process, which then ends normally without evaluations", "anchors": ["libensemble/libE.py:156", "libensemble/manager.py:639", "libensemble/alloc_funcs/give_pregenerated_work.py:21-37", "libensemble/alloc_funcs/persistent_aposmm_alloc.py:30-40", "libensemble/alloc_funcs/fast_alloc.py:36-55", "libensemble/alloc_funcs/start_persistent_local_opt_gens.py:36-45", "libensemble/tools/alloc_support.py:182-191"]}
{"id": "C80", "title": "Log messages of workers reach the right file once, with the number of the worker", "statement": "However a script has set the levels and names, and however often it has called libE before: each record of the manager, and each record a worker with a communicator logs at or above its level, becomes exactly one line of the log file, or of the statistics file if it is a line of the statistics, labelled with the number of the worker, and one line on stderr if its level is at least the level set for that. Workers write to no file, the manager sends no record on, labels of different workers differ, and all lines of the statistics are written.", "quantifier": "every sequence of settings and earlier calls in the process, every kind of worker, every worker, every record", "why_tests_cant": "the state of Python's loggers is global, inherited by forked processes, and depends on all earlier calls; tests look at the files of one call with the default levels", "anchors": ["libensemble/comms/logs.py:21-212", "libensemble/logger.py:31-72", "libensemble/manager.py:555-557", "libensemble/libE.py:447-503", "libensemble/worker.py:110-111"]}
{"id": "C81", "title": "Simulators in the format of gest-api are called once for each point", "statement": "gest_api_sim calls the simulator exactly once for each point, in order, with the values of the variables and constants of that point and nothing else; row i of the result holds the outputs of point i under their names; an exception of the simulator is passed on; an output that is missing is not made up.", "quantifier": "every simulator (with any state outside), every list of points, every description of inputs and outputs", "why_tests_cant": "test simulators are pure functions that raise nothing; whether a TypeError inside a simulator leads to a second run of an expensive simulation is not visible in their results", "anchors": ["libensemble/sim_funcs/gest_api_wrapper.py:54-93", "libensemble/utils/runners.py:17-67"]}
{"id": "C82", "title": "Points chosen by posterior variance are spread, the search for them ends, and results are told for their points", "statement": "With use_grid, the batch of persistent_gpCAM_covar and GP_CAM_Covar has exactly the wanted number of different mesh points, the one of largest variance first, any two of them at least the final radius apart, and the search for them ends. Without it, no candidate left out has a larger posterior variance than one that was taken. The surrogate is told every point with its own value, without those that are not numbers.", "quantifier": "every mesh, variances, radii and batch size; every sequence of random points; every answer of the manager", "why_tests_cant": "the regression tests run a batch of four on one mesh and look at the mean variance at the end, which falls for random points as well; the order of an answer is that of the batch unless something goes wrong", "anchors": ["libensemble/gen_funcs/persistent_gpCAM.py:129-154", "libensemble/gen_funcs/persistent_gpCAM.py:246-280", "libensemble/gen_classes/gpCAM.py:79-153"]}
{"id": "C83", "title": "The times of a task are those of its process", "statement": "Once the end of a task was noticed, runtime and total_time are the time from its start to then and do not change again; before, total_time is None and runtime is that of the last poll. With retries they are those of the last attempt. The time shown in libE_stats.txt is total_time, and every task is in exactly one line.", "quantifier": "every sequence of polls, waits and kills at any times, every number and outcome of launch attempts, with and without wait_on_start; every sequence of submissions and lines", "why_tests_cant": "tests of timing compare with wide tolerances on one machine; that a task which ends before the first poll has no time, or that a retried one is counted twice, needs a failure at the right moment", "anchors": ["libensemble/utils/timer.py:55-77", "libensemble/executors/executor.py:207-263", "libensemble/executors/executor.py:391-414", "libensemble/executors/executor.py:654-673", "libensemble/executors/mpi_executor.py:139-184", "libensemble/executors/mpi_executor.py:384-386"]}
{"id": "C84", "title": "Results are copied back", "statement": "When all workers have ended, every file that user functions wrote into the ensemble directory is in the directory of copies at the same place with its last content. Every file in the copy was in the ensemble directory.", "quantifier": "every setting of use_worker_dirs, sim_dirs_make, gen_dirs_make and reuse_output_dir, every number of workers, every interleaving of calls, writes and ends of workers", "why_tests_cant": "tests copy back from runs where workers end together and write only into their own directories; what is lost depends on names and on the order in which workers end", "anchors": ["libensemble/utils/output_directory.py:120-169", "libensemble/utils/output_directory.py:187-218", "libensemble/worker.py:427-430"]}
{"id": "C85", "title": "A task is launched as what was asked for", "statement": "submit runs the application last registered under the name, or else the last one registered for the kind of calculation. The task carries the number of its worker and a name that no other task has; numbers of processes and GPUs that are not given are those of the worker's order. Its process has the environment variables decided for the task and otherwise those at the start. A worker that polls the manager looks at its own messages.", "quantifier": "every sequence of registrations; every interleaving of constructions, orders, submissions and ends of any number of workers, in processes or threads", "why_tests_cant": "tests submit tasks of one kind with equal settings one after another; variables left over from an earlier task or set by another thread appear only with mixed tasks and certain interleavings", "anchors": ["libensemble/executors/executor.py:120-159", "libensemble/executors/executor.py:219-224", "libensemble/executors/executor.py:460-541", "libensemble/executors/executor.py:679-682", "libensemble/executors/mpi_executor.py:307-388", "libensemble/worker.py:97-98", "libensemble/worker.py:186-216", "libensemble/libE.py:447-460"]}
{"id": "C86", "title": "Generator objects have the mapping and the settings they were made with", "statement": "A generator object maps the fields that the user mapped as given, \"x\" to the variables and \"f\" to the objectives not mapped elsewhere, so that every variable is mapped to exactly one field; its settings are the keyword arguments over the given ones, and a given persis_info is kept. Making further generators changes none of this. APOSMM has one bound for each of its variables and computes its constants with their number.", "quantifier": "every VOCS, every mapping, and every sequence of constructions with given, shared or default dictionaries, also with failing ones", "why_tests_cant": "tests make one generator per process, with a mapping that names all variables", "anchors": ["libensemble/generators.py:41-92", "libensemble/gen_classes/aposmm.py:173-257"]}
{"id": "C87", "title": "The interface to a persistent generator hands over all points, results and errors", "statement": "Calls of suggest get the points of the generator function in the order it sends them, each once and none left out; ingest sends the fields of persis_in with their values, sim_ended set, and the ids of the rows; after finalize, export returns the value of the function and nothing else. If the function ends, every call returns or raises, and an error of the function is raised.", "quantifier": "every sequence of calls of setup, suggest, ingest, finalize and export, every list of messages of the generator function, every array", "why_tests_cant": "tests call suggest and ingest in turn with a function that works; other orders of calls and failing functions are not tried", "anchors": ["libensemble/generators.py:120-246", "libensemble/comms/comms.py:142-275"]}
{"id": "C88", "title": "Samples are what they are called", "statement": "A Latin hypercube sample of k points has, in every dimension, exactly one point in each of the k intervals of the same length, and lies in the domain; when components are sampled one at a time, each point has one row for each component, these rows have its number, and no two points have the same number.", "quantifier": "every number of points and dimensions, all random numbers and permutations, all bounds; every number of components and every sequence of calls and batches", "why_tests_cant": "tests look at one stream of random numbers and check bounds only; numbers of points are compared in one run with one generator at a time", "anchors": ["libensemble/gen_funcs/sampling.py:108-133", "libensemble/gen_funcs/sampling.py:159-201"]}
{"id": "C89", "title": "A local optimization run evaluates what the optimizer asks for and says how it ended", "statement": "In persistent mode uniform_or_localopt sends every point the optimizer asks for, apart from the one it starts from, once and in order, and gives the optimizer the value received for it; the optimizer stops after localopt_maxeval evaluations; the run returns done exactly if the optimizer returned, with x_opt exactly for the exit codes of success, and an error is told apart from a stop by the manager.", "quantifier": "every optimizer (as a function of what it has seen), every starting row, every limit and every list of replies", "why_tests_cant": "one test runs NLopt with one method on one function; errors of NLopt, results without value and stops in the midst of a run do not occur in it", "anchors": ["libensemble/gen_funcs/uniform_or_localopt.py:26-29", "libensemble/gen_funcs/uniform_or_localopt.py:45-113"]}
{"id": "C90", "title": "The multitask generator alternates fidelities, repeats the best points and keeps what it learns", "statement": "persistent_gp_mt_ax_gen_f sends an initial batch of high and one of low fidelity, then by turns a batch of low fidelity proposed for the last trial of high fidelity and a batch with the n_opt_hifi best of its points; each value goes to the point at its position; nothing is sent after a stop, at which it returns; it does not fail for any numbers of points, and every trial with values is in a saved experiment.", "quantifier": "all numbers of points, all points and predictions of Ax as functions of the trials so far, every list of replies", "why_tests_cant": "the one test has fixed numbers with n_opt_hifi below n_opt_lofi, needs Ax, and does not look at the choice of points or the files", "anchors": ["libensemble/gen_funcs/persistent_ax_multitask.py:147-302", "libensemble/gen_funcs/persistent_ax_multitask.py:314-341", "libensemble/gen_funcs/persistent_ax_multitask.py:363-384"]}
{"id": "C91", "title": "Settings from a file are added to those that are there", "statement": "from_yaml, from_toml and from_json leave each field of an attribute with the value from the file if the file gives it and otherwise with the value it had, by name or alias; attributes the file does not name, and other ensembles, are not touched; a refused file changes nothing; output fields keep name, type and size.", "quantifier": "all files, all earlier settings as dictionaries, objects or nothing, all contents of memory, every conversion", "why_tests_cant": "the tests load one complete file into one new ensemble and look at the result", "anchors": ["libensemble/ensemble.py:27-33", "libensemble/ensemble.py:270-288", "libensemble/ensemble.py:447-537"]}
{"id": "C92", "title": "A simulator that watches a task reports how it ended, and its worker goes on", "statement": "custom_polling_loop of executor_hworld returns once the task has ended, WORKER_DONE only for code zero and TASK_FAILED only for another code, and otherwise why the task was killed; a worker whose simulator uses it, the polling loop of the executor or borehole answers every order and ends only if the manager has told it to finish; borehole sets sim_killed and an infinite value exactly for killed and failed points.", "quantifier": "every behaviour of the processes, every number of passes, all messages and all interleavings of messages and steps of the worker", "why_tests_cant": "the tests of executor_hworld send no kill signal for a single point and those of borehole always have the field sim_killed; both effects need a signal while a task is running", "anchors": ["libensemble/sim_funcs/executor_hworld.py:20-67", "libensemble/sim_funcs/borehole_kills.py:24-61", "libensemble/worker.py:285-304", "libensemble/worker.py:372-374", "libensemble/message_numbers.py:34-35"]}
{"id": "C93", "title": "A simulator that runs a task for each point returns for each point what its own task has written, and a replayed run is the run", "statement": "multi_points_with_variable_resources and the functions for one point of var_resources return for each point the number written by the task of this point, whatever out.txt contained before, with status done exactly if all tasks have ended with code zero and TASK_FAILED otherwise; with mock_sim the history gets for every order the values of the file in the rows of the order.", "quantifier": "all batches, all behaviours of the tasks, all former contents of out.txt, all files and histories", "why_tests_cant": "the tests run tasks that end well in fresh directories, dry runs with another application, and mock_sim for one row at a time", "anchors": ["libensemble/sim_funcs/var_resources.py:56-77", "libensemble/sim_funcs/var_resources.py:155-184", "libensemble/sim_funcs/var_resources.py:203-254", "libensemble/sim_funcs/mock_sim.py:13-21", "libensemble/history.py:131-151", "libensemble/executors/mpi_executor.py:151"]}
{"id": "C94", "title": "The gradients of the test simulators are the derivatives of their values", "statement": "six_hump_camel_grad is the gradient of six_hump_camel_func; the Jacobian of rosenbrock, for one component or all, is the gradient of the component or of the sum divided by const, and the gradient of the sum is the sum of those of the components; the Jacobian of chwirut1 is that of its residuals wherever they are defined; periodic_func is periodic.", "quantifier": "all points, all dimensions, all components, all observations, all constants other than zero", "why_tests_cant": "tests compare minima that were found with tolerances, at a few points", "anchors": ["libensemble/sim_funcs/six_hump_camel.py:113-138", "libensemble/sim_funcs/rosenbrock.py:31-44", "libensemble/sim_funcs/rosenbrock.py:68-83", "libensemble/sim_funcs/chwirut1.py:227-258", "libensemble/sim_funcs/periodic_func.py:23-27"]}
{"id": "C95", "title": "Each point of a batch gets its own value", "statement": "A simulator of sim_funcs that is given several points in one order returns for each of them the value of this point, and the history has it in the row of the point.", "quantifier": "all batches, all functions of the points, all histories", "why_tests_cant": "nearly all tests give simulators one point at a time, and compare no values of single points for batches", "anchors": ["libensemble/sim_funcs/borehole.py:18-25", "libensemble/sim_funcs/borehole.py:57-69", "libensemble/sim_funcs/surmise_test_function.py:10-45", "libensemble/sim_funcs/simple_sim.py:21-24", "libensemble/sim_funcs/six_hump_camel.py:37-50", "libensemble/history.py:131-151"]}
{"id": "C96", "title": "Saved results are found again and not replaced", "statement": "save_libE_output writes the whole history to the file whose name it returns and persis_info to the other file, and changes no other file; the results of another script or of a run with other results are not replaced; check_npy_file_exists says that there is a file exactly if the results have been saved in time.", "quantifier": "all histories, names of scripts, numbers of workers, directories, all sequences of files seen by the checks", "why_tests_cant": "tests save once, with one script name, into an empty directory", "anchors": ["libensemble/tools/tools.py:79-82", "libensemble/tools/tools.py:88-165", "libensemble/tools/tools.py:223-260"]}
{"id": "C97", "title": "The picture of a running ensemble is up to date", "statement": "After each message of a worker the picture of Plot2N shows all points and all local minima that have been found, except for fewer than 50 evaluations since it was drawn, and its numbers are those of the history.", "quantifier": "all sequences of histories seen by live_update", "why_tests_cant": "the pictures of tests are not looked at", "anchors": ["libensemble/tools/live_data/plot2n.py:68-136", "libensemble/manager.py:534-535", "libensemble/manager.py:636-637"]}
{"id": "C98", "title": "The checks complete the settings as asked, once and for all", "statement": "The checks of the settings use the workflow directory that is asked for, accept only input directories that exist and are not the working directory, make directories and save the history if other settings imply it, accept only exit criteria on fields of the history, and fill in the fields of a user function that the settings leave open; every value that the type allows is accepted or refused with a message; making the checks again changes nothing.", "quantifier": "all values of these settings, all working directories, all file systems, all random names", "why_tests_cant": "tests use a few names of directories, given in one form, and make each check once", "anchors": ["libensemble/utils/specs_checkers.py:19-25", "libensemble/utils/specs_checkers.py:79-102", "libensemble/utils/validators.py:73-79", "libensemble/utils/validators.py:130-136", "libensemble/utils/validators.py:178-197", "libensemble/specs.py:354-397"]}
{"id": "C99", "title": "The checks of run lines accept the right lines and no others", "statement": "The checks of tools/test_support.py accept a line exactly if it has the program of the runner, its option for processes per node, and the setting for GPUs that the resources of the worker and the request call for; the checks of run_line_check.py compare each worker's line with the line for this worker.", "quantifier": "all lines, all names of options, all resources of workers, all platforms, all numbers of workers and generators", "why_tests_cant": "these checks are themselves the tests of the settings for GPUs; a check that accepts too much hides errors, and nothing tests the checks", "anchors": ["libensemble/tools/test_support.py:4-62", "libensemble/tools/test_support.py:65-100", "libensemble/tools/test_support.py:103-257", "libensemble/sim_funcs/run_line_check.py:7-33", "libensemble/sim_funcs/run_line_check.py:105-110"]}
{"id": "C100", "title": "Uniform samples are in the domain and do not depend on how they are drawn", "statement": "The uniform samples of gen_funcs/sampling.py and gen_funcs/uniform_or_localopt.py have the number of points asked for, all in the domain; the same random numbers give the same points however they are divided into batches; the requests for resource sets are within the limit and the priorities are as described; and points are left to be evaluated.", "quantifier": "all streams of random numbers, all domains, all sizes of batches, all limits of resource sets", "why_tests_cant": "tests draw a few samples with fixed seeds and sizes", "anchors": ["libensemble/gen_funcs/sampling.py:20-105", "libensemble/gen_funcs/sampling.py:136-156", "libensemble/gen_funcs/uniform_or_localopt.py:30-43", "libensemble/gen_funcs/uniform_or_localopt.py:116-133"]}
{"id": "C101", "title": "Requests for resources of persistent samples are within their limits", "statement": "The generators of gen_funcs/persistent_sampling_var_resources.py give in each batch as many points as came back before, all in the domain; each point asks for at least one resource set, process or GPU and for no more than the limit; GPUs match processes, or the part of the range the point is in; priorities match resource sets; and the generators raise in no case but an impossible limit.", "quantifier": "all streams of random numbers, all domains, all limits, all sequences of answers", "why_tests_cant": "tests run a few batches with fixed seeds, limits and domains", "anchors": ["libensemble/gen_funcs/persistent_sampling_var_resources.py:35-248"]}
{"id": "C102", "title": "Test simulators compute the functions they are named after", "statement": "The Branin function has its minimum exactly at the places of known_minima_and_func_values; the noisy functions are the terms of the six-hump camel function with a bounded relative error; the borehole function gives a positive flow for every point in its bounds; the calibration model maps standardized values into the ranges of its parameters, is positive, and fails exactly for values more than a quarter above the true ones.", "quantifier": "all points of the domains", "why_tests_cant": "tests evaluate a few points; minima and bounds are statements about all real numbers", "anchors": ["libensemble/sim_funcs/branin/branin.py:10-20", "libensemble/sim_funcs/borehole.py:4-69", "libensemble/sim_funcs/noisy_vector_mapping.py:27-49", "libensemble/sim_funcs/surmise_test_function.py:26-100"]}
{"id": "C103", "title": "Variables for GPUs show each worker its own GPUs", "statement": "The lists written by set_env_to_slots and set_env_to_gpus have each GPU or tile of the worker's slots once and no other, so that workers with different slots of a node share none; no more than the generator asked for are listed; the variable is the one given, of the platform, or of CUDA; no other variable changes; and a worker without GPUs sees none.", "quantifier": "all lists of slots, numbers of GPUs and tiles, limits, platforms and environments", "why_tests_cant": "tests use a few layouts; overlaps and stale values depend on the sequence of teams of all workers", "anchors": ["libensemble/resources/worker_resources.py:210-289"]}
{"id": "C104", "title": "Each pair of a place and a parameter is sent for calibration once", "statement": "The batches of the calibration generator have one row for each pair of a place and a parameter, in the row that its bookkeeping of the initial batch expects, whatever was in the array; the first batch has each place with the true parameter; priorities are different numbers below the number of points; places are in their domain; and each true value gets an observation with a positive variance.", "quantifier": "all places, parameters, shuffles and random numbers, all sizes", "why_tests_cant": "the test runs one configuration, and needs the surmise package", "anchors": ["libensemble/gen_funcs/persistent_surmise_calib.py:104-137", "libensemble/gen_funcs/surmise_calib_support.py:40-56"]}
