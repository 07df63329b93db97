{
 "claims": [
  {
   "property": "C01",
   "status": "partial",
   "theorems": [
    "Verif.History.C01_row_ids_partial",
    "Verif.History.C01_ids_unique_partial",
    "Verif.Manager.C01_run_partial",
    "Verif.History.C01_negative_id_witness",
    "Verif.History.C01_sim_id_from_sim_witness",
    "Verif.History.C01_sim_max_zero_witness"
   ],
   "note": "Proved for every operation list when generators return no or non-negative sim_id and simulations return no sim_id column. The code violates the unguarded statement; three witnesses."
  },
  {
   "property": "C02",
   "status": "proved",
   "theorems": [
    "Verif.History.C02_append",
    "Verif.History.C02_kept",
    "Verif.History.C02_accepted",
    "Verif.Manager.C02_run"
   ],
   "note": "For every reachable history; bookkeeping (protected) fields returned by a generator outside safe mode are excluded because libEnsemble stamps over them."
  },
  {
   "property": "C03",
   "status": "partial",
   "theorems": [
    "Verif.History.C03_capacity_partial",
    "Verif.History.C03_visible_rows_generated",
    "Verif.Manager.C03_run"
   ],
   "note": "Same guard on user-supplied sim_ids as C01 (negative ids). C03_run counts the rows of the history of a whole run: prepended rows and one for each point received (generators that do not number their points)."
  },
  {
   "property": "C04",
   "status": "proved",
   "theorems": [
    "Verif.History.C04_sim_rejected",
    "Verif.History.C04_gen_rejected",
    "Verif.History.C04_bookkeeping"
   ],
   "note": ""
  },
  {
   "property": "C05",
   "status": "proved",
   "theorems": [
    "Verif.History.C05_informed_ended",
    "Verif.History.C05_initial",
    "Verif.History.C05_prepended",
    "Verif.Manager.C05_run"
   ],
   "note": "The initial condition holds without and with a prepended history. C05_run: at every moment of every run, also when it raises."
  },
  {
   "property": "C06",
   "status": "proved",
   "theorems": [
    "Verif.History.C06_stamp_of_first_return",
    "Verif.History.C06_stamp_constant",
    "Verif.Manager.C06_started",
    "Verif.Manager.C06_run"
   ],
   "note": "The first two for every sequence of history operations, the others for whole runs: the start time is the time of the entry after the last generator order to that worker, the end time that of recording the message."
  },
  {
   "property": "C07",
   "status": "proved",
   "theorems": [
    "Verif.History.C07_exact_rows",
    "Verif.History.C07_too_long_rejected",
    "Verif.Manager.C07_run",
    "Verif.Manager.C07_run_final",
    "Verif.System.C07_workers_partial"
   ],
   "note": "The first two for every history operation; C07_run for each message of a run, C07_run_final for the history at the end of the run, C07_workers_partial for manager and workers together (bundled allocation functions, user functions that return at their end)."
  },
  {
   "property": "C08",
   "status": "partial",
   "theorems": [
    "Verif.History.C08_prepended_partial",
    "Verif.History.C08_validated_partial",
    "Verif.History.C08_counters",
    "Verif.History.C08_sim_max_zero_witness",
    "Verif.History.C08_ended_overwritten_witness",
    "Verif.Manager.C08_run_partial",
    "Verif.System.C08_workers_partial",
    "Verif.Manager.C08_again_witness"
   ],
   "note": "Proved for sim_max > 0, in full for every H0 that passes the check made by libE(). For sim_max = 0 the code overwrites ids and times of H0 (witness); sim_ended of H0 is overwritten when sim_started is absent (witness; libE() refuses such H0); the gen_max counter is C14. C08_run_partial: prepended started rows are unchanged through a whole run with allocation functions that choose among the waiting rows; functions that count through the rows give them again and overwrite them (witness)."
  },
  {
   "property": "C09",
   "status": "proved",
   "theorems": [
    "Verif.Manager.C09_only_idle",
    "Verif.Manager.C09_refused"
   ],
   "note": "Every allocation answer, every message order, every start state of the manager."
  },
  {
   "property": "C10",
   "status": "partial",
   "theorems": [
    "Verif.Manager.C10_evaluated_was_given_partial",
    "Verif.Manager.C10_final_partial",
    "Verif.Manager.C10_bundled_partial",
    "Verif.System.C10_only_given_partial",
    "Verif.System.C10_workers_partial",
    "Verif.Manager.C10_not_started_witness"
   ],
   "note": "Whole run including shutdown and errors, any allocation function: a row that becomes sim_ended is marked sim_started and was sent to its sim_worker before; for the bundled functions the result also comes from that worker. Assumes safe mode or no protected field in returned arrays, workers that return only rows they were sent (proved for the worker program with all interleavings when user functions send simulation results only for simulation orders and the manager raises no error in an order: System.C10_*), and orders that address a worker by its number and use active_recv only with persistent. Witness: an order with active_recv but not persistent is sent, then refused before the history is told, and its row ends up sim_ended without sim_started."
  },
  {
   "property": "C100",
   "status": "partial",
   "theorems": [
    "Verif.Sampling.Uniform.C100_inside",
    "Verif.Sampling.Uniform.C100_batches",
    "Verif.Sampling.Uniform.C100_resources",
    "Verif.Sampling.Uniform.C100_priorities",
    "Verif.Sampling.Uniform.C100_cancel",
    "Verif.Sampling.Uniform.C100_cancel_all",
    "Verif.Sampling.Uniform.C100_local",
    "Verif.Sampling.Uniform.C100_local_rows",
    "Verif.Sampling.Uniform.C100_local_fixed"
   ],
   "note": "Number, domain, independence of batches, resources and priorities: proved. Partial because uniform_random_sample_cancel cancels the first point of every batch, so that with batches of one point none is left (C100_cancel_all), and the sample of uniform_or_localopt divides by zero for a coordinate that is fixed by its bounds (C100_local_fixed)."
  },
  {
   "property": "C101",
   "status": "partial",
   "theorems": [
    "Verif.Sampling.Uniform.C101_rsets",
    "Verif.Sampling.Uniform.C101_procs",
    "Verif.Sampling.Uniform.C101_diff",
    "Verif.Sampling.Uniform.C101_priorities",
    "Verif.Sampling.Uniform.C101_gpus_partial",
    "Verif.Sampling.Uniform.C101_gpus_zero",
    "Verif.Sampling.Uniform.C101_raises",
    "Verif.Sampling.Uniform.C101_gpus_points",
    "Verif.Sampling.Uniform.C101_points_witness",
    "Verif.Sampling.Uniform.C101_sizes",
    "Verif.Sampling.Uniform.C101_stream",
    "Verif.Sampling.Uniform.C101_stream_diff",
    "Verif.Sampling.Uniform.C101_stream_prio"
   ],
   "note": "Sizes of batches, domain, limits, match of GPUs, processes and priorities: proved for all runs. Partial because with max_gpus 0 each point asks for one GPU (C101_gpus_zero; C101_gpus_partial assumes a positive limit), and uniform_sample_with_var_gpus raises if the first coordinate has no range (C101_raises)."
  },
  {
   "property": "C102",
   "status": "partial",
   "theorems": [
    "Verif.TestFuncs.C102_branin",
    "Verif.TestFuncs.C102_branin_minima",
    "Verif.TestFuncs.C102_branin_file",
    "Verif.TestFuncs.C102_noise",
    "Verif.TestFuncs.C102_flow_partial",
    "Verif.TestFuncs.C102_flow_negative",
    "Verif.TestFuncs.C102_scale",
    "Verif.TestFuncs.C102_fail"
   ],
   "note": "Branin, the noisy function and the calibration model: proved. Partial because the bounds of the borehole function admit a radius of influence below the radius of the borehole, for which the flow can be negative (C102_flow_negative); C102_flow_partial assumes the greater radius. Real numbers, no rounding."
  },
  {
   "property": "C103",
   "status": "partial",
   "theorems": [
    "Verif.GpuEnv.C103_entries",
    "Verif.GpuEnv.C103_tiles",
    "Verif.GpuEnv.C103_disjoint",
    "Verif.GpuEnv.C103_name",
    "Verif.GpuEnv.C103_set_partial",
    "Verif.GpuEnv.C103_slots",
    "Verif.GpuEnv.C103_raises",
    "Verif.GpuEnv.C103_unnamed",
    "Verif.GpuEnv.C103_stale",
    "Verif.GpuEnv.C103_limit",
    "Verif.GpuEnv.C103_slots_witness",
    "Verif.GpuEnv.C103_text",
    "Verif.GpuEnv.C103_text_disjoint"
   ],
   "note": "The entries of the list, that they are disjoint, the name of the variable and when the calls raise: proved. Partial because a worker without GPUs keeps the variable of an earlier task (C103_stale), the limit of the generator counts for each node (C103_limit), and a platform that sets variables but names none makes the call raise (C103_unnamed)."
  },
  {
   "property": "C104",
   "status": "partial",
   "theorems": [
    "Verif.Gens.CalData.C104_batch",
    "Verif.Gens.CalData.C104_pairs",
    "Verif.Gens.CalData.C104_short",
    "Verif.Gens.CalData.C104_truth",
    "Verif.Gens.CalData.C104_priority",
    "Verif.Gens.CalData.C104_places",
    "Verif.Gens.CalData.C104_observe_partial",
    "Verif.Gens.CalData.C104_one"
   ],
   "note": "The rows of all batches, the priorities and the places: proved. Partial because with a single place gen_observations raises (C104_one); C104_observe_partial is for any other number of places."
  },
  {
   "property": "C11",
   "status": "partial",
   "theorems": [
    "Verif.Manager.C11_in_order",
    "Verif.Manager.C11_waiting_partial",
    "Verif.Manager.C11_twice_witness"
   ],
   "note": "All modelled bundled allocation functions, whole run including shutdown and errors. For the functions that choose among waiting rows only in safe mode or when no user function returns a protected field; otherwise a generator can reset sim_started and the row is evaluated again (witness)."
  },
  {
   "property": "C12",
   "status": "partial",
   "theorems": [
    "Verif.Manager.C12_gate",
    "Verif.Manager.C12_at_most_partial",
    "Verif.Manager.C12_exceeded",
    "Verif.Manager.C12_bundled_quiet"
   ],
   "note": "At most N when every simulation order holds at most one row; a batch order goes over N (witness)."
  },
  {
   "property": "C13",
   "status": "proved",
   "theorems": [
    "Verif.Manager.termTest_iff",
    "Verif.Manager.C13_loop",
    "Verif.Manager.C13_no_work_after"
   ],
   "note": ""
  },
  {
   "property": "C14",
   "status": "partial",
   "theorems": [
    "Verif.Manager.C14_counts",
    "Verif.Manager.C14_new_points_partial",
    "Verif.Manager.C14_stops_early"
   ],
   "note": "Holds when all prepended rows are gen_informed; otherwise the prepended rows count and the run stops early (witness)."
  },
  {
   "property": "C15",
   "status": "partial",
   "theorems": [
    "Verif.Manager.C15_strictly_below_partial",
    "Verif.Manager.C15_stops_at_equal"
   ],
   "note": "The code stops at values less than or equal to stop_val (witness); the documented reading holds when no value equals it."
  },
  {
   "property": "C16",
   "status": "partial",
   "theorems": [
    "Verif.Manager.C16_reported",
    "Verif.Manager.C16_once",
    "Verif.Manager.C16_no_more_work",
    "Verif.Manager.C16_outcome",
    "Verif.Manager.C16_one_more_pass",
    "Verif.Manager.C16_status_never_returned"
   ],
   "note": "Everything except the exit status (and after an exception of the main loop the manager makes at most one more receiving pass): the status 1 computed in the shutdown is never returned, the run raises instead (proved)."
  },
  {
   "property": "C17",
   "status": "partial",
   "theorems": [
    "Verif.Manager.C17_finish",
    "Verif.Manager.C17_persistent_partial",
    "Verif.Manager.C17_received_partial",
    "Verif.Manager.C17_recorded",
    "Verif.System.C17_all_received_partial",
    "Verif.Manager.C17_missed_witness",
    "Verif.Manager.C17_final_send_witness"
   ],
   "note": "Persistent stops and outstanding results: proved unless the loop ends with an error raised after an order was sent or while recording (then false, witness); with final_gen_send the shutdown itself can fail (witness). With the workers and channels: nothing is on the way when a run is over, for user functions that follow the rules of Disciplined and Careful."
  },
  {
   "property": "C18",
   "status": "partial",
   "theorems": [
    "Verif.Manager.C18_cancelled_not_given",
    "Verif.Manager.C18_kill_running_partial",
    "Verif.Manager.C18_kill_once_partial",
    "Verif.Manager.C18_search_window_partial",
    "Verif.Manager.C18_search_rising_partial",
    "Verif.Manager.C18_in_order_partial",
    "Verif.Manager.C18_checked_start",
    "Verif.Manager.C18_missed_witness"
   ],
   "note": "Proved for every run: bundled functions never order a row whose cancellation is requested; each kill signal is for a running cancelled row, goes to the worker the row was sent to, and no row gets two; each pass signals exactly the due rows in the window last_ended..last_started. For fast_alloc, only_one_gen and give_pregenerated_sim_work the window contains every running row, so every due row is signalled. Violated by the code when rows are given out of order (priorities): C18_missed_witness. Assumed: prepended rows are evaluated or not started, protected fields are not written by user functions or safe mode is on, user functions do not renumber rows."
  },
  {
   "property": "C19",
   "status": "partial",
   "theorems": [
    "Verif.Manager.C19_table_exact",
    "Verif.System.C19_both_sides_partial",
    "Verif.System.C19_table_workers_partial",
    "Verif.System.C19_received_once",
    "Verif.Manager.C17_recorded",
    "Verif.System.C17_all_received_partial",
    "Verif.System.C19_race_witness"
   ],
   "note": "Manager, workers and channels together, every interleaving. Not after an error raised in the middle of an order or of a recording, after a worker exception, with final_gen_send. False for persistent functions that end without being asked to (witness)."
  },
  {
   "property": "C20",
   "status": "partial",
   "theorems": [
    "Verif.Manager.C20_sets_partial",
    "Verif.Manager.C20_bundled_partial",
    "Verif.Manager.C20_final_send_witness"
   ],
   "note": "Every allocation function that takes its sets from the scheduler (the six bundled ones are shown to), every schedule: at every moment the sets held (read from the messages) exist and are held by one worker only, sets are taken only when nobody holds them, and the table of the manager names exactly the holders whenever the loop takes a message, tests its condition or has sent an order, and at the end of a run without exception. Partial: without final_gen_send (the witness shows that its order names the default set of the worker though another worker holds it); messages of running persistent functions carry a calculation type; the table is not compared after an exception (sets of a failed calculation are never released)."
  },
  {
   "property": "C21",
   "status": "partial",
   "theorems": [
    "Verif.Res.C21_counters_partial",
    "Verif.Res.C21_duplicate_witness"
   ],
   "note": "Proved for teams without repeated members; false otherwise (witness)."
  },
  {
   "property": "C22",
   "status": "proved",
   "theorems": [
    "Verif.Sched.C22_team_valid",
    "Verif.Sched.C22_teams_disjoint"
   ],
   "note": "Every layout from the node splitter (distinct nodes, gpus_per_group not 0), every busy pattern, options, set orders and request sequences."
  },
  {
   "property": "C23",
   "status": "partial",
   "theorems": [
    "Verif.Sched.C23_rejected",
    "Verif.Sched.C23_rejected_only",
    "Verif.Sched.C23_granted_partial",
    "Verif.Sched.C23_uneven_witness"
   ],
   "note": "Granting proved on evenly filled layouts; false on uneven layouts (witness)."
  },
  {
   "property": "C24",
   "status": "proved",
   "theorems": [
    "Verif.Sched.C24_single_node"
   ],
   "note": "Also with slot matching."
  },
  {
   "property": "C25",
   "status": "proved",
   "theorems": [
    "Verif.Sched.C25_always_answers"
   ],
   "note": ""
  },
  {
   "property": "C26",
   "status": "proved",
   "theorems": [
    "Verif.Sched.C26_failed_leaves_nothing"
   ],
   "note": ""
  },
  {
   "property": "C27",
   "status": "proved",
   "theorems": [
    "Verif.Res.C27_more_nodes",
    "Verif.Res.C27_more_sets",
    "Verif.Res.C27_local",
    "Verif.Res.C27_groups"
   ],
   "note": "Node names distinct."
  },
  {
   "property": "C28",
   "status": "proved",
   "theorems": [
    "Verif.Res.C28_order",
    "Verif.Res.C28_one_to_one"
   ],
   "note": ""
  },
  {
   "property": "C29",
   "status": "partial",
   "theorems": [
    "Verif.Res.C29_group_slots",
    "Verif.Res.C29_disjoint",
    "Verif.Res.C29_gpu_bound_partial",
    "Verif.Res.C29_uneven_witness"
   ],
   "note": "GPU bound proved on evenly filled layouts; on uneven layouts worker slots exceed the number of GPUs (witness)."
  },
  {
   "property": "C30",
   "status": "partial",
   "theorems": [
    "Verif.Alloc.C30_convert",
    "Verif.Alloc.C30_sim_request_partial",
    "Verif.Alloc.C30_gen_request",
    "Verif.Alloc.C30_team_covers",
    "Verif.Alloc.C30_procs_ignored_witness"
   ],
   "note": "With a resource_sets column the processes asked for are ignored (witness); otherwise the request is the least sufficient number for every row."
  },
  {
   "property": "C31",
   "status": "partial",
   "theorems": [
    "Verif.Alloc.C31_avail_exact",
    "Verif.Alloc.C31_avail_active_recv",
    "Verif.Alloc.C31_give_sim_work_first_accepted",
    "Verif.Alloc.C31_fast_alloc_accepted",
    "Verif.Alloc.C31_one_gen_accepted",
    "Verif.Alloc.C31_pregenerated_accepted",
    "Verif.Alloc.C31_only_persistent_gens_accepted_partial",
    "Verif.Alloc.C31_aposmm_accepted_partial",
    "Verif.Alloc.C31_finite_diff_accepted",
    "Verif.Alloc.C31_inverse_bayes_accepted",
    "Verif.Alloc.C31_local_opt_accepted",
    "Verif.Alloc.C31_pausing_accepted_partial",
    "Verif.Alloc.C31_pausing_empty_in_witness",
    "Verif.Alloc.C31_rejected_witness"
   ],
   "note": "The persistent functions produce a rejected order when a generator without in fields is started on a non-empty history (witness)."
  },
  {
   "property": "C32",
   "status": "proved",
   "theorems": [
    "Verif.Alloc.C32_choice",
    "Verif.Alloc.C32_give_sim_work_first",
    "Verif.Alloc.C32_only_persistent_gens"
   ],
   "note": "Priorities are integers (no NaN)."
  },
  {
   "property": "C33",
   "status": "proved",
   "theorems": [
    "Verif.Alloc.C33_default_allocation"
   ],
   "note": ""
  },
  {
   "property": "C34",
   "status": "partial",
   "theorems": [
    "Verif.Alloc.C34_answer",
    "Verif.Alloc.C34_foreign_rows_witness",
    "Verif.Manager.C34_run_orders",
    "Verif.Manager.C34_run_once_partial",
    "Verif.Manager.C34_run_all_running",
    "Verif.Manager.C34_run_finished",
    "Verif.Manager.C34_run_asks",
    "Verif.Manager.C34_final_send_witness"
   ],
   "note": "Per answer and for whole runs, every schedule. At most once: in safe mode or when no user function returns a protected field. Fails for two kinds of sends, shown by witnesses: the order that starts a generator carries all rows, including evaluated rows of other generators; the last array of final_gen_send goes to the first persistent worker whoever produced the rows."
  },
  {
   "property": "C35",
   "status": "partial",
   "theorems": [
    "Verif.Alloc.C35_in_order",
    "Verif.Alloc.C35_skips_cancelled",
    "Verif.Alloc.C35_fast_alloc_rows_exist",
    "Verif.Alloc.C35_rows_exist_partial",
    "Verif.Alloc.C35_missing_row_witness"
   ],
   "note": "Two of the three functions order a row past the end when the last rows are cancelled (witness)."
  },
  {
   "property": "C36",
   "status": "proved",
   "theorems": [
    "Verif.Comms.C36_in_order",
    "Verif.Comms.C36_prefix",
    "Verif.Comms.C36_complete",
    "Verif.Comms.C36_never_refused",
    "Verif.Comms.C36_local",
    "Verif.Comms.C36_push_twice_witness",
    "Verif.Comms.C36_push_twice_mpi",
    "Verif.Comms.C36_mail_flag_witness",
    "Verif.Comms.C36_kill_pending_witness"
   ],
   "note": "Queue and MPI communicators, every interleaving in which a message is pushed back only as the one received last and before receiving again. Assumes that queues and MPI deliver in order. The witnesses show what happens outside that use: a second push-back overwrites the first (queues) or is refused (MPI), mail_flag of a queue communicator does not see a pushed-back message, kill_pending of MPI cancels messages not yet under way."
  },
  {
   "property": "C37",
   "status": "proved",
   "theorems": [
    "Verif.Worker.C37_in_order",
    "Verif.Worker.C37_put_back",
    "Verif.Worker.C37_called",
    "Verif.Worker.C37_runs",
    "Verif.Worker.C37_one_answer",
    "Verif.Worker.C37_answers",
    "Verif.Worker.C37_kill_ignored",
    "Verif.Worker.C37_nothing_after",
    "Verif.Worker.C37_finish",
    "Verif.Worker.C37_exception",
    "Verif.Worker.C37_report",
    "Verif.Worker.C37_user_exception"
   ],
   "note": "Every sequence of messages, every interleaving of arrivals with steps of the worker, every user function (any strategy of sends, receives, polls, return or exception). Outgoing messages lost by kill_pending of MPI are C36_kill_pending_witness."
  },
  {
   "property": "C38",
   "status": "partial",
   "theorems": [
    "Verif.Worker.C38_finish_partial",
    "Verif.Worker.C38_one_answer",
    "Verif.Worker.C38_told",
    "Verif.Worker.C38_separate_partial",
    "Verif.Worker.C38_own_status_witness",
    "Verif.Worker.C38_stop_as_rows_witness",
    "Verif.Worker.C38_no_rows_witness",
    "Verif.Worker.C38_poll_witness"
   ],
   "note": "Finish: proved when the function returns no status of its own; otherwise the signal is lost (witness). One answer: proved. Separation: proved when the manager sends rows directly after their order, orders to a running persistent function have rows and polls meet stop messages only; false otherwise (three witnesses)."
  },
  {
   "property": "C39",
   "status": "partial",
   "theorems": [
    "Verif.Exec.C39_stays",
    "Verif.Exec.C39_reported",
    "Verif.Exec.C39_success_partial",
    "Verif.Exec.C39_noticed",
    "Verif.Exec.C39_killed",
    "Verif.Exec.C39_signals",
    "Verif.Exec.C39_dry_run_witness",
    "Verif.Exec.C39_race_witness",
    "Verif.Exec.C39_cancel_witness"
   ],
   "note": "States and permanence: proved for every sequence of calls and process behaviour. Success holds exactly for FINISHED with code zero except for dry runs, which have no code (witness). A process that ends between the poll inside kill and the signal is reported USER_KILLED (witness). cancel() sends no signal (witness)."
  },
  {
   "property": "C40",
   "status": "partial",
   "theorems": [
    "Verif.Worker.C40_reported_partial",
    "Verif.Worker.C40_kept",
    "Verif.Worker.C38_finish_partial",
    "Verif.Worker.C40_second_poll_witness",
    "Verif.Worker.C40_persis_stop_witness"
   ],
   "note": "Reporting: proved when the first waiting message has the stop tag and, for queue communicators, it has not been pushed back by an earlier poll (otherwise false, witnesses). Keeping: proved."
  },
  {
   "property": "C41",
   "status": "partial",
   "theorems": [
    "Verif.Exec.C41_status",
    "Verif.Exec.C41_not_started",
    "Verif.Exec.C41_returns",
    "Verif.Exec.C41_finished",
    "Verif.Exec.C41_truth",
    "Verif.Exec.C41_exact_partial",
    "Verif.Exec.C41_same_pass_witness",
    "Verif.Exec.C41_not_launched_witness",
    "Verif.Exec.C41_killed_before_witness"
   ],
   "note": "The status never lies about WORKER_DONE and TASK_FAILED, and the task is finished. The other direction holds unless the process ends in the very pass in which a signal is found or the time is over (witness). A task never launched, or killed before the loop, gives no status (witnesses)."
  },
  {
   "property": "C42",
   "status": "partial",
   "theorems": [
    "Verif.Mpi.C42_honours_partial",
    "Verif.Mpi.C42_accepted_iff",
    "Verif.Mpi.C42_default",
    "Verif.Mpi.C42_machinefile",
    "Verif.Mpi.C42_zero_witness"
   ],
   "note": "All integers, all subsets of arguments. Exception: a supplied 0 counts as omitted (witness). With a machinefile nothing is checked (as documented)."
  },
  {
   "property": "C43",
   "status": "proved",
   "theorems": [
    "Verif.Mpi.C43_bounds",
    "Verif.Mpi.C43_refused",
    "Verif.Mpi.C43_default_within",
    "Verif.Mpi.C43_nothing_requested",
    "Verif.Mpi.C43_no_resources",
    "Verif.Mpi.C43_accepts",
    "Verif.Mpi.C43_hosts",
    "Verif.Mpi.C43_node_total",
    "Verif.Mpi.C43_negative_witness",
    "Verif.Mpi.C43_refused_witness"
   ],
   "note": "Core bounds hold when enforce_worker_core_bounds is set (the code default is off, which is how oversubscription is allowed). Includes the total over workers with disjoint resource sets. Uneven slots are refused by a TypeError. A machinefile or a missing resource detection bypasses get_resources."
  },
  {
   "property": "C44",
   "status": "proved",
   "theorems": [
    "Verif.Labels.C44_label",
    "Verif.Labels.C44_injective",
    "Verif.Labels.C44_directories",
    "Verif.Labels.C44_sim_gen",
    "Verif.Labels.C44_worker_dirs",
    "Verif.Labels.C44_gen_dirs",
    "Verif.Labels.C44_empty_witness",
    "Verif.Labels.C44_shared_witness"
   ],
   "note": "Every non-empty list, any padding; directories with sim_dirs_make."
  },
  {
   "property": "C45",
   "status": "partial",
   "theorems": [
    "Verif.Arrays.C45_round_trip_partial",
    "Verif.Arrays.C45_types_witness",
    "Verif.Arrays.C45_missing_source_witness",
    "Verif.Arrays.C45_key_witness",
    "Verif.Arrays.C45_given_witness",
    "Verif.Arrays.C45_empty_list_witness"
   ],
   "note": "Every list of points over the same variables with the types of the first point, every meaningful mapping, without a given dtype. Otherwise values are converted, cut or lost (witnesses); with a given dtype that names a mapped field (also after the first call, which appends to the list of the caller) the variables come back as zeros."
  },
  {
   "property": "C46",
   "status": "partial",
   "theorems": [
    "Verif.Arrays.C46_round_trip_partial",
    "Verif.Arrays.C46_other_fields",
    "Verif.Arrays.C46_carried",
    "Verif.Arrays.C46_history_witness",
    "Verif.Arrays.C46_sizes_witness",
    "Verif.Arrays.C46_shared_witness"
   ],
   "note": "Round trip when the fields are those of the mapping with fitting sizes. The second part of the statement is false: mapping back raises for every field outside the mapping (proved in general), although unmapping itself carries it with its values (C46_carried)."
  },
  {
   "property": "C47",
   "status": "partial",
   "theorems": [
    "Verif.Nodes.C47_expand",
    "Verif.Nodes.C47_zeros",
    "Verif.Nodes.C47_in_order_partial",
    "Verif.Nodes.C47_range",
    "Verif.Nodes.C47_range_down",
    "Verif.Nodes.C47_order_witness",
    "Verif.Nodes.C47_second_bracket_witness",
    "Verif.Nodes.C47_other_witness"
   ],
   "note": "Every node exactly once with its zeros: proved for every list. Order of the numbers: proved for numbers of equal width; otherwise the list is in the order of strings (witness). Only the first bracket of a name is expanded (witness)."
  },
  {
   "property": "C48",
   "status": "partial",
   "theorems": [
    "Verif.Locs.C48_stack_partial",
    "Verif.Locs.C48_block_partial",
    "Verif.Locs.C48_location_partial",
    "Verif.Locs.C48_program_partial",
    "Verif.Locs.C48_exception_partial",
    "Verif.Locs.C48_no_slips",
    "Verif.Locs.C48_entry_witness",
    "Verif.Locs.C48_removed_witness",
    "Verif.Locs.C48_unregistered_witness"
   ],
   "note": "Every nesting, exceptions anywhere, any change of directory by user code, as long as the changes made by the stack itself succeed (shown to follow when no directory is removed and the named directories exist). False otherwise: a block whose directory does not exist leaves its entry behind, so the block around it goes back to the wrong directory (witness)."
  },
  {
   "property": "C49",
   "status": "partial",
   "theorems": [
    "Verif.Manager.C49_contents",
    "Verif.Manager.C49_up_to_date",
    "Verif.Manager.C49_at_end",
    "Verif.Manager.C49_last_name_witness",
    "Verif.Manager.C49_leftover_witness"
   ],
   "note": "Proved for every save made in the loop. The file written at the end carries the number of evaluations, not a multiple of k, and a file left by an earlier run is kept and can block the new one (witnesses)."
  },
  {
   "property": "C50",
   "status": "partial",
   "theorems": [
    "Verif.Manager.C50_totals_partial",
    "Verif.Manager.C50_final_partial",
    "Verif.Manager.C50_prepended_witness",
    "Verif.System.C50_once_partial",
    "Verif.System.C50_workers_partial",
    "Verif.Manager.C50_twice_witness"
   ],
   "note": "At every moment of every run with a modelled bundled allocation function, including shutdown and errors. Assumed: safe mode or no protected field in returned arrays, workers return only rows they were sent and each of them once (proved for the worker program with all interleavings when user functions return the results of their order at the end: System.C50_*), prepended evaluated rows are marked as started; for functions that work through the rows in order no prepended row is marked as started (otherwise false, witness: a prepended evaluated row is given again and counted twice). A row returned twice is counted twice (witness)."
  },
  {
   "property": "C51",
   "status": "proved",
   "theorems": [
    "Verif.Exec.C51_launch",
    "Verif.Exec.C51_result"
   ],
   "note": "Model of _launch_with_retries and Task.reset."
  },
  {
   "property": "C52",
   "status": "proved",
   "theorems": [
    "Verif.Mpi.C52_layout",
    "Verif.Mpi.C52_gpus",
    "Verif.Mpi.C52_accepts",
    "Verif.Mpi.C52_accepts_over",
    "Verif.Mpi.C52_setting",
    "Verif.Mpi.C52_gpus_asked",
    "Verif.Mpi.C52_machinefile_witness",
    "Verif.Mpi.C52_no_gpus_witness"
   ],
   "note": "Non-negative numbers in the request."
  },
  {
   "property": "C53",
   "status": "partial",
   "theorems": [
    "Verif.Nodes.C53_cobalt",
    "Verif.Nodes.C53_lsf",
    "Verif.Nodes.C53_lsf_short",
    "Verif.Nodes.C53_pbs_partial",
    "Verif.Nodes.C53_short",
    "Verif.Nodes.C53_cobalt_short",
    "Verif.Nodes.C53_pbs_witness",
    "Verif.Nodes.C53_cobalt_short_witness"
   ],
   "note": "PBS: names that differ only after the first dot come twice (witness). Cobalt short names: node 0 becomes the empty name (witness)."
  },
  {
   "property": "C54",
   "status": "proved",
   "theorems": [
    "Verif.Alloc.C54_answer",
    "Verif.Alloc.C54_one_generator",
    "Verif.Alloc.C54_after_sample",
    "Verif.Alloc.C54_in_order",
    "Verif.Alloc.C54_none_skipped"
   ],
   "note": "Any sequence of calls with arbitrary tables and histories in between, starting from an empty persis_info. None left out: the table shows a running generator only after this function started one."
  },
  {
   "property": "C55",
   "status": "proved",
   "theorems": [
    "Verif.Alloc.C55_returns",
    "Verif.Alloc.C55_evaluations",
    "Verif.Alloc.C55_generator",
    "Verif.Alloc.C55_too_many_witness"
   ],
   "note": "Under the history property that sim_id is the row number (C01). The last part of C55_evaluations (no row left while a worker is) is without resource management."
  },
  {
   "property": "C56",
   "status": "proved",
   "theorems": [
    "Verif.Alloc.C56_returns",
    "Verif.Alloc.C56_evaluations",
    "Verif.Alloc.C56_generator",
    "Verif.Alloc.C56_one_generator",
    "Verif.Alloc.C56_two_generators_witness"
   ],
   "note": "For every call that returns an answer; with rows of several generators the function raises (C56_one_generator, witness)."
  },
  {
   "property": "C57",
   "status": "partial",
   "theorems": [
    "Verif.Alloc.C57_returns",
    "Verif.Alloc.C57_starts",
    "Verif.Alloc.C57_evaluations_partial",
    "Verif.Alloc.C57_sample",
    "Verif.Alloc.C57_progress_partial",
    "Verif.Alloc.C57_start_lost_witness",
    "Verif.Alloc.C57_order_witness"
   ],
   "note": "Without workers reserved for generators, orders overwrite each other: a start of a run is lost, the preferred row is not given out (witnesses)."
  },
  {
   "property": "C58",
   "status": "partial",
   "theorems": [
    "Verif.Alloc.C58_once",
    "Verif.Alloc.C58_reason",
    "Verif.Alloc.C58_nan_partial",
    "Verif.Alloc.C58_worse_partial",
    "Verif.Alloc.C58_kept_partial",
    "Verif.Alloc.C58_generator",
    "Verif.Alloc.C58_lost_witness",
    "Verif.Alloc.C58_late_witness",
    "Verif.Alloc.C58_last_open_witness",
    "Verif.Alloc.C58_cancelled_witness"
   ],
   "note": "Rows can be lost without batch mode and reserved workers, rows arriving after the pause of their point are given out, the last open point is not stopped (witnesses)."
  },
  {
   "property": "C59",
   "status": "partial",
   "theorems": [
    "Verif.Runner.C59_real",
    "Verif.Runner.C59_sends",
    "Verif.Runner.C59_waits",
    "Verif.Runner.C59_acts",
    "Verif.Runner.C59_returns",
    "Verif.Runner.C59_answer",
    "Verif.Runner.C59_no_exception_partial",
    "Verif.Runner.C59_points_partial",
    "Verif.Runner.C59_ingests_partial",
    "Verif.Runner.C59_numpy_points",
    "Verif.Runner.C59_numpy_ingests",
    "Verif.Runner.C59_disciplined",
    "Verif.Runner.C59_both_sides_partial",
    "Verif.Runner.C59_all_received_partial",
    "Verif.Runner.C59_zeros_witness",
    "Verif.Runner.C59_later_results_witness",
    "Verif.Runner.C59_early_stop_witness",
    "Verif.Runner.C59_finish_witness",
    "Verif.Runner.C59_empty_witness"
   ],
   "note": "Order and contents of the conversation proved for all generators, message sequences and interleavings, and combined with the manager (both sides agree; nothing is lost). Partial: no exception needs a generator that accepts None as first results or no early stop without data; values are kept without out and with uniform points; later results are not unmapped. Witnesses for each."
  },
  {
   "property": "C60",
   "status": "partial",
   "theorems": [
    "Verif.Mpi.C60_stated",
    "Verif.Mpi.C60_complete",
    "Verif.Mpi.C60_gpus",
    "Verif.Mpi.C60_attached",
    "Verif.Mpi.C60_agrees_partial",
    "Verif.Mpi.C60_hosts",
    "Verif.Mpi.C60_machinefile",
    "Verif.Mpi.C60_both_witness",
    "Verif.Mpi.C60_rounded_witness",
    "Verif.Mpi.C60_zero_witness",
    "Verif.Mpi.C60_task_gpus_witness",
    "Verif.Mpi.C60_help_witness",
    "Verif.Mpi.C60_gpu_name_witness"
   ],
   "note": "Stated once, by the user or by libEnsemble: proved for all runners. Agreement with the layout: proved unless the user gives a number twice, writes 0, or asks in extra_args for processes that do not divide over the nodes (then the layout is rounded up but the command is not; witnesses). extra_args without quotation marks; values attached with = are shown to be read like separate words, other attached values (-n4) are excluded."
  },
  {
   "property": "C61",
   "status": "partial",
   "theorems": [
    "Verif.Aposmm.C61_distances_partial",
    "Verif.Aposmm.C61_exact_partial",
    "Verif.Aposmm.C61_known_witness"
   ],
   "note": "For every reachable state, metric and optimizer. Partial: given rows must not be marked known_to_aposmm (their distances are reset and never computed; witness). Results arrive once each. Distances are never NaN."
  },
  {
   "property": "C62",
   "status": "partial",
   "theorems": [
    "Verif.Aposmm.C62_sound_partial",
    "Verif.Aposmm.C62_complete_partial",
    "Verif.Aposmm.C62_sorted",
    "Verif.Aposmm.C62_started",
    "Verif.Aposmm.C62_samples",
    "Verif.Aposmm.C62_best_partial",
    "Verif.Aposmm.C62_mu_witness"
   ],
   "note": "For every state in which the generator decides. Partial: given rows without known_to_aposmm and num_active_runs of an earlier run. The documentation says more than mu and nu, the code accepts equality (witness). Sorting is modelled as stable."
  },
  {
   "property": "C63",
   "status": "proved",
   "theorems": [
    "Verif.Aposmm.C63_errors",
    "Verif.Aposmm.C63_begin",
    "Verif.Aposmm.C63_own_points",
    "Verif.Aposmm.C63_apart",
    "Verif.Aposmm.C63_values",
    "Verif.Aposmm.C63_ends",
    "Verif.Aposmm.C63_sent",
    "Verif.Aposmm.C63_busy",
    "Verif.Aposmm.C63_reported",
    "Verif.Aposmm.C63_minima",
    "Verif.Aposmm.C63_twice_witness",
    "Verif.Aposmm.C63_first_answer_witness",
    "Verif.Aposmm.C63_count_witness"
   ],
   "note": "For every reachable state; optimizers are arbitrary answers. The witnesses show that a repeated result is a KeyError, that an optimizer that ends at once makes the generator fail, and that num_active_runs of a starting point becomes -1. Standalone mode, user-supplied sample rounds and the optimizer processes are not modelled."
  },
  {
   "property": "C64",
   "status": "partial",
   "theorems": [
    "Verif.Aposmm.C64_handed_partial",
    "Verif.Aposmm.C64_suggest",
    "Verif.Aposmm.C64_suggest_errors",
    "Verif.Aposmm.C64_passed",
    "Verif.Aposmm.C64_ingest_errors",
    "Verif.Aposmm.C64_numbers_partial",
    "Verif.Aposmm.C64_generator_partial",
    "Verif.Aposmm.C64_values_partial",
    "Verif.Aposmm.C64_answers_partial",
    "Verif.Aposmm.C64_again_witness",
    "Verif.Aposmm.C64_second_witness",
    "Verif.Aposmm.C64_twice_witness",
    "Verif.Aposmm.C64_zero_witness",
    "Verif.Aposmm.C64_lost_witness",
    "Verif.Aposmm.C64_order_witness"
   ],
   "note": "For every sequence of calls and every interleaving with the generator. Partial: suggest(0) while a message is partly handed out hands out its points again; a run that ends without a minimum has its last point handed out again; results of the initial sample are renumbered in their order of arrival; a second suggest before any result is a TypeError; results without a number all get 0; initial_sample_size 0 loses the first results (witnesses). With the generator: suggest is called first (sample points of the generator)."
  },
  {
   "property": "C65",
   "status": "partial",
   "theorems": [
    "Verif.LocalOpt.C65_answers",
    "Verif.LocalOpt.C65_values",
    "Verif.LocalOpt.C65_one",
    "Verif.LocalOpt.C65_outcome",
    "Verif.LocalOpt.C65_returns",
    "Verif.LocalOpt.C65_orphan_witness",
    "Verif.LocalOpt.C65_crash_witness"
   ],
   "note": "For every optimizer (an arbitrary function of the values it has been given), every sequence of calls and every interleaving of the two processes and their feeder threads. Partial: if the first point asked for is not the starting point the constructor raises and its process stays behind (witness). A child ended from outside makes the parent wait for ever (witness, not among the steps of the theorems). The optimizers' own computations are assumed to end."
  },
  {
   "property": "C66",
   "status": "partial",
   "theorems": [
    "Verif.Team.C66_team_partial",
    "Verif.Team.C66_wrap",
    "Verif.Team.C66_local_partial",
    "Verif.Team.C66_stuck",
    "Verif.Team.C66_left_witness",
    "Verif.Team.C66_thread_witness"
   ],
   "note": "For every team and every end of the manager's routine. Partial: an exception that left the program of a worker (its constructor, or its last clean-up) ends the clean-up of the team, so that the workers after it keep running, and replaces the outcome of the run (witness); a thread that does not end makes the clean-up wait for ever (witness)."
  },
  {
   "property": "C67",
   "status": "partial",
   "theorems": [
    "Verif.Manager.C67_gives_up",
    "Verif.Manager.C67_simFirst_partial",
    "Verif.Manager.C67_fast_partial",
    "Verif.Manager.C67_pregen_partial",
    "Verif.Manager.C67_oneGen_partial",
    "Verif.Manager.C67_persGens_partial",
    "Verif.Manager.C67_left_over_witness",
    "Verif.Manager.C67_no_gens_witness",
    "Verif.Manager.C67_only_gens_witness",
    "Verif.Manager.C67_uneven_witness",
    "Verif.Manager.C67_one_worker_witness",
    "Verif.Manager.C67_silent_gen_witness",
    "Verif.Manager.C67_taken_back_witness"
   ],
   "note": "For all runs of the main loop. For any allocation function: when the manager gives up. For give_sim_work_first, fast_alloc, ensure_one_active_gen and give_pregenerated_sim_work: never, if num_active_gens is not 0, a worker may simulate, workers answer completely, protected fields are safe, rows given in the history are not left without result, resource sets (if scheduled) lie evenly on the nodes, and (ensure_one_active_gen) cancellations are not taken back; witnesses show that the conditions matter. For only_persistent_gens: the exact two situations. Other allocation functions are not covered."
  },
  {
   "property": "C68",
   "status": "partial",
   "theorems": [
    "Verif.Manager.C68_answers_partial",
    "Verif.Manager.C68_waits_partial",
    "Verif.Manager.C68_ends_partial",
    "Verif.Manager.C68_simFirst_partial",
    "Verif.Manager.C68_persGens_answers_partial",
    "Verif.Manager.C68_persGens_waits_partial",
    "Verif.Manager.C68_persGens_ends_partial",
    "Verif.Manager.C68_no_points_witness",
    "Verif.Manager.C68_cancelling_witness"
   ],
   "note": "For all runs of the main loop, finite and infinite, with give_sim_work_first, fast_alloc, ensure_one_active_gen or give_pregenerated_sim_work. Conditions: workers answer each order at most once (and, for the end, at some time), generators send points without numbers, protected fields are safe, the pointer of the allocation function starts within the history, the clock does not run backwards, and only finitely many rows are cancelled before they are given; witnesses show that the conditions on points and cancellations matter. For only_persistent_gens without active receive (the bound on answers also with it) the conditions on points and cancellations are not needed; there workers answer each order at most once, simulations report on rows they were given, and protected fields are safe. The other allocation functions with persistent functions and runs without sim_max are not covered."
  },
  {
   "property": "C69",
   "status": "partial",
   "theorems": [
    "Verif.Aposmm.C69_sent",
    "Verif.Aposmm.C69_given",
    "Verif.Aposmm.C69_read_partial",
    "Verif.Aposmm.C69_end_partial",
    "Verif.Aposmm.C69_no_error_partial",
    "Verif.Aposmm.C69_turn_partial",
    "Verif.Aposmm.C69_first_stop",
    "Verif.Aposmm.C69_lost",
    "Verif.Aposmm.C69_sample_stop",
    "Verif.Aposmm.C69_race",
    "Verif.Aposmm.C69_early_stop"
   ],
   "note": "For all interleavings: what is sent to the manager, given to the class and read by the generator before a stop. Without exceptions and deadlocks if generator and manager take turns and the first answer has the whole initial sample. Partial: the tag of the first answer is not looked at, so that a stop then gives an exception or a runner that never ends (C69_first_stop, C69_early_stop); results that come with a stop are never read by the generator (C69_lost); a stop with results before the initial sample is complete does not reach the generator, the runner waits for ever (C69_sample_stop); with two answers in a row (async_return) the runner raises an exception in some interleavings (C69_race)."
  },
  {
   "property": "C70",
   "status": "partial",
   "theorems": [
    "Verif.System.C70_answers_partial",
    "Verif.System.C70_fair_partial",
    "Verif.System.C70_ends_partial",
    "Verif.System.C70_gens_replies_partial",
    "Verif.System.C70_gens_fair_partial",
    "Verif.System.C70_gens_ends_partial",
    "Verif.System.C70_endless_witness",
    "Verif.System.C70_mute_witness"
   ],
   "note": "For all fair interleavings of manager, channels and workers: orders are answered once, answers come, the main loop ends (this discharges the conditions Answers and Fair of C68). For only_persistent_gens with its default settings, without kill_canceled_sims, the same with persistent generators that send something when they are called or get results, or end; there nothing is assumed about the points and simulations are shown to report on rows they were given. Partial: otherwise for the allocation functions without persistent functions; with final_gen_send off, sim_max given, user functions that only look for signals and return with a status other than that of a stop or of the end of a persistent function, generators that send points without numbers, protected fields safe, the clock not running backwards; rows cancelled before they are given are finitely many. Ending the workers after the main loop is in C15 and C66."
  },
  {
   "property": "C71",
   "status": "partial",
   "theorems": [
    "Verif.Gens.C71_balance",
    "Verif.Gens.C71_stops",
    "Verif.Gens.C71_limit",
    "Verif.Gens.C71_cancel",
    "Verif.Gens.C71_cancel_sent_partial",
    "Verif.Gens.C71_cancel_violated",
    "Verif.Gens.C71_phantom_witness",
    "Verif.Gens.C71_final",
    "Verif.Gens.C71_batched_witness",
    "Verif.Gens.C71_flight",
    "Verif.Gens.C71_ends_partial"
   ],
   "note": "For all conversations with the manager; C71_flight and C71_ends_partial in the joint model of manager, channels and workers. Partial: persistent_uniform_with_cancellations asks to cancel points that do not exist when all results come at once (C71_cancel_violated), and the manager then adds rows that no generator has made (C71_phantom_witness); it is right when at most half of the first batch comes at a time. Generators with fixed batch sizes do not keep the number of points (C71_batched_witness). C71_ends_partial for the default settings of only_persistent_gens, as C70."
  },
  {
   "property": "C72",
   "status": "partial",
   "theorems": [
    "Verif.Gens.Fd.C72_first",
    "Verif.Gens.Fd.C72_batch",
    "Verif.Gens.Fd.C72_answered_partial",
    "Verif.Gens.Fd.C72_bound_partial",
    "Verif.Gens.Fd.C72_rounds_partial",
    "Verif.Gens.Fd.C72_silent_partial",
    "Verif.Gens.Fd.C72_done_partial",
    "Verif.Gens.Fd.C72_again_partial",
    "Verif.Gens.Fd.C72_stuck",
    "Verif.Gens.Fd.C72_dimension",
    "Verif.Gens.Fd.C72_odd",
    "Verif.Gens.Fd.C72_silent_witness"
   ],
   "note": "For all answers in any order. Partial: for two variables and even nf. With another number of variables the generator fails before it sends anything (C72_dimension), with odd nf on the first answer (C72_odd). When a pair is given up the generator sends an empty array and waits for ever (C72_silent_witness, C72_stuck; C72_silent_partial says exactly when)."
  },
  {
   "property": "C73",
   "status": "partial",
   "theorems": [
    "Verif.Gens.Cal.C73_place",
    "Verif.Gens.Cal.C73_misplaced",
    "Verif.Gens.Cal.C73_first",
    "Verif.Gens.Cal.C73_answers",
    "Verif.Gens.Cal.C73_books",
    "Verif.Gens.Cal.C73_cancel",
    "Verif.Gens.Cal.C73_request",
    "Verif.Gens.Cal.C73_waits",
    "Verif.Gens.Cal.C73_stored_partial",
    "Verif.Gens.Cal.C73_lost",
    "Verif.Gens.Cal.C73_hang_witness"
   ],
   "note": "For all arrays received and all answers of the emulator. Partial: values of later batches go to the wrong cells unless there is one place or one new parameter (C73_place is an equivalence, C73_misplaced the witness); an array received in the middle of the loop while few points are pending is overwritten before it is looked at (C73_lost; C73_stored_partial otherwise), and so the generator can wait for ever with everything given back (C73_hang_witness)."
  },
  {
   "property": "C74",
   "status": "partial",
   "theorems": [
    "Verif.Tcp.C74_client",
    "Verif.Tcp.C74_blank_witness",
    "Verif.Tcp.C74_ssh",
    "Verif.Tcp.C74_ssh_witness",
    "Verif.Tcp.C74_linked",
    "Verif.Tcp.C74_number_partial",
    "Verif.Tcp.C74_number_violated",
    "Verif.Tcp.C74_waits",
    "Verif.Tcp.C74_same_witness"
   ],
   "note": "For all orders of signing up. Partial: the manager numbers workers in the order in which they sign up, so that its number is the number the worker was launched with only in this order (C74_number_partial, C74_number_violated). A path with a blank is split (C74_blank_witness), hosts are ignored when nworkers is set as well (C74_ssh_witness), the manager waits for ever for missing workers (C74_waits)."
  },
  {
   "property": "C75",
   "status": "partial",
   "theorems": [
    "Verif.System.C75_returns_partial",
    "Verif.System.C75_ends_partial",
    "Verif.System.C75_gens_returns_partial",
    "Verif.System.C75_gens_ends_partial",
    "Verif.System.C75_dismissed_partial",
    "Verif.System.C75_gens_dismissed_partial",
    "Verif.System.C75_stays_witness",
    "Verif.System.C75_hidden_witness"
   ],
   "note": "For all fair interleavings of manager, channels and workers through main loop and shutdown. Partial: main loops that end with an error raised after an order was sent or while a result was recorded leave the table of workers behind, and the shutdown may then wait for ever (see C17); the allocation functions without persistent functions and only_persistent_gens with its default settings; final_gen_send off; user functions that only look for signals and return, generators that end when told to stop (C75_stays_witness: one that does not is never idle again and sends nothing). That workers end is for runs that return with flag 0; after flag 2 (time is up) a worker whose simulation looks for signals can lose the signal to finish and wait for ever (C75_hidden_witness)."
  },
  {
   "property": "C76",
   "status": "partial",
   "theorems": [
    "Verif.Settings.C76_cmd_comms",
    "Verif.Settings.C76_cmd_workers",
    "Verif.Settings.C76_cmd_sets",
    "Verif.Settings.C76_cmd_manager",
    "Verif.Settings.C76_cmd_additional_witness",
    "Verif.Settings.C76_cmd_zero_witness",
    "Verif.Settings.C76_comms",
    "Verif.Settings.C76_known",
    "Verif.Settings.C76_none_never",
    "Verif.Settings.C76_set_dict",
    "Verif.Settings.C76_set_object_partial",
    "Verif.Settings.C76_class_refused",
    "Verif.Settings.C76_reset_witness",
    "Verif.Settings.C76_typo_witness",
    "Verif.Settings.C76_workers_partial",
    "Verif.Settings.C76_workers_witness",
    "Verif.Settings.C76_refused_witness",
    "Verif.Settings.C76_hosts_witness",
    "Verif.Settings.C76_tcp_unmanaged",
    "Verif.Settings.C76_team_partial",
    "Verif.Settings.C76_team_witness",
    "Verif.Settings.C76_manager_partial",
    "Verif.Settings.C76_manager_witness",
    "Verif.Settings.C76_alone_partial",
    "Verif.Settings.C76_fresh",
    "Verif.Settings.C76_shared_witness",
    "Verif.Settings.C76_accepted",
    "Verif.Settings.C76_team_size"
   ],
   "note": "For all command lines and scripts. Partial because the code violates the rest: --nsim_workers adds no workers if --nworkers is given; --nworkers 0 means 4; an ensemble made with libE_specs=None never runs; objects of settings with a number of workers are refused by the setter, and their default values are not taken over; a number of workers in later settings does not change what ensemble.nworkers says after the command line was read; is_manager is false for threads and tcp without the command line; the default object of settings is shared by all ensembles of a process. What pydantic does at construction, assignment and call is assumed."
  },
  {
   "property": "C77",
   "status": "partial",
   "theorems": [
    "Verif.Platform.C77_name",
    "Verif.Platform.C77_detected",
    "Verif.Platform.C77_given",
    "Verif.Platform.C77_kept_partial",
    "Verif.Platform.C77_lost",
    "Verif.Platform.C77_lost_witness",
    "Verif.Platform.C77_known",
    "Verif.Platform.C77_cores",
    "Verif.Platform.C77_gpus_partial",
    "Verif.Platform.C77_zero_witness",
    "Verif.Platform.C77_env",
    "Verif.Platform.C77_lsf",
    "Verif.Platform.C77_runner_partial",
    "Verif.Platform.C77_runner_witness",
    "Verif.Platform.C77_second_witness",
    "Verif.Platform.C77_envs",
    "Verif.Platform.C77_lsf_short",
    "Verif.Platform.C77_methods",
    "Verif.Platform.C77_match",
    "Verif.Platform.C77_way"
   ],
   "note": "For all sources. Partial because the code violates the rest: platform_specs that reach get_platform through libE replace every known field that the user does not give by None (C77_lost); 0 GPUs do not count as given; the command name of a platform stays with a runner chosen by the user; an executor keeps the runner of its first run. The form of the dumped platform_specs is an assumption about pydantic."
  },
  {
   "property": "C78",
   "status": "partial",
   "theorems": [
    "Verif.Persis.C78_streams",
    "Verif.Persis.C78_sources",
    "Verif.Persis.C78_entries",
    "Verif.Persis.C78_given",
    "Verif.Persis.C78_deleted_witness",
    "Verif.Persis.C78_passed",
    "Verif.Persis.C78_transports",
    "Verif.Persis.C78_no_repeat",
    "Verif.Persis.C78_unique",
    "Verif.Persis.C78_repeat_witness",
    "Verif.Persis.C78_again_witness",
    "Verif.Persis.C78_covered_partial",
    "Verif.Persis.C78_hosts_witness",
    "Verif.Persis.C78_chain_partial",
    "Verif.Persis.C78_two_gens_witness"
   ],
   "note": "For all sequences of orders and returns. Partial because the code violates the rest: names that a user function deletes come back on processes; a function that draws and returns another dictionary gets the same numbers again on processes but not on threads; two generators that fast_alloc_and_pausing starts at once draw the same numbers; with hosts on TCP and no number of workers the workers get no streams. Values are immutable in the model."
  },
  {
   "property": "C79",
   "status": "partial",
   "theorems": [
    "Verif.Manager.C79_same",
    "Verif.Manager.C79_second",
    "Verif.Manager.C79_reset",
    "Verif.Manager.C79_skipped",
    "Verif.Manager.C79_stops",
    "Verif.Manager.C79_pregen_witness",
    "Verif.Manager.C79_fast_witness",
    "Verif.Alloc.Runs.C79_counts",
    "Verif.Alloc.Runs.C79_once_partial",
    "Verif.Alloc.Runs.C79_again_down_witness",
    "Verif.Alloc.Runs.C79_number"
   ],
   "note": "For all runs. Partial because the code violates the rest: with the functions that keep a pointer a second run with the same persis_info evaluates nothing or leaves out its first rows (C79_skipped, C79_stops and the witnesses); a local run that ended without an optimum is counted down in every call; an entry that is a number raises, and every run leaves one."
  },
  {
   "property": "C80",
   "status": "partial",
   "theorems": [
    "Verif.Logs.C80_manager",
    "Verif.Logs.C80_worker",
    "Verif.Logs.C80_once",
    "Verif.Logs.C80_forked_level",
    "Verif.Logs.C80_level",
    "Verif.Logs.C80_stats_first",
    "Verif.Logs.C80_stats_partial",
    "Verif.Logs.C80_stats_witness",
    "Verif.Logs.C80_own_witness",
    "Verif.Logs.C80_threads",
    "Verif.Logs.C80_threads_witness",
    "Verif.Logs.C80_no_loop",
    "Verif.Logs.C80_loop_witness",
    "Verif.Logs.C80_disabled",
    "Verif.Logs.C80_disabled_witness",
    "Verif.Logs.C80_file",
    "Verif.Logs.C80_stderr_later",
    "Verif.Logs.C80_label"
   ],
   "note": "For all histories of the process. Partial because the code violates the rest: with a level above INFO the statistics of workers are lost in the first call of a script and written in later ones; with threads every line is labelled as the manager's; a worker that is a process of its own does not know the level; disable_log_files has no effect after a call with log files."
  },
  {
   "property": "C81",
   "status": "partial",
   "theorems": [
    "Verif.Gest.C81_once_partial",
    "Verif.Gest.C81_calls",
    "Verif.Gest.C81_length",
    "Verif.Gest.C81_twice",
    "Verif.Gest.C81_twice_witness",
    "Verif.Gest.C81_missing",
    "Verif.Gest.C81_stored",
    "Verif.Gest.C81_unknown",
    "Verif.Gest.C81_runner",
    "Verif.Gest.C81_args"
   ],
   "note": "For all simulators. Partial because the code violates the rest: a TypeError raised inside a simulator that takes libE_info leads to a second call without it, whose result is used (C81_twice, C81_twice_witness); an output that is not returned is 0 without an error (C81_missing)."
  },
  {
   "property": "C82",
   "status": "partial",
   "theorems": [
    "Verif.GpCam.C82_spread",
    "Verif.GpCam.C82_best",
    "Verif.GpCam.C82_ends",
    "Verif.GpCam.C82_too_many",
    "Verif.GpCam.C82_line",
    "Verif.GpCam.C82_line_ends",
    "Verif.GpCam.C82_comment_witness",
    "Verif.GpCam.C82_class",
    "Verif.GpCam.C82_func",
    "Verif.GpCam.C82_func_witness",
    "Verif.GpCam.C82_tell",
    "Verif.GpCam.C82_tell_class",
    "Verif.GpCam.C82_tell_func_partial",
    "Verif.GpCam.C82_tell_func_witness"
   ],
   "note": "For all meshes, variances and draws, in exact arithmetic. Partial because the code violates the rest: the search does not end for large batches (C82_too_many, C82_line; C82_ends says for which it does); persistent_gpCAM_covar without a grid draws new points after computing the variances (C82_func, C82_func_witness), the class does not (C82_class); the functions pair values with points by position (C82_tell_func_partial, C82_tell_func_witness)."
  },
  {
   "property": "C83",
   "status": "partial",
   "theorems": [
    "Verif.Timing.C83_runtime",
    "Verif.Timing.C83_stats",
    "Verif.Timing.C83_stats_running",
    "Verif.Timing.C83_attempt",
    "Verif.Timing.C83_submit",
    "Verif.Timing.C83_stats_partial",
    "Verif.Timing.C83_stats_witness",
    "Verif.Timing.C83_no_wait",
    "Verif.Timing.C83_untimed_witness",
    "Verif.Timing.C83_timer_with",
    "Verif.Timing.C83_timer_stopped",
    "Verif.Timing.C83_once",
    "Verif.Timing.C83_lines"
   ],
   "note": "For all sequences of calls. Partial because the code violates the rest: a task that has ended by the poll in submit (without wait_on_start) is never timed (C83_untimed_witness); with retries the time in libE_stats.txt is the sum over the timed attempts (C83_submit with C83_stats, C83_stats_witness), equal to total_time for a single attempt (C83_stats_partial)."
  },
  {
   "property": "C84",
   "status": "partial",
   "theorems": [
    "Verif.CopyBack.C84_own",
    "Verif.CopyBack.C84_shared_partial",
    "Verif.CopyBack.C84_name_witness",
    "Verif.CopyBack.C84_later_witness",
    "Verif.CopyBack.C84_only"
   ],
   "note": "For all interleavings. Full with directories for workers or for both kinds of calculations (C84_own). Partial in a shared ensemble directory because the code violates the rest: names that begin with sim or gen and a digit are skipped (C84_name_witness), and without reuse_output_dir a directory is copied by the first worker that ends only (C84_later_witness). The copy of one worker is one step of the model."
  },
  {
   "property": "C85",
   "status": "partial",
   "theorems": [
    "Verif.Launches.C85_names",
    "Verif.Launches.C85_names_witness",
    "Verif.Launches.C85_env",
    "Verif.Launches.C85_env_threads_witness",
    "Verif.Launches.C85_rest_partial",
    "Verif.Launches.C85_left_witness",
    "Verif.Launches.C85_task",
    "Verif.Launches.C85_poll",
    "Verif.Launches.C85_threads_witness",
    "Verif.Launches.C85_stale_witness",
    "Verif.Launches.C85_app",
    "Verif.Launches.C85_default"
   ],
   "note": "For all interleavings. Partial because the code violates the rest: variables of earlier tasks of the process stay (C85_left_witness, C85_rest_partial); an order without numbers leaves those of the order before (C85_stale_witness; C85_task says which numbers are taken); with threads all workers share one executor and one environment (C85_env_threads_witness, C85_threads_witness); a task of worker 0 may have the name of another (C85_names_witness)."
  },
  {
   "property": "C86",
   "status": "partial",
   "theorems": [
    "Verif.GenInit.C86_mapping",
    "Verif.GenInit.C86_covered_partial",
    "Verif.GenInit.C86_left_out_witness",
    "Verif.GenInit.C86_empty_x_witness",
    "Verif.GenInit.C86_proper",
    "Verif.GenInit.C86_kept_partial",
    "Verif.GenInit.C86_default",
    "Verif.GenInit.C86_shared_map_witness",
    "Verif.GenInit.C86_settings_partial",
    "Verif.GenInit.C86_shared_witness",
    "Verif.GenInit.C86_persis_partial",
    "Verif.GenInit.C86_persis_witness",
    "Verif.GenInit.C86_bounds",
    "Verif.GenInit.C86_dimension_doubled",
    "Verif.GenInit.C86_key_witness"
   ],
   "note": "Generators without a mapping of the user: proved in full for every sequence of constructions (C86_default, C86_proper). Partial because the code violates the rest: a variable missing in the \"x\" of the user is mapped nowhere, or \"x\" is empty (witnesses); a mapping or the default gen_specs used by several generators is changed by each (witnesses; otherwise proved); a persis_info without stream is dropped (witness); APOSMM counts the variables twice (C86_dimension_doubled, for every input)."
  },
  {
   "property": "C87",
   "status": "partial",
   "theorems": [
    "Verif.Interfacer.C87_points",
    "Verif.Interfacer.C87_all",
    "Verif.Interfacer.C87_result",
    "Verif.Interfacer.C87_exported",
    "Verif.Interfacer.C87_returns_partial",
    "Verif.Interfacer.C87_setup",
    "Verif.Interfacer.C87_hidden_witness",
    "Verif.Interfacer.C87_dropped_witness",
    "Verif.Interfacer.C87_fields",
    "Verif.Interfacer.C87_refused",
    "Verif.Interfacer.C87_sent"
   ],
   "note": "Order, values, fields and results: proved for every sequence of calls. Partial because the code violates the rest: after setup by hand the process is never started and the next suggest or finalize does not return (C87_setup, for every function); suggest hides the error of the function (witness); finalize drops points not asked for (witness)."
  },
  {
   "property": "C88",
   "status": "partial",
   "theorems": [
    "Verif.Sampling.C88_strata",
    "Verif.Sampling.C88_bounds",
    "Verif.Sampling.C88_components",
    "Verif.Sampling.C88_same_point",
    "Verif.Sampling.C88_same_number_witness"
   ],
   "note": "Latin hypercube samples: proved for all streams, without rounding. Components: the numbering is proved for calls one after the other that are given the whole history. Partial because calls that are given the same rows (two generators at a time, or no fields in gen_specs[\"in\"]) give two points one number (witness)."
  },
  {
   "property": "C89",
   "status": "partial",
   "theorems": [
    "Verif.LocalRun.C89_honest",
    "Verif.LocalRun.C89_end_partial",
    "Verif.LocalRun.C89_returns",
    "Verif.LocalRun.C89_hidden_witness"
   ],
   "note": "Points, values, order, limit and end of the run: proved for every optimizer. Partial because errors are not told apart from a stop (witness): all exceptions are taken for the one of a stop."
  },
  {
   "property": "C90",
   "status": "partial",
   "theorems": [
    "Verif.MultiTask.C90_batches",
    "Verif.MultiTask.C90_best",
    "Verif.MultiTask.C90_values",
    "Verif.MultiTask.C90_stop",
    "Verif.MultiTask.C90_saved_partial",
    "Verif.MultiTask.C90_no_failure",
    "Verif.MultiTask.C90_weights",
    "Verif.MultiTask.C90_unsaved_witness",
    "Verif.MultiTask.C90_weights_witness"
   ],
   "note": "Order, choice of points, values and stops: proved for every Ax and all replies. Partial because the function fails whenever fewer points of low fidelity are proposed than n_opt_hifi (C90_weights, for every run of three answered batches), and trials of an iteration that is stopped are in no file (witness)."
  },
  {
   "property": "C91",
   "status": "partial",
   "theorems": [
    "Verif.FromFile.C91_added_partial",
    "Verif.FromFile.C91_replaced",
    "Verif.FromFile.C91_dropped",
    "Verif.FromFile.C91_only_named",
    "Verif.FromFile.C91_leak",
    "Verif.FromFile.C91_outputs",
    "Verif.FromFile.C91_lost_witness",
    "Verif.FromFile.C91_two_files_witness",
    "Verif.FromFile.C91_leak_witness",
    "Verif.FromFile.C91_refused_witness",
    "Verif.FromFile.C91_half_witness"
   ],
   "note": "Attributes that are dictionaries without mixed aliases, and output fields: proved. Partial because an attribute that is an object is replaced (C91_replaced), a value under the other name of a field is dropped or refused (C91_dropped, witness), exit criteria of one ensemble reach the next by the default dictionary (C91_leak), and a refused file is half applied (witness). libE_specs in the file is not modelled here."
  },
  {
   "property": "C92",
   "status": "partial",
   "theorems": [
    "Verif.Watch.C92_custom",
    "Verif.Watch.C92_goes_on",
    "Verif.Watch.C92_bore_goes_on",
    "Verif.Watch.C92_custom_goes_on_partial",
    "Verif.Watch.C92_kill_ends",
    "Verif.Watch.C92_answered",
    "Verif.Watch.C92_bore_partial",
    "Verif.Watch.C92_bore_finish_lost",
    "Verif.Watch.C92_kill_witness",
    "Verif.Watch.C92_timeout_witness"
   ],
   "note": "Status of the loop, and the worker with the polling loop of the executor: proved for all runs. Partial because custom_polling_loop returns MAN_SIGNAL_FINISH for a signal to kill the task, so the worker ends without an answer (C92_kill_ends, for every such state), because borehole without sim_killed turns a finish signal into TASK_FAILED and the signal is lost (C92_bore_finish_lost), and because a task that ends well before the kill on timeout is reported as killed (witness)."
  },
  {
   "property": "C93",
   "status": "partial",
   "theorems": [
    "Verif.Batch.C93_own",
    "Verif.Batch.C93_answered",
    "Verif.Batch.C93_lost",
    "Verif.Batch.C93_lost_witness",
    "Verif.Batch.C93_dry",
    "Verif.Batch.C93_single",
    "Verif.Batch.C93_single_status",
    "Verif.Batch.C93_subenv",
    "Verif.Batch.C93_subenv_witness",
    "Verif.Batch.C93_mock",
    "Verif.Batch.C93_mock_batch",
    "Verif.Batch.C93_mock_witness"
   ],
   "note": "Values and status of answered batches, and which batches are answered: proved. Partial because the code violates the rest: a task that fails without output raises an exception and the values of the batch are lost; a dry run with six_hump_camel returns what an earlier run has left in out.txt; gpu_variable_resources_subenv reads a file that none of its tasks writes; the functions for one point report a failed task with a string that is no status; mock_sim answers an order of several rows with one row, which the manager cannot store. Each is proved for all inputs, with a witness."
  },
  {
   "property": "C94",
   "status": "proved",
   "theorems": [
    "Verif.TestFuncs.C94_camel",
    "Verif.TestFuncs.C94_rosen_sum",
    "Verif.TestFuncs.C94_rosen_comp",
    "Verif.TestFuncs.C94_rosen_grad_sum",
    "Verif.TestFuncs.C94_rosen",
    "Verif.TestFuncs.C94_rosen_scaled",
    "Verif.TestFuncs.C94_chwirut",
    "Verif.TestFuncs.C94_periodic"
   ],
   "note": "Over the real numbers, with the derivative of Mathlib; rounding is not modelled. C94_rosen_scaled: with the default const of 1000 the field grad holds a thousandth of the gradient, as the documentation of the module says."
  },
  {
   "property": "C95",
   "status": "partial",
   "theorems": [
    "Verif.Batch.C95_each",
    "Verif.Batch.C95_each_stored",
    "Verif.Batch.C95_borehole_partial",
    "Verif.Batch.C95_borehole_first",
    "Verif.Batch.C95_borehole_right",
    "Verif.Batch.C95_borehole_stored",
    "Verif.Batch.C95_borehole_witness",
    "Verif.Batch.C95_short",
    "Verif.Batch.C95_norm",
    "Verif.Batch.C95_surmise",
    "Verif.Batch.C95_stored_witness"
   ],
   "note": "Proved for the simulators with a loop over the points, down to the rows of the history. Partial because borehole gives every point of a batch the value of the first point (proved for all batches; right exactly if all values are equal), which the history accepts; norm_eval returns one record, which the manager cannot store for several rows; borehole of surmise_test_function raises an exception for several points."
  },
  {
   "property": "C96",
   "status": "partial",
   "theorems": [
    "Verif.Saved.C96_saved",
    "Verif.Saved.C96_stem",
    "Verif.Saved.C96_distinct",
    "Verif.Saved.C96_kept",
    "Verif.Saved.C96_plain_partial",
    "Verif.Saved.C96_plain_wrong",
    "Verif.Saved.C96_short",
    "Verif.Saved.C96_short_test",
    "Verif.Saved.C96_shared",
    "Verif.Saved.C96_exact",
    "Verif.Saved.C96_found",
    "Verif.Saved.C96_found_wrong",
    "Verif.Saved.C96_base",
    "Verif.Saved.C96_short_witness",
    "Verif.Saved.C96_lost_witness",
    "Verif.Saved.C96_plain_witness",
    "Verif.Saved.C96_found_witness",
    "Verif.Saved.C96_no_wait_witness"
   ],
   "note": "What is written, under which names, and when two sets of results share a file (exactly if short name and three numbers agree): proved. Partial because a script and its test have the same short name and replace the results of each other (C96_shared), as do two runs with equal numbers (witness); without attributes the returned name can be that of no file (C96_plain_wrong); the check by base name finds results of other scripts and of earlier runs (C96_found_wrong), and max_wait=0 makes no check (witness)."
  },
  {
   "property": "C97",
   "status": "partial",
   "theorems": [
    "Verif.Live.C97_recent",
    "Verif.Live.C97_min_partial",
    "Verif.Live.C97_opts_partial",
    "Verif.Live.C97_min_missed",
    "Verif.Live.C97_min_missed_run",
    "Verif.Live.C97_numbers",
    "Verif.Live.C97_marks",
    "Verif.Live.C97_dots",
    "Verif.Live.C97_missed_witness",
    "Verif.Live.C97_dots_witness"
   ],
   "note": "Fewer than 50 evaluations are missing, and the numbers are right: proved. Partial because last_plot_count, a number of evaluations, is used as number of a row: a local minimum in an earlier row is not drawn before 50 more evaluations, and never at the end of a run, since finalize draws nothing (C97_min_missed_run, witness); and there is a dot at zero for each reserved row (C97_dots)."
  },
  {
   "property": "C98",
   "status": "partial",
   "theorems": [
    "Verif.Checks.C98_given_partial",
    "Verif.Checks.C98_generated",
    "Verif.Checks.C98_off",
    "Verif.Checks.C98_lost",
    "Verif.Checks.C98_none",
    "Verif.Checks.C98_again",
    "Verif.Checks.C98_input_text",
    "Verif.Checks.C98_input_missing",
    "Verif.Checks.C98_input_dot_partial",
    "Verif.Checks.C98_input_dot",
    "Verif.Checks.C98_input_relative",
    "Verif.Checks.C98_make",
    "Verif.Checks.C98_save_partial",
    "Verif.Checks.C98_save_none",
    "Verif.Checks.C98_stop",
    "Verif.Checks.C98_stop_accepts",
    "Verif.Checks.C98_stop_strict",
    "Verif.Checks.C98_cores",
    "Verif.Checks.C98_fields",
    "Verif.Checks.C98_fields_again",
    "Verif.Checks.C98_fields_stale",
    "Verif.Checks.C98_lost_witness",
    "Verif.Checks.C98_root_witness",
    "Verif.Checks.C98_stale_witness",
    "Verif.Checks.C98_stop_witness"
   ],
   "note": "Proved as far as the code does it. Partial because a workflow directory with a name of one character is ignored or replaced (C98_lost), None for it or for save_every_k_sims raises TypeError (C98_none, C98_save_none), the working directory as text is accepted as input directory (C98_input_dot), a relative Path stays relative (C98_input_relative), the root as workflow directory is replaced by a second check (witness), and the fields of a function stay when another is assigned (C98_fields_stale)."
  },
  {
   "property": "C99",
   "status": "partial",
   "theorems": [
    "Verif.RunLines.C99_read_none",
    "Verif.RunLines.C99_read_last",
    "Verif.RunLines.C99_read_eq",
    "Verif.RunLines.C99_read_cut",
    "Verif.RunLines.C99_runner",
    "Verif.RunLines.C99_runner_srun_accepts",
    "Verif.RunLines.C99_gpu_option",
    "Verif.RunLines.C99_gpu_no_option",
    "Verif.RunLines.C99_gpu_env_partial",
    "Verif.RunLines.C99_gpu_env_unasked",
    "Verif.RunLines.C99_want",
    "Verif.RunLines.C99_gpu_accepts",
    "Verif.RunLines.C99_gpu_nodes",
    "Verif.RunLines.C99_gpu_env_name",
    "Verif.RunLines.C99_defaults",
    "Verif.RunLines.C99_gpu_app",
    "Verif.RunLines.C99_gpu_ppn",
    "Verif.RunLines.C99_circ",
    "Verif.RunLines.C99_shift_partial",
    "Verif.RunLines.C99_expected",
    "Verif.RunLines.C99_shift_before",
    "Verif.RunLines.C99_by_worker_partial",
    "Verif.RunLines.C99_by_worker_offset",
    "Verif.RunLines.C99_by_worker_before"
   ],
   "note": "Proved: what is read from a line, that an accepted line has the option or the variable with the right value (or no option if no GPUs are asked for), when a line with GPUs per node is accepted, and the lines expected of the workers after the generators. Partial because the code differs: the environment is not looked at when no GPUs are asked for (C99_gpu_env_unasked), the number of GPUs is not divided among the nodes as the runner does (C99_gpu_nodes), a variable without a name is rejected (C99_gpu_env_name), the words of the application are read as well (C99_gpu_app), a line without processes per node raises TypeError (C99_gpu_ppn), and generators get nodes rounded towards zero and lines of others (C99_shift_before, C99_by_worker_before)."
  }
 ]
}
