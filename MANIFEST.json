{
 "claims": [
  {
   "property": "C01",
   "status": "proved",
   "theorems": [
    "Verif.SegTree.C01_read_after_write",
    "Verif.SegTree.C01_rejects"
   ],
   "note": ""
  },
  {
   "property": "C02",
   "status": "proved",
   "theorems": [
    "Verif.SegTree.C02_reduce_all",
    "Verif.SegTree.C02_reduce",
    "Verif.SegTree.C02_reads_in_bounds"
   ],
   "note": ""
  },
  {
   "property": "C03",
   "status": "proved",
   "theorems": [
    "Verif.SegTree.C03_accepts",
    "Verif.SegTree.C03_prefix_sum_idx",
    "Verif.SegTree.C03_interval"
   ],
   "note": ""
  },
  {
   "property": "C04",
   "status": "partial",
   "theorems": [
    "Verif.SegTree.C04_violated",
    "Verif.SegTree.C04_residual_partial"
   ],
   "note": "Violated by the code: get_prefix_sum_idx subtracts in place from the caller's float64 array. C04_violated shows it; C04_residual_partial says exactly what the argument holds afterwards."
  },
  {
   "property": "C05",
   "status": "proved",
   "theorems": [
    "Verif.Buffer.C05_len",
    "Verif.Buffer.C05_fifo",
    "Verif.Buffer.C05_rows"
   ],
   "note": ""
  },
  {
   "property": "C06",
   "status": "proved",
   "theorems": [
    "Verif.Buffer.C06_enumerates",
    "Verif.Buffer.C06_getAll"
   ],
   "note": ""
  },
  {
   "property": "C07",
   "status": "proved",
   "theorems": [
    "Verif.Buffer.C07_sampled_live",
    "Verif.Buffer.C07_count",
    "Verif.Buffer.C07_all_outcomes",
    "Verif.Buffer.C07_special"
   ],
   "note": ""
  },
  {
   "property": "C08",
   "status": "proved",
   "theorems": [
    "Verif.Buffer.C08_prev"
   ],
   "note": ""
  },
  {
   "property": "C09",
   "status": "proved",
   "theorems": [
    "Verif.Buffer.C09_next"
   ],
   "note": ""
  },
  {
   "property": "C10",
   "status": "proved",
   "theorems": [
    "Verif.Buffer.C10_inverse",
    "Verif.Buffer.C10_next_iterate",
    "Verif.Buffer.C10_prev_iterate"
   ],
   "note": ""
  },
  {
   "property": "C11",
   "status": "proved",
   "theorems": [
    "Verif.Buffer.C11_unfinished",
    "Verif.Buffer.C11_before_first_write"
   ],
   "note": ""
  },
  {
   "property": "C12",
   "status": "proved",
   "theorems": [
    "Verif.Buffer.C12_add_result"
   ],
   "note": ""
  },
  {
   "property": "C13",
   "status": "partial",
   "theorems": [
    "Verif.Buffer.C13_episode_indices_partial",
    "Verif.Buffer.C13_full_wrap_raises",
    "Verif.Buffer.C13_violated",
    "Verif.Buffer.C13_vector",
    "Verif.Buffer.C13_interval",
    "Verif.Buffer.C13_vector_rejects"
   ],
   "note": "Violated when an episode fills the buffer exactly without starting at slot 0 (ValueError): C13_full_wrap_raises, C13_violated. All other cases are proved, also for vector buffers."
  },
  {
   "property": "C14",
   "status": "proved",
   "theorems": [
    "Verif.Buffer.C14_add_succeeds"
   ],
   "note": ""
  },
  {
   "property": "C15",
   "status": "proved",
   "theorems": [
    "Verif.Buffer.C15_update",
    "Verif.Buffer.C15_empty"
   ],
   "note": ""
  },
  {
   "property": "C16",
   "status": "proved",
   "theorems": [
    "Verif.Buffer.C16_stack",
    "Verif.Buffer.C16_stack_total"
   ],
   "note": ""
  },
  {
   "property": "C17",
   "status": "proved",
   "theorems": [
    "Verif.Buffer.C17_sample_avail",
    "Verif.Buffer.C17_sample_avail_random"
   ],
   "note": ""
  },
  {
   "property": "C18",
   "status": "proved",
   "theorems": [
    "Verif.Buffer.C18_obs_next",
    "Verif.Buffer.C18_chained"
   ],
   "note": ""
  },
  {
   "property": "C19",
   "status": "partial",
   "theorems": [
    "Verif.Buffer.C19_violated",
    "Verif.Buffer.C19_check_partial"
   ],
   "note": "Violated: the check joins its two conditions with `and`, so wrong ids are accepted. C19_check_partial describes exactly what is rejected."
  },
  {
   "property": "C20",
   "status": "proved",
   "theorems": [
    "Verif.Buffer.C20_store",
    "Verif.Buffer.C20_children",
    "Verif.Buffer.C20_add",
    "Verif.Buffer.C20_no_interference"
   ],
   "note": ""
  },
  {
   "property": "C21",
   "status": "proved",
   "theorems": [
    "Verif.Buffer.C21_live",
    "Verif.Buffer.C21_same_subbuffer",
    "Verif.Buffer.C21_total"
   ],
   "note": ""
  },
  {
   "property": "C22",
   "status": "proved",
   "theorems": [
    "Verif.Buffer.C22_len",
    "Verif.Buffer.C22_unfinished"
   ],
   "note": ""
  },
  {
   "property": "C23",
   "status": "proved",
   "theorems": [
    "Verif.Buffer.C23_sample",
    "Verif.Buffer.C23_all",
    "Verif.Buffer.C23_order",
    "Verif.Buffer.C23_special"
   ],
   "note": "Positive batch sizes, 0/None, negative and empty; the sample_avail mode with stacking is covered per sub-buffer by C17."
  },
  {
   "property": "C24",
   "status": "proved",
   "theorems": [
    "Verif.Buffer.C24_capacity"
   ],
   "note": ""
  },
  {
   "property": "C25",
   "status": "proved",
   "theorems": [
    "Verif.Buffer.C25_cached",
    "Verif.Buffer.C25_add_succeeds",
    "Verif.Buffer.C25_add_result",
    "Verif.Buffer.C25_reach"
   ],
   "note": ""
  },
  {
   "property": "C26",
   "status": "partial",
   "theorems": [
    "Verif.Buffer.C26_prioritised_sampling",
    "Verif.Buffer.C26_vector_partial",
    "Verif.Buffer.C26_vector_violated"
   ],
   "note": "Single buffers: proved. Vector buffers: all draws u > 0 (C26_vector_partial); the draw u = 0 violates the claim (C26_vector_violated)."
  },
  {
   "property": "C27",
   "status": "partial",
   "theorems": [
    "Verif.Buffer.C27_violated",
    "Verif.Buffer.C27_refilled_partial"
   ],
   "note": "Violated: reset keeps the old priorities, so sampling returns slots that are not live (C27_violated, in every history). C27_refilled_partial: fine again once refilled."
  },
  {
   "property": "C28",
   "status": "proved",
   "theorems": [
    "Verif.Buffer.C28_new_transition_maximal",
    "Verif.Buffer.C28_vector",
    "Verif.Buffer.C28_update_weight"
   ],
   "note": ""
  },
  {
   "property": "C29",
   "status": "proved",
   "theorems": [
    "Verif.Buffer.C29_normalised",
    "Verif.Buffer.C29_vector"
   ],
   "note": ""
  },
  {
   "property": "C30",
   "status": "partial",
   "theorems": [
    "Verif.Buffer.C30_no_effect",
    "Verif.Buffer.C30_violated",
    "Verif.Buffer.C30_single_partial"
   ],
   "note": "Violated for vector buffers: set_beta has no effect (C30_no_effect, C30_violated). Holds for single buffers (C30_single_partial)."
  },
  {
   "property": "C31",
   "status": "proved",
   "theorems": [
    "Verif.Buffer.C31_restored",
    "Verif.Buffer.C31_plain",
    "Verif.Buffer.C31_not_compounded",
    "Verif.Buffer.C31_only_goal_and_reward"
   ],
   "note": "stack_num = 1. C31_restored/C31_plain: after every history the restored data are exactly the transitions passed in."
  },
  {
   "property": "C32",
   "status": "proved",
   "theorems": [
    "Verif.Buffer.C32_round",
    "Verif.Buffer.C32_future_goal",
    "Verif.Buffer.C32_relabelling"
   ],
   "note": "Episodes must not be longer than `horizon` from the sampled step on (the documented meaning of horizon); stack_num = 1."
  },
  {
   "property": "C33",
   "status": "proved",
   "theorems": [
    "Verif.Returns.C33_gae",
    "Verif.Returns.C33_buffer",
    "Verif.Returns.C33_vector"
   ],
   "note": ""
  },
  {
   "property": "C34",
   "status": "proved",
   "theorems": [
    "Verif.Returns.C34_gae",
    "Verif.Returns.C34_buffer",
    "Verif.Returns.C34_vector"
   ],
   "note": ""
  },
  {
   "property": "C35",
   "status": "proved",
   "theorems": [
    "Verif.Returns.C35_buffer",
    "Verif.Returns.C35_vector",
    "Verif.Returns.C35_gae",
    "Verif.Returns.C35_rejects"
   ],
   "note": ""
  },
  {
   "property": "C36",
   "status": "proved",
   "theorems": [
    "Verif.Returns.C36_buffer",
    "Verif.Returns.C36_vector"
   ],
   "note": ""
  },
  {
   "property": "C37",
   "status": "proved",
   "theorems": [
    "Verif.Returns.C37_return_to_go",
    "Verif.Returns.C37_hook"
   ],
   "note": ""
  },
  {
   "property": "C38",
   "status": "proved",
   "theorems": [
    "Verif.Policy.C38_in_box",
    "Verif.Policy.C38_monotone",
    "Verif.Policy.C38_unbounded",
    "Verif.Policy.C38_tanh"
   ],
   "note": ""
  },
  {
   "property": "C39",
   "status": "partial",
   "theorems": [
    "Verif.Policy.C39_right_inverse",
    "Verif.Policy.C39_left_inverse",
    "Verif.Policy.C39_narrow_violated",
    "Verif.Policy.C39_tanh"
   ],
   "note": "Proved for clip/none (components at least eps wide or of width zero) and for tanh on real numbers strictly inside the box. C39_narrow_violated: a component narrower than the machine epsilon but not degenerate is not inverted exactly."
  },
  {
   "property": "C40",
   "status": "proved",
   "theorems": [
    "Verif.Policy.C40_greedy",
    "Verif.Policy.C40_unmasked",
    "Verif.Policy.C40_random",
    "Verif.Policy.C40_no_noise"
   ],
   "note": ""
  },
  {
   "property": "C41",
   "status": "proved",
   "theorems": [
    "Verif.Policy.C41_during_learn",
    "Verif.Policy.C41_in_process_fn",
    "Verif.Policy.C41_no_target"
   ],
   "note": "C41_in_process_fn adds that the n-step targets of update k, computed before learn, use the weights of the previous synchronisation."
  },
  {
   "property": "C42",
   "status": "proved",
   "theorems": [
    "Verif.Policy.C42_entry",
    "Verif.Policy.C42_polyak",
    "Verif.Policy.C42_between"
   ],
   "note": ""
  },
  {
   "property": "C43",
   "status": "proved",
   "theorems": [
    "Verif.MultiAgent.C43_forward",
    "Verif.MultiAgent.C43_rowwise",
    "Verif.MultiAgent.C43_process_fn",
    "Verif.MultiAgent.C43_restored",
    "Verif.MultiAgent.C43_raise_leaves_column",
    "Verif.MultiAgent.C43_noise"
   ],
   "note": "All interleavings. C43_raise_leaves_column records that an exception in an agent's process_fn leaves that agent's reward column in the buffer."
  },
  {
   "property": "C44",
   "status": "proved",
   "theorems": [
    "Verif.Policy.C44_projection"
   ],
   "note": ""
  },
  {
   "property": "C45",
   "status": "partial",
   "theorems": [
    "Verif.Policy.C45_train_mode",
    "Verif.Policy.C45_target",
    "Verif.Policy.C45_module",
    "Verif.Policy.C45_inside",
    "Verif.Policy.C45_within",
    "Verif.Policy.C45_nested",
    "Verif.Policy.C45_update_raises",
    "Verif.Policy.C45_update_partial",
    "Verif.Policy.C45_update_violated",
    "Verif.Policy.C45_multiagent_violated"
   ],
   "note": "Training mode and within-training-step flag: proved for every nesting and exception. C45_update_violated: `updating` stays true when a step of update raises. C45_multiagent_violated: MultiAgentPolicyManager.train does not set the manager's own flag, so torch_train_mode switches agents in evaluation mode to training mode."
  },
  {
   "property": "C46",
   "status": "proved",
   "theorems": [
    "Verif.Batch.C46_ok",
    "Verif.Batch.C46_partition",
    "Verif.Batch.C46_sizes",
    "Verif.Batch.C46_merge_last",
    "Verif.Batch.C46_whole",
    "Verif.Batch.C46_rejected",
    "Verif.Batch.C46_rows"
   ],
   "note": ""
  },
  {
   "property": "C47",
   "status": "proved",
   "theorems": [
    "Verif.Batch.C47_stack",
    "Verif.Batch.C47_stack_same",
    "Verif.Batch.C47_stack_len",
    "Verif.Batch.C47_stack_kind",
    "Verif.Batch.C47_cat",
    "Verif.Batch.C47_cat_same"
   ],
   "note": "Batches without keys are dropped before stacking or concatenating (the rows of later ones move up); the theorems are about batches with keys."
  },
  {
   "property": "C48",
   "status": "proved",
   "theorems": [
    "Verif.Batch.C48_one",
    "Verif.Batch.C48_one_frame",
    "Verif.Batch.C48_one_ok",
    "Verif.Batch.C48_many",
    "Verif.Batch.C48_many_ok",
    "Verif.Batch.C48_unknown_key"
   ],
   "note": ""
  },
  {
   "property": "C49",
   "status": "partial",
   "theorems": [
    "Verif.Hdf5.C49_roundtrip_partial",
    "Verif.Hdf5.C49_slash_violated",
    "Verif.Hdf5.C49_marker_violated",
    "Verif.Hdf5.C49_class_violated"
   ],
   "note": "Proved for structures whose non-number keys have no slash, with no number under __data_type__ and no pickled class called ndarray or Tensor; for each of these exclusions a counterexample is proved. h5py and pickle themselves are trusted."
  },
  {
   "property": "C50",
   "status": "partial",
   "theorems": [
    "Verif.VecEnv.C50_made",
    "Verif.VecEnv.C50_partition",
    "Verif.VecEnv.C50_rejected",
    "Verif.VecEnv.C50_returns",
    "Verif.VecEnv.C50_live",
    "Verif.VecEnv.C50_hands_over_partial",
    "Verif.VecEnv.C50_answers_partial",
    "Verif.VecEnv.C50_exactly_once_partial",
    "Verif.VecEnv.C50_duplicate_violated",
    "Verif.VecEnv.C50_dummy_skips"
   ],
   "note": "Partition, rejection, delivery and liveness hold for all histories with distinct ids per step; that a result answers the last action is proved for histories without seed() during a step (C52_seed_violated) and without repeated ids in reset/get_env_attr. C50_duplicate_violated shows what repeated ids in step do."
  },
  {
   "property": "C51",
   "status": "partial",
   "theorems": [
    "Verif.VecEnv.C51_routing_partial",
    "Verif.VecEnv.C51_reset_partial",
    "Verif.VecEnv.C51_bad_id_violated"
   ],
   "note": "Proved for histories whose calls name existing environments; C51_bad_id_violated: after a call with an unknown id a subprocess worker's next reply is stale."
  },
  {
   "property": "C52",
   "status": "partial",
   "theorems": [
    "Verif.VecEnv.C52_getattr_partial",
    "Verif.VecEnv.C52_render_partial",
    "Verif.VecEnv.C52_accepted",
    "Verif.VecEnv.C52_seed_partial",
    "Verif.VecEnv.C52_seed_violated"
   ],
   "note": "Proved for step, reset, get_env_attr, render and seed when seed() is not called while environments are being stepped; C52_seed_violated shows the mis-pairing otherwise."
  },
  {
   "property": "C53",
   "status": "proved",
   "theorems": [
    "Verif.VecEnv.C53_int",
    "Verif.VecEnv.C53_list",
    "Verif.VecEnv.C53_wrong_length",
    "Verif.VecEnv.C53_rejected_late"
   ],
   "note": "For calls made while no environment is being stepped. C53_rejected_late: a list of wrong length is rejected only after the first environments have been seeded."
  },
  {
   "property": "C54",
   "status": "proved",
   "theorems": [
    "Verif.Wrappers.C54_bijection",
    "Verif.Wrappers.C54_size",
    "Verif.Wrappers.C54_array"
   ],
   "note": ""
  },
  {
   "property": "C55",
   "status": "proved",
   "theorems": [
    "Verif.Wrappers.C55_built",
    "Verif.Wrappers.C55_in_box",
    "Verif.Wrappers.C55_extremes",
    "Verif.Wrappers.C55_strict",
    "Verif.Wrappers.C55_rows"
   ],
   "note": ""
  },
  {
   "property": "C56",
   "status": "proved",
   "theorems": [
    "Verif.Stats.C56_pooled",
    "Verif.Stats.C56_split_independent"
   ],
   "note": ""
  },
  {
   "property": "C57",
   "status": "partial",
   "theorems": [
    "Verif.Stats.C57_average_partial",
    "Verif.Stats.C57_nan_violated"
   ],
   "note": "Proved when every NaN added is the identical np.nan object; C57_nan_violated: another NaN object enters the average."
  },
  {
   "property": "C58",
   "status": "proved",
   "theorems": [
    "Verif.Collector.C58_exact",
    "Verif.Collector.C58_terminates"
   ],
   "note": ""
  },
  {
   "property": "C59",
   "status": "proved",
   "theorems": [
    "Verif.Collector.C59_exact",
    "Verif.Collector.C59_terminates"
   ],
   "note": ""
  },
  {
   "property": "C60",
   "status": "proved",
   "theorems": [
    "Verif.Collector.C60_whole_episodes"
   ],
   "note": ""
  },
  {
   "property": "C61",
   "status": "partial",
   "theorems": [
    "Verif.Collector.C61_trajectories_partial",
    "Verif.Collector.C61_adjacent_partial",
    "Verif.Collector.C61_actions_partial",
    "Verif.Collector.C61_idle_violated",
    "Verif.Collector.C61_shared_violated"
   ],
   "note": "Proved for every environment, policy and sequence of calls in ordinary use (no call resets or restarts an environment in mid-episode) with observations that are values. C61_idle_violated: collect(n_episode) with fewer episodes than environments while others are in mid-episode leaves cut-off episodes without end mark. C61_shared_violated: observations that are views on memory shared with the environment (ShmemVectorEnv with dict observations)."
  },
  {
   "property": "C62",
   "status": "proved",
   "theorems": [
    "Verif.Collector.C62_pairing",
    "Verif.Collector.C62_trajectories",
    "Verif.Collector.C62_counts",
    "Verif.Collector.C62_totals"
   ],
   "note": "All schedules, all sequences of calls. The stored action is what an array of floats makes of the action (parameter store)."
  },
  {
   "property": "C63",
   "status": "partial",
   "theorems": [
    "Verif.Collector.C63_checked_violated",
    "Verif.Collector.C63_union_partial"
   ],
   "note": "Violated: the merged hook raises exactly when some hook returns a non-empty dict (C63_checked_violated); C63_union_partial says what holds without the check."
  },
  {
   "property": "C64",
   "status": "partial",
   "theorems": [
    "Verif.Collector.C64_rejected_partial",
    "Verif.Collector.C64_both_violated",
    "Verif.Collector.C64_negative_violated"
   ],
   "note": "Violated: n_step together with n_episode is accepted (C64_both_violated), a negative n_step too (C64_negative_violated). C64_rejected_partial: what is rejected, without effects."
  },
  {
   "property": "C65",
   "status": "partial",
   "theorems": [
    "Verif.Trainer.C65_epochs_partial",
    "Verif.Trainer.C65_terminates",
    "Verif.Trainer.C65_violated",
    "Verif.Trainer.C65_run_iterates"
   ],
   "note": "Violated when training is resumed at or after max_epoch: one epoch is always run (C65_violated). Otherwise proved (C65_epochs_partial), with termination (C65_terminates); C65_run_iterates carries the other trainer properties over to run."
  },
  {
   "property": "C66",
   "status": "partial",
   "theorems": [
    "Verif.Trainer.C66_best_partial",
    "Verif.Trainer.C66_violated"
   ],
   "note": "Violated when training is stopped early: the best score is overwritten (C66_violated). C66_best_partial: all iterations without an early stop."
  },
  {
   "property": "C67",
   "status": "proved",
   "theorems": [
    "Verif.Trainer.C67_ratio",
    "Verif.Trainer.C67_zero",
    "Verif.Trainer.C67_raises"
   ],
   "note": "Exact rounding (nearest, ties to even), per collection and per epoch; zero updates raise."
  },
  {
   "property": "C68",
   "status": "partial",
   "theorems": [
    "Verif.Trainer.C68_counted_partial",
    "Verif.Trainer.C68_partial",
    "Verif.Trainer.C68_violated",
    "Verif.Trainer.C68_trainer_violated"
   ],
   "note": "Violated: the counter increases by the number of minibatches without merging the last one, once, whatever the repetitions (C68_counted_partial, C68_violated, C68_trainer_violated); it agrees with the policy for one repetition and fitting sizes (C68_partial)."
  },
  {
   "property": "C69",
   "status": "partial",
   "theorems": [
    "Verif.Trainer.C69_violated",
    "Verif.Trainer.C69_next_partial"
   ],
   "note": "Violated for every trainer: iterating resets (C69_violated). C69_next_partial: a single __next__ does not."
  },
  {
   "property": "C70",
   "status": "partial",
   "theorems": [
    "Verif.Buffer.C70_violated",
    "Verif.Buffer.C70_single_partial"
   ],
   "note": "Violated: the vector buffer always normalises (C70_violated). Single buffers honour the flag (C70_single_partial)."
  },
  {
   "property": "C71",
   "status": "partial",
   "theorems": [
    "Verif.Buffer.C71_violated",
    "Verif.Buffer.C71_partial"
   ],
   "note": "Violated for alpha != 1: the minimum priority is not exponentiated (C71_violated). C71_partial: exact formula, and the claim for alpha = 1."
  },
  {
   "property": "C72",
   "status": "proved",
   "theorems": [
    "Verif.Buffer.C72_ratio"
   ],
   "note": ""
  },
  {
   "property": "C73",
   "status": "partial",
   "theorems": [
    "Verif.Buffer.C73_stored_partial",
    "Verif.Buffer.C73_violated"
   ],
   "note": "Violated with ignore_obs_next=True (C73_violated); proved when obs_next is stored (C73_stored_partial)."
  },
  {
   "property": "C74",
   "status": "partial",
   "theorems": [
    "Verif.Buffer.C74_unsampled_partial",
    "Verif.Buffer.C74_violated"
   ],
   "note": "Violated when the source has just been sampled (C74_violated); proved otherwise (C74_unsampled_partial)."
  },
  {
   "property": "C75",
   "status": "proved",
   "theorems": [
    "Verif.Stats.C75_normalised",
    "Verif.Stats.C75_clipped",
    "Verif.Stats.C75_frozen"
   ],
   "note": ""
  },
  {
   "property": "C76",
   "status": "proved",
   "theorems": [
    "Verif.Stats.C76_summary",
    "Verif.Stats.C76_empty"
   ],
   "note": ""
  },
  {
   "property": "C77",
   "status": "partial",
   "theorems": [
    "Verif.Collector.C77_recurrent_partial",
    "Verif.Collector.C77_tensor_violated"
   ],
   "note": "Proved for array or Batch states, across dropped environments and across collects; violated for torch tensors, whose reset has no effect (C77_tensor_violated)."
  },
  {
   "property": "C78",
   "status": "partial",
   "theorems": [
    "Verif.Collector.C78_stateless_violated",
    "Verif.Collector.C78_random_violated",
    "Verif.Collector.C78_actions_violated",
    "Verif.Collector.C78_stateful_partial"
   ],
   "note": "Violated: policies without recurrent state never work (C78_stateless_violated), random=True after a reset never works (C78_random_violated), nor do actions that are not numbers (C78_actions_violated). C78_stateful_partial: recurrent policies with scalar actions collect and terminate under every schedule."
  },
  {
   "property": "C79",
   "status": "partial",
   "theorems": [
    "Verif.Collector.C79_violated",
    "Verif.Collector.C79_reset_partial"
   ],
   "note": "Violated: the pending steps are looked at only once before the environments are reset (C79_violated). C79_reset_partial: exactly when reset works, and what it does then."
  },
  {
   "property": "C80",
   "status": "partial",
   "theorems": [
    "Verif.Trainer.C80_tests_partial",
    "Verif.Trainer.C80_training_partial",
    "Verif.Trainer.C80_violated"
   ],
   "note": "Violated: the test before an early stop does not use the metric (C80_violated). Proved for all other tests and for training collections."
  },
  {
   "property": "C81",
   "status": "proved",
   "theorems": [
    "Verif.Trainer.C81_flag"
   ],
   "note": "All exit paths, including exceptions raised by the trainer. Exceptions raised by collectors or policies are not modelled."
  },
  {
   "property": "C82",
   "status": "proved",
   "theorems": [
    "Verif.Trainer.C82_counters",
    "Verif.Trainer.C82_new",
    "Verif.Trainer.C82_offline"
   ],
   "note": "All trainers with a training collector; gradient steps for the off-policy trainer (on-policy: C68)."
  },
  {
   "property": "C83",
   "status": "partial",
   "theorems": [
    "Verif.Trainer.C83_reset_partial",
    "Verif.Trainer.C83_violated"
   ],
   "note": "Violated for every trainer: episodes and (without a log) gradient steps are kept (C83_violated). C83_reset_partial: environment steps and epoch."
  },
  {
   "property": "C84",
   "status": "partial",
   "theorems": [
    "Verif.Trainer.C84_violated",
    "Verif.Trainer.C84_once_partial"
   ],
   "note": "Violated for every trainer with a test collector: two initial tests (C84_violated); once with reset_prior_to_run=False (C84_once_partial)."
  },
  {
   "property": "C85",
   "status": "partial",
   "theorems": [
    "Verif.Stats.C85_initial_partial",
    "Verif.Stats.C85_unbounded_partial",
    "Verif.Stats.C85_forgotten",
    "Verif.Stats.C85_std_violated",
    "Verif.Stats.C85_clip_violated"
   ],
   "note": "Violated: std is stored as the variance (C85_std_violated), clip_max=0 does not clip (C85_clip_violated). Proved for std 0 or 1 and clip_max other than 0; C85_forgotten in general."
  },
  {
   "property": "C86",
   "status": "proved",
   "theorems": [
    "Verif.Wrappers.C86_trajectories",
    "Verif.Wrappers.C86_terminated"
   ],
   "note": "Equivalence of recorded trajectories, in both directions."
  },
  {
   "property": "C87",
   "status": "partial",
   "theorems": [
    "Verif.TrustRegion.C87_accepted_partial",
    "Verif.TrustRegion.C87_rejected",
    "Verif.TrustRegion.C87_learn_partial",
    "Verif.TrustRegion.C87_violated",
    "Verif.TrustRegion.C87_parameters"
   ],
   "note": "Violated with the default parameters (C87_violated): the last rejected candidate stays. Proved: an acceptable candidate is found and the first one is taken; whenever the reported step size is not 0 the constraints hold, over whole calls of learn."
  },
  {
   "property": "C88",
   "status": "partial",
   "theorems": [
    "Verif.TrustRegion.C88_direction_partial",
    "Verif.TrustRegion.C88_npg_partial",
    "Verif.TrustRegion.C88_violated"
   ],
   "note": "Violated for a zero gradient (C88_violated). Proved otherwise for every positive semidefinite operator and positive damping."
  },
  {
   "property": "C89",
   "status": "proved",
   "theorems": [
    "Verif.Ppo.C89_clipped",
    "Verif.Ppo.C89_gain",
    "Verif.Ppo.C89_unbounded",
    "Verif.Ppo.C89_dual",
    "Verif.Ppo.C89_loss"
   ],
   "note": "Clipped objective, gain bound, need for and effect of dual clipping, loss."
  },
  {
   "property": "C90",
   "status": "proved",
   "theorems": [
    "Verif.Ppo.C90_clipped",
    "Verif.Ppo.C90_loss"
   ],
   "note": "Both sides of the clipping."
  },
  {
   "property": "C91",
   "status": "partial",
   "theorems": [
    "Verif.Ppo.C91_ppo_partial",
    "Verif.Ppo.C91_violated",
    "Verif.Ppo.C91_npg_partial",
    "Verif.Ppo.C91_real_partial"
   ],
   "note": "Violated for single-transition minibatches and, for NPG/TRPO, equal advantages (C91_violated); proved for PPO minibatches of at least two transitions."
  },
  {
   "property": "C92",
   "status": "partial",
   "theorems": [
    "Verif.QTarget.C92_dqn_double",
    "Verif.QTarget.C92_distributional_partial",
    "Verif.QTarget.C92_violated",
    "Verif.QTarget.C92_action_values"
   ],
   "note": "DQN and double targets proved (C92_dqn_double, C93_dqn_plain_partial); violated by the distributional policies, whose targets are always double (C92_violated, C92_distributional_partial)."
  },
  {
   "property": "C93",
   "status": "partial",
   "theorems": [
    "Verif.QTarget.C93_dqn_plain_partial",
    "Verif.QTarget.C93_violated"
   ],
   "note": "Legal with is_double (C92_dqn_double); violated without (C93_violated)."
  },
  {
   "property": "C94",
   "status": "partial",
   "theorems": [
    "Verif.QTarget.C94_weighted_partial",
    "Verif.QTarget.C94_violated"
   ],
   "note": "Violated by DQN with clip_loss_grad (C94_violated), proved for the other losses."
  },
  {
   "property": "C95",
   "status": "partial",
   "theorems": [
    "Verif.QTarget.C95_one_step_partial",
    "Verif.QTarget.C95_violated"
   ],
   "note": "Violated for two steps (C95_violated); proved whenever the return covers one step."
  },
  {
   "property": "C96",
   "status": "partial",
   "theorems": [
    "Verif.QTarget.C96_target_partial",
    "Verif.QTarget.C96_violated"
   ],
   "note": "Violated in three ways (C96_violated); proved for discount 0.99, at least two rows, and steps that are not truncated."
  },
  {
   "property": "C97",
   "status": "partial",
   "theorems": [
    "Verif.QTarget.C97_explore_partial",
    "Verif.QTarget.C97_violated"
   ],
   "note": "Violated with masks (C97_violated for every number of actions); proved for all entries whose mask is not set, and without masks."
  },
  {
   "property": "C98",
   "status": "proved",
   "theorems": [
    "Verif.QTarget.C98_midpoints",
    "Verif.QTarget.C98_loss",
    "Verif.QTarget.C98_asymmetric"
   ],
   "note": ""
  },
  {
   "property": "C99",
   "status": "proved",
   "theorems": [
    "Verif.QTarget.C99_filter",
    "Verif.QTarget.C99_unfiltered"
   ],
   "note": "Over the reals, with softmax probabilities; hypothesis: Q-values differ by less than the largest float."
  },
  {
   "property": "C100",
   "status": "proved",
   "theorems": [
    "Verif.ActorCritic.C100_td3",
    "Verif.ActorCritic.C100_ddpg",
    "Verif.ActorCritic.C100_start",
    "Verif.ActorCritic.C100_redq"
   ],
   "note": "TD3 over whole runs; DDPG and REDQ per call."
  },
  {
   "property": "C101",
   "status": "partial",
   "theorems": [
    "Verif.ActorCritic.C101_returns",
    "Verif.ActorCritic.C101_noise_partial",
    "Verif.ActorCritic.C101_violated"
   ],
   "note": "Returns and noise bound proved; violated in that the smoothed action may leave the action range (C101_violated)."
  },
  {
   "property": "C102",
   "status": "proved",
   "theorems": [
    "Verif.ActorCritic.C102_sac",
    "Verif.ActorCritic.C102_discrete",
    "Verif.ActorCritic.C102_redq"
   ],
   "note": ""
  },
  {
   "property": "C103",
   "status": "partial",
   "theorems": [
    "Verif.ActorCritic.C103_fixed",
    "Verif.ActorCritic.C103_auto_partial",
    "Verif.ActorCritic.C103_start",
    "Verif.ActorCritic.C103_discrete_partial",
    "Verif.ActorCritic.C103_violated"
   ],
   "note": "Proved for SAC and discrete SAC with gradient descent as optimizer of log_alpha; violated for integer alpha and for REDQ with tuned alpha (C103_violated)."
  },
  {
   "property": "C104",
   "status": "partial",
   "theorems": [
    "Verif.ActorCritic.C104_priority_partial",
    "Verif.ActorCritic.C104_violated"
   ],
   "note": "DQN, DDPG, QRDQN, IQN, FQF proved; violated by TD3, SAC, discrete SAC, REDQ, BDQ (C104_violated)."
  },
  {
   "property": "C105",
   "status": "partial",
   "theorems": [
    "Verif.ActorCritic.C105_process_partial",
    "Verif.ActorCritic.C105_reset",
    "Verif.ActorCritic.C105_violated"
   ],
   "note": "Sizes given as tuples proved; violated for lists (C105_violated)."
  },
  {
   "property": "C106",
   "status": "partial",
   "theorems": [
    "Verif.ActorCritic.C106_direct_partial",
    "Verif.ActorCritic.C106_violated"
   ],
   "note": "Policies trained directly proved; violated for wrapped ones (C106_violated)."
  },
  {
   "property": "C107",
   "status": "proved",
   "theorems": [
    "Verif.Trainer.C107_runs"
   ],
   "note": ""
  },
  {
   "property": "C108",
   "status": "proved",
   "theorems": [
    "Verif.Trainer.C108_onpolicy"
   ],
   "note": ""
  },
  {
   "property": "C109",
   "status": "partial",
   "theorems": [
    "Verif.Psrl.C109_posterior_partial",
    "Verif.Psrl.C109_order",
    "Verif.Psrl.C109_violated"
   ],
   "note": "Counts, means with the prior weighing epsilon, and independence of order proved; violated as to the weight of the prior (C109_violated)."
  },
  {
   "property": "C110",
   "status": "partial",
   "theorems": [
    "Verif.Psrl.C110_std_partial",
    "Verif.Psrl.C110_violated"
   ],
   "note": "Proved for prior means 0; violated otherwise (C110_violated)."
  },
  {
   "property": "C111",
   "status": "partial",
   "theorems": [
    "Verif.Psrl.C111_terminates_partial",
    "Verif.Psrl.C111_optimal_partial",
    "Verif.Psrl.C111_violated"
   ],
   "note": "Proved for discount factors below 1; violated for 1 (C111_violated)."
  },
  {
   "property": "C112",
   "status": "proved",
   "theorems": [
    "Verif.Psrl.C112_solved"
   ],
   "note": ""
  },
  {
   "property": "C113",
   "status": "partial",
   "theorems": [
    "Verif.Psrl.C113_violated"
   ],
   "note": "Violated (C113_violated)."
  },
  {
   "property": "C114",
   "status": "partial",
   "theorems": [
    "Verif.Offline.C114_actor_partial",
    "Verif.Offline.C114_violated",
    "Verif.Offline.C114_weights",
    "Verif.Offline.C114_critic",
    "Verif.Offline.C114_loss"
   ],
   "note": "Proved for equal weights; the loss is the product of the means, violated in general (C114_violated)."
  },
  {
   "property": "C115",
   "status": "proved",
   "theorems": [
    "Verif.Offline.C115_regulariser"
   ],
   "note": ""
  },
  {
   "property": "C116",
   "status": "partial",
   "theorems": [
    "Verif.Offline.C116_targets_partial",
    "Verif.Offline.C116_violated"
   ],
   "note": "Proved except for truncated transitions (C116_violated)."
  },
  {
   "property": "C117",
   "status": "partial",
   "theorems": [
    "Verif.Offline.C117_random_partial",
    "Verif.Offline.C117_violated",
    "Verif.Offline.C117_density_partial",
    "Verif.Offline.C117_density_violated"
   ],
   "note": "Proved for min_action 0 and intervals of length 2; violated otherwise (C117_violated, C117_density_violated)."
  },
  {
   "property": "C118",
   "status": "partial",
   "theorems": [
    "Verif.Offline.C118_penalty_partial",
    "Verif.Offline.C118_violated"
   ],
   "note": "Proved for one repetition, an upper bound for more; violated (C118_violated)."
  },
  {
   "property": "C119",
   "status": "partial",
   "theorems": [
    "Verif.Offline.C119_column",
    "Verif.Offline.C119_calibration_partial",
    "Verif.Offline.C119_vector_column",
    "Verif.Offline.C119_vector_partial",
    "Verif.Offline.C119_violated"
   ],
   "note": "Proved for plain buffers that have not received more than they hold or have been filled a whole number of times, and for vector buffers of full sub-buffers starting at their first slots; C119_column and C119_vector_column say what is read in general; violated otherwise (C119_violated)."
  },
  {
   "property": "C120",
   "status": "proved",
   "theorems": [
    "Verif.Offline.C120_act",
    "Verif.Offline.C120_target"
   ],
   "note": ""
  },
  {
   "property": "C121",
   "status": "partial",
   "theorems": [
    "Verif.Offline.C121_violated"
   ],
   "note": "Violated (C121_violated)."
  },
  {
   "property": "C122",
   "status": "proved",
   "theorems": [
    "Verif.Offline.C122_reward",
    "Verif.Offline.C122_returns",
    "Verif.Offline.C122_direction"
   ],
   "note": ""
  },
  {
   "property": "C123",
   "status": "partial",
   "theorems": [
    "Verif.Offline.C123_updates_partial",
    "Verif.Offline.C123_violated"
   ],
   "note": "Proved for divisible sizes, a lower bound otherwise; violated (C123_violated)."
  },
  {
   "property": "C124",
   "status": "partial",
   "theorems": [
    "Verif.Offline.C124_bonus_partial",
    "Verif.Offline.C124_gae_partial",
    "Verif.Offline.C124_violated"
   ],
   "note": "Proved for policies with episodic returns; violated for n-step returns (C124_violated)."
  },
  {
   "property": "C125",
   "status": "partial",
   "theorems": [
    "Verif.Offline.C125_violated"
   ],
   "note": "Violated (C125_violated)."
  },
  {
   "property": "C126",
   "status": "proved",
   "theorems": [
    "Verif.Offline.C126_random"
   ],
   "note": ""
  },
  {
   "property": "C127",
   "status": "proved",
   "theorems": [
    "Verif.Offline.C127_normalised"
   ],
   "note": ""
  },
  {
   "property": "C128",
   "status": "proved",
   "theorems": [
    "Verif.Logger.C128_due",
    "Verif.Logger.C128_spaced",
    "Verif.Logger.C128_scopes",
    "Verif.Logger.C128_every"
   ],
   "note": ""
  },
  {
   "property": "C129",
   "status": "proved",
   "theorems": [
    "Verif.Logger.C129_restore",
    "Verif.Logger.C129_empty",
    "Verif.Logger.C129_due"
   ],
   "note": ""
  },
  {
   "property": "C130",
   "status": "partial",
   "theorems": [
    "Verif.Logger.C130_train_partial",
    "Verif.Logger.C130_update_partial",
    "Verif.Logger.C130_violated"
   ],
   "note": "Proved for training and update data; violated for test and info data (C130_violated)."
  },
  {
   "property": "C131",
   "status": "proved",
   "theorems": [
    "Verif.Logger.C131_round_trip"
   ],
   "note": ""
  },
  {
   "property": "C132",
   "status": "partial",
   "theorems": [
    "Verif.Logger.C132_partial",
    "Verif.Logger.C132_flush",
    "Verif.Logger.C132_violated"
   ],
   "note": "Proved for write_flush=True; violated otherwise (C132_violated)."
  },
  {
   "property": "C133",
   "status": "proved",
   "theorems": [
    "Verif.Net.C133_layers",
    "Verif.Net.C133_fails",
    "Verif.Net.C133_dims"
   ],
   "note": ""
  },
  {
   "property": "C134",
   "status": "partial",
   "theorems": [
    "Verif.Net.C134_output",
    "Verif.Net.C134_concat_partial",
    "Verif.Net.C134_violated"
   ],
   "note": "Output sizes proved; with concat proved for one atom, refuted for more (C134_violated)."
  },
  {
   "property": "C135",
   "status": "proved",
   "theorems": [
    "Verif.Net.C135_dueling",
    "Verif.Net.C135_net",
    "Verif.Net.C135_branching"
   ],
   "note": ""
  },
  {
   "property": "C136",
   "status": "proved",
   "theorems": [
    "Verif.Net.C136_split",
    "Verif.Net.C136_steps",
    "Verif.Net.C136_rows"
   ],
   "note": ""
  },
  {
   "property": "C137",
   "status": "partial",
   "theorems": [
    "Verif.Net.C137_actor",
    "Verif.Net.C137_prob_partial",
    "Verif.Net.C137_violated"
   ],
   "note": "Proved for Actor (continuous and discrete); for ActorProb only with networks that return the state they are given (C137_violated)."
  },
  {
   "property": "C138",
   "status": "partial",
   "theorems": [
    "Verif.Net.C138_partial",
    "Verif.Net.C138_violated"
   ],
   "note": "Proved for modules that have the attribute; refuted for all others (C138_violated)."
  },
  {
   "property": "C139",
   "status": "partial",
   "theorems": [
    "Verif.Net.C139_joint",
    "Verif.Net.C139_obs_partial",
    "Verif.Net.C139_violated"
   ],
   "note": "Proved for networks of observation and action, and without action; refuted for all networks of the observation only with action (C139_violated)."
  },
  {
   "property": "C140",
   "status": "proved",
   "theorems": [
    "Verif.Net.C140_members",
    "Verif.Net.C140_linear"
   ],
   "note": ""
  },
  {
   "property": "C141",
   "status": "partial",
   "theorems": [
    "Verif.Net.C141_batch_partial",
    "Verif.Net.C141_empty_violated",
    "Verif.Net.C141_single_partial",
    "Verif.Net.C141_violated"
   ],
   "note": "Proved for batches, and for single observations with equal tuples as shapes; violated for other single observations (C141_violated)."
  },
  {
   "property": "C142",
   "status": "proved",
   "theorems": [
    "Verif.NetOut.C142_actor",
    "Verif.NetOut.C142_mean",
    "Verif.NetOut.C142_scale",
    "Verif.NetOut.C142_perturbation",
    "Verif.NetOut.C142_vae",
    "Verif.NetOut.C142_latent",
    "Verif.NetOut.C142_softmax"
   ],
   "note": ""
  },
  {
   "property": "C143",
   "status": "proved",
   "theorems": [
    "Verif.NetOut.C143_layout",
    "Verif.NetOut.C143_fractions",
    "Verif.NetOut.C143_fqf"
   ],
   "note": ""
  },
  {
   "property": "C144",
   "status": "proved",
   "theorems": [
    "Verif.NetOut.C144_noisy",
    "Verif.NetOut.C144_sample"
   ],
   "note": ""
  },
  {
   "property": "C145",
   "status": "partial",
   "theorems": [
    "Verif.NetOut.C145_info",
    "Verif.NetOut.C145_dim",
    "Verif.NetOut.C145_random_partial",
    "Verif.NetOut.C145_violated",
    "Verif.NetOut.C145_probs"
   ],
   "note": "Bounds proved; random actions proved for discrete spaces from 0 and boxes with one dimension, refuted for all others (C145_violated)."
  },
  {
   "property": "C146",
   "status": "partial",
   "theorems": [
    "Verif.NetOut.C146_inside",
    "Verif.NetOut.C146_partial",
    "Verif.NetOut.C146_targets_partial",
    "Verif.NetOut.C146_violated"
   ],
   "note": "Proved for modules that are all in one mode before; refuted for all others (C146_violated)."
  },
  {
   "property": "C147",
   "status": "partial",
   "theorems": [
    "Verif.Optim.C147_clipped",
    "Verif.Optim.C147_plain",
    "Verif.Optim.C147_fresh_partial",
    "Verif.Optim.C147_no_module",
    "Verif.Optim.C147_violated"
   ],
   "note": "Proved for modules whose parameters are held by the optimizer; refuted for max_grad_norm 0 and for other modules (C147_violated)."
  },
  {
   "property": "C148",
   "status": "partial",
   "theorems": [
    "Verif.Optim.C148_step",
    "Verif.Optim.C148_restore_partial",
    "Verif.Optim.C148_refused",
    "Verif.Optim.C148_violated"
   ],
   "note": "Steps proved; restoring proved for schedulers without functions, refuted for all others (C148_violated)."
  },
  {
   "property": "C149",
   "status": "partial",
   "theorems": [
    "Verif.Optim.C149_clone_partial",
    "Verif.Optim.C149_refused",
    "Verif.Optim.C149_violated"
   ],
   "note": "Proved if the options in use are the defaults; refuted otherwise (C149_violated)."
  },
  {
   "property": "C150",
   "status": "partial",
   "theorems": [
    "Verif.Optim.C150_roles_partial",
    "Verif.Optim.C150_refused",
    "Verif.Optim.C150_violated",
    "Verif.Optim.C150_cloned"
   ],
   "note": "Proved if both critics are given; refuted in general if the second is left out (C150_violated)."
  },
  {
   "property": "C151",
   "status": "proved",
   "theorems": [
    "Verif.Schedule.C151_steps"
   ],
   "note": "Proved."
  },
  {
   "property": "C152",
   "status": "partial",
   "theorems": [
    "Verif.Schedule.C152_onpolicy_partial",
    "Verif.Schedule.C152_missing",
    "Verif.Schedule.C152_violated"
   ],
   "note": "Proved for on-policy training; refuted for off-policy training with more steps per epoch than updates expected (C152_violated)."
  },
  {
   "property": "C153",
   "status": "partial",
   "theorems": [
    "Verif.Schedule.C153_direct_partial",
    "Verif.Schedule.C153_violated"
   ],
   "note": "Proved for policies that are updated themselves; refuted for all inner policies (C153_violated)."
  },
  {
   "property": "C154",
   "status": "partial",
   "theorems": [
    "Verif.Schedule.C154_decay_partial",
    "Verif.Schedule.C154_run",
    "Verif.Schedule.C154_violated"
   ],
   "note": "Proved for positive decay_steps; refuted for zero, and for the documented time of the call (C154_violated)."
  },
  {
   "property": "C155",
   "status": "proved",
   "theorems": [
    "Verif.Schedule.C155_threshold",
    "Verif.Schedule.C155_missing",
    "Verif.Schedule.C155_spec"
   ],
   "note": "Proved."
  },
  {
   "property": "C156",
   "status": "partial",
   "theorems": [
    "Verif.Experiment.C156_config",
    "Verif.Experiment.C156_experiment_partial",
    "Verif.Experiment.C156_names",
    "Verif.Experiment.C156_violated"
   ],
   "note": "Proved within one experiment and for names, seeds and settings of collections; refuted for the environment seeds of two experiments (C156_violated)."
  },
  {
   "property": "C157",
   "status": "partial",
   "theorems": [
    "Verif.Experiment.C157_order_partial",
    "Verif.Experiment.C157_violated"
   ],
   "note": "Order of the actions proved; the returned result is refuted (C157_violated)."
  },
  {
   "property": "C158",
   "status": "proved",
   "theorems": [
    "Verif.Experiment.C158_results",
    "Verif.Experiment.C158_single"
   ],
   "note": "Proved."
  },
  {
   "property": "C159",
   "status": "partial",
   "theorems": [
    "Verif.Experiment.C159_restore_partial",
    "Verif.Experiment.C159_checkpoints",
    "Verif.Experiment.C159_disabled",
    "Verif.Experiment.C159_missing",
    "Verif.Experiment.C159_violated"
   ],
   "note": "Proved for the policy, checkpoints and disabled persistence; refuted for additional data after a checkpoint (C159_violated)."
  },
  {
   "property": "C160",
   "status": "partial",
   "theorems": [
    "Verif.Factories.C160_continuous_partial",
    "Verif.Factories.C160_critic",
    "Verif.Factories.C160_violated",
    "Verif.Factories.C160_dist"
   ],
   "note": "Proved for continuous actions, critics and distribution functions; refuted for actors with discrete actions (C160_violated)."
  },
  {
   "property": "C161",
   "status": "partial",
   "theorems": [
    "Verif.Factories.C161_policy_partial",
    "Verif.Factories.C161_logits_partial",
    "Verif.Factories.C161_violated"
   ],
   "note": "Proved for PG, A2C, PPO, NPG, TRPO; refuted for discrete SAC (C161_violated)."
  },
  {
   "property": "C162",
   "status": "partial",
   "theorems": [
    "Verif.Factories.C162_built_partial",
    "Verif.Factories.C162_own",
    "Verif.Factories.C162_violated"
   ],
   "note": "Proved for built and copied experiments; refuted for stored ones (C162_violated)."
  },
  {
   "property": "C163",
   "status": "partial",
   "theorems": [
    "Verif.Factories.C163_partial",
    "Verif.Factories.C163_buffer",
    "Verif.Factories.C163_violated"
   ],
   "note": "Proved for all settings but episode_per_collect, for which it is refuted (C163_violated)."
  },
  {
   "property": "C164",
   "status": "partial",
   "theorems": [
    "Verif.Factories.C164_partial",
    "Verif.Factories.C164_violated"
   ],
   "note": "Proved for wandb; refuted for pandas and intervals with tensorboard (C164_violated)."
  },
  {
   "property": "C165",
   "status": "proved",
   "theorems": [
    "Verif.Params.C165_fit",
    "Verif.Params.C165_values",
    "Verif.Params.C165_schedulers"
   ],
   "note": "Proved."
  },
  {
   "property": "C166",
   "status": "partial",
   "theorems": [
    "Verif.Factories.C166_box_partial",
    "Verif.Factories.C166_violated"
   ],
   "note": "Proved for boxes; refuted for discrete actions (C166_violated)."
  },
  {
   "property": "C167",
   "status": "partial",
   "theorems": [
    "Verif.Factories.C167_partial",
    "Verif.Factories.C167_violated"
   ],
   "note": "Proved for [-1,1] or without scaling; refuted otherwise (C167_violated)."
  },
  {
   "property": "C168",
   "status": "partial",
   "theorems": [
    "Verif.Factories.C168_none_partial",
    "Verif.Factories.C168_violated"
   ],
   "note": "Proved without dual clipping; refuted for all documented and all accepted values (C168_violated)."
  },
  {
   "property": "C169",
   "status": "partial",
   "theorems": [
    "Verif.Evaluation.C169_same_partial",
    "Verif.Evaluation.C169_ignored",
    "Verif.Evaluation.C169_rows",
    "Verif.Evaluation.C169_violated"
   ],
   "note": "Proved for runs with the same environment steps; refuted otherwise (C169_violated)."
  },
  {
   "property": "C170",
   "status": "partial",
   "theorems": [
    "Verif.Evaluation.C170_below_partial",
    "Verif.Evaluation.C170_violated"
   ],
   "note": "Proved with \"below\" for \"up to\"; refuted as stated (C170_violated)."
  },
  {
   "property": "C171",
   "status": "partial",
   "theorems": [
    "Verif.Evaluation.C171_plain_partial",
    "Verif.Evaluation.C171_dist",
    "Verif.Evaluation.C171_no_train",
    "Verif.Evaluation.C171_violated"
   ],
   "note": "Proved for runs without distributions and with training data; for others the error is proved (C171_dist, C171_no_train)."
  },
  {
   "property": "C172",
   "status": "partial",
   "theorems": [
    "Verif.BatchTree.C172_order_violated",
    "Verif.BatchTree.C172_division_violated",
    "Verif.BatchTree.C172_violated",
    "Verif.BatchTree.C172_add_partial",
    "Verif.BatchTree.C172_add_only",
    "Verif.BatchTree.C172_number_partial",
    "Verif.BatchTree.C172_division_partial"
   ],
   "note": "Refuted as stated (order of keys, integer division); proved for batches with the same order of keys and fitting kinds of numbers."
  },
  {
   "property": "C173",
   "status": "partial",
   "theorems": [
    "Verif.Batch.C173_cat_violated",
    "Verif.Batch.C173_reserved_violated",
    "Verif.Batch.C173_stack_violated",
    "Verif.Batch.C173_cat_partial",
    "Verif.Batch.C173_empty_partial",
    "Verif.Batch.C173_stack_partial"
   ],
   "note": "Refuted for keys that only some batches have; otherwise equality including exceptions."
  },
  {
   "property": "C174",
   "status": "partial",
   "theorems": [
    "Verif.Batch.C174_none",
    "Verif.Batch.C174_violated",
    "Verif.Batch.C174_rows_partial",
    "Verif.Batch.C174_stack_partial",
    "Verif.Batch.C174_index_partial"
   ],
   "note": "Refuted for nested batches without rows; proved for batches whose values all have n rows."
  },
  {
   "property": "C175",
   "status": "partial",
   "theorems": [
    "Verif.Batch.C175_flattened_violated",
    "Verif.Batch.C175_keys_violated",
    "Verif.Batch.C175_partial"
   ],
   "note": "Refuted for rows with several entries and if no row is complete; proved for one-dimensional arrays with a complete row."
  },
  {
   "property": "C176",
   "status": "proved",
   "theorems": [
    "Verif.Batch.C176_all",
    "Verif.Batch.C176_one",
    "Verif.Batch.C176_many"
   ],
   "note": ""
  },
  {
   "property": "C177",
   "status": "partial",
   "theorems": [
    "Verif.Batch.C177_frame",
    "Verif.Batch.C177_new",
    "Verif.Batch.C177_existing",
    "Verif.Batch.C177_whole",
    "Verif.Batch.C177_nested",
    "Verif.Batch.C177_violated",
    "Verif.Batch.C177_partial"
   ],
   "note": "The effect is proved for existing and new keys; \"a failing call changes nothing\" is refuted for new keys."
  },
  {
   "property": "C178",
   "status": "partial",
   "theorems": [
    "Verif.BatchTree.C178_violated",
    "Verif.BatchTree.C178_nested_violated",
    "Verif.BatchTree.C178_copy_nested_violated",
    "Verif.BatchTree.C178_copy_violated",
    "Verif.BatchTree.C178_partial"
   ],
   "note": "Refuted for the reserved names; proved for all other keys."
  },
  {
   "property": "C179",
   "status": "partial",
   "theorems": [
    "Verif.BatchTree.C179_violated",
    "Verif.BatchTree.C179_partial",
    "Verif.BatchTree.C179_single",
    "Verif.BatchTree.C179_objects",
    "Verif.BatchTree.C179_roundtrip"
   ],
   "note": "Refuted for NumPy arrays and a given dtype; proved without dtype, for tensors, and if the types of the arrays agree already."
  },
  {
   "property": "C180",
   "status": "proved",
   "theorems": [
    "Verif.Batch.C180_one",
    "Verif.Batch.C180_many"
   ],
   "note": ""
  },
  {
   "property": "C181",
   "status": "partial",
   "theorems": [
    "Verif.Buffer.C181_rows",
    "Verif.Buffer.C181_first_violated",
    "Verif.Buffer.C181_wrap_violated",
    "Verif.Buffer.C181_violated",
    "Verif.Buffer.C181_partial",
    "Verif.Buffer.C181_inner_partial"
   ],
   "note": "Refuted; exact values proved for every row, and the property if the first and the last row end episodes, or for inner rows."
  },
  {
   "property": "C182",
   "status": "proved",
   "theorems": [
    "Verif.OnPolicy.C182_same",
    "Verif.OnPolicy.C182_gae",
    "Verif.OnPolicy.C182_log_prob",
    "Verif.OnPolicy.C182_refused"
   ],
   "note": ""
  },
  {
   "property": "C183",
   "status": "partial",
   "theorems": [
    "Verif.OnPolicy.C183_a2c_partial",
    "Verif.OnPolicy.C183_pg",
    "Verif.OnPolicy.C183_recompute",
    "Verif.OnPolicy.C183_violated"
   ],
   "note": "Refuted for PPO with recompute_advantage and several repetitions; proved for sequences of updates of A2C (NPG, TRPO, PPO without it), and for PG the exact returns of an update."
  },
  {
   "property": "C184",
   "status": "proved",
   "theorems": [
    "Verif.OnPolicy.C184_repetitions"
   ],
   "note": ""
  },
  {
   "property": "C185",
   "status": "partial",
   "theorems": [
    "Verif.OnPolicy.C185_partial",
    "Verif.OnPolicy.C185_column",
    "Verif.OnPolicy.C185_wide",
    "Verif.OnPolicy.C185_violated"
   ],
   "note": "Refuted for distributions with one log-probability per component (exact result for one column, error for several); proved for one log-probability per row."
  },
  {
   "property": "C186",
   "status": "proved",
   "theorems": [
    "Verif.Squash.C186_forward",
    "Verif.Squash.C186_density",
    "Verif.Squash.C186_eps",
    "Verif.Squash.C186_bounded"
   ],
   "note": ""
  },
  {
   "property": "C187",
   "status": "proved",
   "theorems": [
    "Verif.Imitation.C187_prob",
    "Verif.Imitation.C187_likelihood",
    "Verif.Imitation.C187_refused",
    "Verif.Imitation.C187_mode",
    "Verif.Imitation.C187_regression",
    "Verif.Imitation.C187_cql",
    "Verif.Imitation.C187_bcq"
   ],
   "note": ""
  },
  {
   "property": "C188",
   "status": "partial",
   "theorems": [
    "Verif.Buffer.C188_partial",
    "Verif.Buffer.C188_succeeds",
    "Verif.Buffer.C188_others",
    "Verif.Buffer.C188_reversed",
    "Verif.Buffer.C188_violated",
    "Verif.Buffer.C188_cancel",
    "Verif.Buffer.C188_manager"
   ],
   "note": "Refuted for CQL, BCQ, discrete BCQ and CRR (exact effect: the order in the batch is reversed); proved for the fourteen other algorithms."
  },
  {
   "property": "C189",
   "status": "proved",
   "theorems": [
    "Verif.Imitation.C189_bonus",
    "Verif.Imitation.C189_rows",
    "Verif.Imitation.C189_loss"
   ],
   "note": ""
  },
  {
   "property": "C190",
   "status": "partial",
   "theorems": [
    "Verif.Modules.C190_partial",
    "Verif.Modules.C190_learning",
    "Verif.Modules.C190_fqf",
    "Verif.Modules.C190_violated",
    "Verif.Modules.C190_new",
    "Verif.Modules.C190_complete",
    "Verif.Modules.C190_bcq",
    "Verif.Modules.C190_crr",
    "Verif.Modules.C190_rainbow",
    "Verif.Modules.C190_manager"
   ],
   "note": "Refuted for FQF, BCQ, CRR with target networks, and updates of managers of several agents (exact behaviour of each given); proved for the other classes, also in curiosity wrappers."
  },
  {
   "property": "C191",
   "status": "partial",
   "theorems": [
    "Verif.Modules.C191_partial",
    "Verif.Modules.C191_later",
    "Verif.Modules.C191_refused",
    "Verif.Modules.C191_missing",
    "Verif.Modules.C191_manager",
    "Verif.Modules.C191_violated"
   ],
   "note": "Refuted for managers of several agents; proved for all other policies, with curiosity wrappers nested to any depth."
  },
  {
   "property": "C192",
   "status": "partial",
   "theorems": [
    "Verif.Buffer.C192_unbiased",
    "Verif.Buffer.C192_loss",
    "Verif.Buffer.C192_ignored",
    "Verif.Buffer.C192_used_partial",
    "Verif.Buffer.C192_violated"
   ],
   "note": "Unbiasedness and use in the loss proved; refuted for DQN with clip_loss_grad."
  },
  {
   "property": "C193",
   "status": "proved",
   "theorems": [
    "Verif.Pipeline.C193_content",
    "Verif.Pipeline.C193_nstep",
    "Verif.Pipeline.C193_gae"
   ],
   "note": "Holds for collectors in ordinary use (the domain of C61)."
  },
  {
   "property": "C194",
   "status": "partial",
   "theorems": [
    "Verif.Pipeline.C194_returns_partial",
    "Verif.Pipeline.C194_partial",
    "Verif.Pipeline.C194_violated",
    "Verif.Pipeline.C194_raises"
   ],
   "note": "Returns proved always; lengths (and that the collection returns) if every episode is shorter than its sub-buffer; refuted otherwise."
  },
  {
   "property": "C195",
   "status": "proved",
   "theorems": [
    "Verif.PettingZoo.C195_step",
    "Verif.PettingZoo.C195_reset",
    "Verif.PettingZoo.C195_make"
   ],
   "note": "Proved for every environment meeting the AEC interface (Sound)."
  },
  {
   "property": "C196",
   "status": "partial",
   "theorems": [
    "Verif.PettingZoo.C196_rewards_partial",
    "Verif.PettingZoo.C196_stale",
    "Verif.PettingZoo.C196_unknown",
    "Verif.PettingZoo.C196_violated"
   ],
   "note": "Proved for steps in which every agent is rewarded; refuted for agents left out."
  },
  {
   "property": "C197",
   "status": "partial",
   "theorems": [
    "Verif.PettingZoo.C197_last_partial",
    "Verif.PettingZoo.C197_violated"
   ],
   "note": "Only the rewards of the last step are right later; refuted for earlier ones."
  },
  {
   "property": "C198",
   "status": "partial",
   "theorems": [
    "Verif.Timing.C198_total",
    "Verif.Timing.C198_counts",
    "Verif.Timing.C198_offline",
    "Verif.Timing.C198_collect_partial",
    "Verif.Timing.C198_update_partial",
    "Verif.Timing.C198_test_violated",
    "Verif.Timing.C198_collect_violated",
    "Verif.Timing.C198_violated",
    "Verif.Timing.C198_raises"
   ],
   "note": "Total time and counts proved always; collection time with asynchronous collectors; update time for a trainer that is not reset; refuted for synchronous collectors and trainers that are reset."
  },
  {
   "property": "C199",
   "status": "partial",
   "theorems": [
    "Verif.Dists.C199_rows_partial",
    "Verif.Dists.C199_summaries",
    "Verif.Dists.C199_violated"
   ],
   "note": "Proved for distributions with a row per environment of two-dimensional standard deviations; refuted for normal distributions of single numbers. The asynchronous collector records no standard deviations at all."
  },
  {
   "property": "C200",
   "status": "proved",
   "theorems": [
    "Verif.Dists.C200_item",
    "Verif.Dists.C200_rows",
    "Verif.Dists.C200_outside",
    "Verif.Dists.C200_weights"
   ],
   "note": ""
  },
  {
   "property": "C201",
   "status": "partial",
   "theorems": [
    "Verif.Dists.C201_batched",
    "Verif.Dists.C201_single_partial",
    "Verif.Dists.C201_violated"
   ],
   "note": "Batches always; single distributions proved for categorical and scalar normal ones; refuted for Independent."
  },
  {
   "property": "C202",
   "status": "proved",
   "theorems": [
    "Verif.Batch.C202_rows",
    "Verif.Batch.C202_ok",
    "Verif.Batch.C202_none"
   ],
   "note": ""
  },
  {
   "property": "C203",
   "status": "proved",
   "theorems": [
    "Verif.Buffer.C203_children",
    "Verif.Buffer.C203_restored",
    "Verif.Buffer.C203_only_goal_and_reward",
    "Verif.Buffer.C203_add",
    "Verif.Buffer.C203_sample",
    "Verif.Buffer.C203_capacity"
   ],
   "note": "With a single sampled episode in a sub-buffer nothing is relabelled, as floor(1 * (1 - 1/k)) = 0."
  },
  {
   "property": "C204",
   "status": "partial",
   "theorems": [
    "Verif.Pipeline.C204_records",
    "Verif.Pipeline.C204_partial",
    "Verif.Pipeline.C204_violated"
   ],
   "note": "Records proved for every use; targets proved for all transitions whose episode ends in the record, that have n more steps in it, or that belong to the newest record; refuted for the last steps of a broken off record."
  },
  {
   "property": "C205",
   "status": "partial",
   "theorems": [
    "Verif.Pipeline.C205_partial",
    "Verif.Pipeline.C205_violated"
   ],
   "note": "Proved if no environment is in the middle of an episode at the reset; refuted otherwise."
  },
  {
   "property": "C206",
   "status": "proved",
   "theorems": [
    "Verif.Pipeline.C206_statistics",
    "Verif.Pipeline.C206_content",
    "Verif.Pipeline.C206_nstep",
    "Verif.Pipeline.C206_gae"
   ],
   "note": "The stateful parts of an asynchronous collector that go wrong are the subject of C77 and C78."
  },
  {
   "property": "C207",
   "status": "proved",
   "theorems": [
    "Verif.Pipeline.C207_content",
    "Verif.Pipeline.C207_content_async",
    "Verif.Pipeline.C207_nstep",
    "Verif.Pipeline.C207_nstep_async",
    "Verif.Pipeline.C207_gae",
    "Verif.Pipeline.C207_gae_async"
   ],
   "note": "From a reset of the buffer on; a reset of the collector that keeps the buffer joins episodes, as in C204."
  },
  {
   "property": "C208",
   "status": "partial",
   "theorems": [
    "Verif.Pipeline.C208_partial",
    "Verif.Pipeline.C208_async",
    "Verif.Pipeline.C208_violated",
    "Verif.Pipeline.C208_raises"
   ],
   "note": "Missing for the synchronous collector: the lengths of episodes longer than a cache (C208_violated), and main parts not larger than a cache (C208_raises)."
  },
  {
   "property": "C209",
   "status": "partial",
   "theorems": [
    "Verif.ShMem.C209_transparent_partial",
    "Verif.ShMem.C209_violated",
    "Verif.ShMem.C209_duplicate_violated"
   ],
   "note": "Missing: spaces with Discrete parts (C209_violated) and calls that name an environment twice (C209_duplicate_violated)."
  },
  {
   "property": "C210",
   "status": "partial",
   "theorems": [
    "Verif.ShMem.C210_plain",
    "Verif.ShMem.C210_box_partial",
    "Verif.ShMem.C210_latest",
    "Verif.ShMem.C210_violated"
   ],
   "note": "Holds without shared memory and for plain arrays with it; dictionary observations in shared memory change (C210_violated), and always show the latest observation (C210_latest)."
  },
  {
   "property": "C211",
   "status": "partial",
   "theorems": [
    "Verif.LossStats.C211_losses_partial",
    "Verif.LossStats.C211_wrapper_violated",
    "Verif.LossStats.C211_agents_violated",
    "Verif.LossStats.C211_names_violated"
   ],
   "note": "Missing: clashing names in wrappers (C211_wrapper_violated), wrappers around several agents (C211_agents_violated), agents with equal names (C211_names_violated) or slashes in names."
  },
  {
   "property": "C212",
   "status": "partial",
   "theorems": [
    "Verif.LossStats.C212_set_partial",
    "Verif.LossStats.C212_sync",
    "Verif.LossStats.C212_violated"
   ],
   "note": "Missing: wrappers that use the names of what they wrap (C212_violated)."
  },
  {
   "property": "C213",
   "status": "partial",
   "theorems": [
    "Verif.LossStats.C213_smoothed_partial",
    "Verif.LossStats.C213_reset_violated"
   ],
   "note": "Missing: resets of the trainer (C213_reset_violated). NaN that is not the object np.nan: see C57."
  },
  {
   "property": "C214",
   "status": "partial",
   "theorems": [
    "Verif.LossStats.C214_logged_partial",
    "Verif.LossStats.C214_violated"
   ],
   "note": "Proved for dataclass statistics, fails for all wrappers and multi-agent statistics (C214_violated)."
  },
  {
   "property": "C215",
   "status": "partial",
   "theorems": [
    "Verif.EnvAttr.C215_partial",
    "Verif.EnvAttr.C215_others",
    "Verif.EnvAttr.C215_violated"
   ],
   "note": "Proved for names that reach the innermost environment; for all others reading gives the old value (C215_violated)."
  },
  {
   "property": "C216",
   "status": "partial",
   "theorems": [
    "Verif.EnvAttr.C216_partial",
    "Verif.EnvAttr.C216_violated"
   ],
   "note": "Proved for attributes that exist; violated for all others (C216_violated)."
  },
  {
   "property": "C217",
   "status": "partial",
   "theorems": [
    "Verif.EnvAttr.C217_partial",
    "Verif.EnvAttr.C217_before",
    "Verif.EnvAttr.C217_violated",
    "Verif.EnvAttr.C217_ray",
    "Verif.EnvAttr.C217_method",
    "Verif.EnvAttr.C217_copies",
    "Verif.EnvAttr.C217_reset"
   ],
   "note": "Proved for collectors made after seeding, environments without a method seed, no ray; C217_before: environments in the same process and collectors made before; violated otherwise (C217_violated, C217_ray, C217_reset)."
  },
  {
   "property": "C218",
   "status": "partial",
   "theorems": [
    "Verif.EnvFactory.C218_made",
    "Verif.EnvFactory.C218_partial",
    "Verif.EnvFactory.C218_violated",
    "Verif.EnvFactory.C218_shapes"
   ],
   "note": "Numbers, modes, seeds, kinds and shapes are proved in general (C218_made, C218_shapes); missing: envpool and observations without a shape (C218_violated)."
  },
  {
   "property": "C219",
   "status": "proved",
   "theorems": [
    "Verif.VecEnv.C219_close",
    "Verif.VecEnv.C219_attribute",
    "Verif.VecEnv.C219_worker"
   ],
   "note": "Ray workers are not modelled; replies are assumed to fit into the pipe."
  },
  {
   "property": "C220",
   "status": "partial",
   "theorems": [
    "Verif.EpisodeHook.C220_partial",
    "Verif.EpisodeHook.C220_ok",
    "Verif.EpisodeHook.C220_no_nan",
    "Verif.EpisodeHook.C220_steps_raise",
    "Verif.EpisodeHook.C220_mc_partial",
    "Verif.EpisodeHook.C220_violated"
   ],
   "note": "Missing: episodes longer than their sub-buffer, for which the property fails (`C220_violated`); frame stacking and reconstructed next observations in what the hook sees; the asynchronous collector."
  },
  {
   "property": "C221",
   "status": "partial",
   "theorems": [
    "Verif.InfoStore.C221_exact",
    "Verif.InfoStore.C221_partial",
    "Verif.InfoStore.C221_async_off",
    "Verif.InfoStore.C221_flag_violated",
    "Verif.InfoStore.C221_violated"
   ],
   "note": "Missing: `raise_on_nan_in_buffer=False` with the synchronous collector, and objects that come with some of the steps only, for which the property fails (`C221_flag_violated`, `C221_violated`); frame stacking with `sample_avail`. `C221_exact` says what is found in every case."
  },
  {
   "property": "C222",
   "status": "partial",
   "theorems": [
    "Verif.InfoStore.C222_recorded",
    "Verif.InfoStore.C222_recorded_async",
    "Verif.InfoStore.C222_partial",
    "Verif.InfoStore.C222_violated"
   ],
   "note": "Missing: values of different types under one key, for which the property fails (`C222_violated`); arrays of numbers as values."
  },
  {
   "property": "C223",
   "status": "partial",
   "theorems": [
    "Verif.Builder.C223_calls",
    "Verif.Builder.C223_build",
    "Verif.Builder.C223_keeps_partial",
    "Verif.Builder.C223_seeded",
    "Verif.Builder.C223_violated"
   ],
   "note": "Missing: callbacks given to the builder, and edits of its configurations, after building, for which the property fails (`C223_violated`)."
  },
  {
   "property": "C224",
   "status": "partial",
   "theorems": [
    "Verif.Buffer.C224_same_partial",
    "Verif.Buffer.C224_unfinished",
    "Verif.Buffer.C224_reported_open",
    "Verif.Buffer.C224_relink",
    "Verif.Buffer.C224_violated",
    "Verif.Buffer.C224_cached",
    "Verif.Buffer.C224_cached_violated"
   ],
   "note": "Missing: `unfinished_index`, samples with stacked frames and `sample_avail`, and cached buffers, for which the property fails (`C224_violated`, `C224_cached_violated`); `C224_unfinished` and `C224_cached` say what they do instead."
  },
  {
   "property": "C225",
   "status": "partial",
   "theorems": [
    "Verif.MultiAgent.C225_rewards",
    "Verif.MultiAgent.C225_turns_partial",
    "Verif.MultiAgent.C225_violated"
   ],
   "note": "Missing: the agent to move in the state whose value is added, unless n is a multiple of the number of agents and the episode lasts (`C225_violated`). The rewards are proved for all cases (`C225_rewards`)."
  },
  {
   "property": "C226",
   "status": "partial",
   "theorems": [
    "Verif.MultiAgent.C226_partial",
    "Verif.MultiAgent.C226_crosses",
    "Verif.MultiAgent.C226_violated",
    "Verif.MultiAgent.C226_environments_violated",
    "Verif.MultiAgent.C226_lost"
   ],
   "note": "Missing: agents that do not make the last move of every episode, for whom the property fails (`C226_violated`, `C226_environments_violated`, `C226_crosses`), and rewards in the moves of others (`C226_lost`)."
  },
  {
   "property": "C227",
   "status": "proved",
   "theorems": [
    "Verif.Buffer.C227_refines",
    "Verif.Buffer.C227_single",
    "Verif.Buffer.C227_vector",
    "Verif.Buffer.C227_stacked"
   ],
   "note": ""
  },
  {
   "property": "C228",
   "status": "proved",
   "theorems": [
    "Verif.Buffer.C228_single",
    "Verif.Buffer.C228_vector"
   ],
   "note": ""
  },
  {
   "property": "C229",
   "status": "proved",
   "theorems": [
    "Verif.Policy.C229_dqn",
    "Verif.Policy.C229_random"
   ],
   "note": ""
  },
  {
   "property": "C230",
   "status": "partial",
   "theorems": [
    "Verif.Buffer.C230_goal_partial",
    "Verif.Buffer.C230_violated"
   ],
   "note": "Equal probability is false; the exact distribution is proved as intervals of the random number (C230_goal_partial), the failure as C230_violated."
  },
  {
   "property": "C231",
   "status": "partial",
   "theorems": [
    "Verif.Rainbow.C231_draws",
    "Verif.Rainbow.C231_mode",
    "Verif.Rainbow.C231_weights",
    "Verif.Rainbow.C231_independent_partial",
    "Verif.Rainbow.C231_fresh",
    "Verif.Rainbow.C231_violated"
   ],
   "note": "Holds in all updates that are not multiples of target_update_freq (C231_independent_partial); fails in those that are (C231_violated)."
  },
  {
   "property": "C232",
   "status": "proved",
   "theorems": [
    "Verif.VecEnv.C232_dummy",
    "Verif.VecEnv.C232_subproc"
   ],
   "note": "For subprocesses connection.wait is taken to report every connection that has something to read."
  },
  {
   "property": "C233",
   "status": "partial",
   "theorems": [
    "Verif.ComputeAction.C233_exact",
    "Verif.ComputeAction.C233_partial",
    "Verif.ComputeAction.C233_outside_violated",
    "Verif.ComputeAction.C233_violated"
   ],
   "note": "Violated for boxes that are not within [-1, 1]; partial: boxes within, and exactly which samples arrive."
  },
  {
   "property": "C234",
   "status": "partial",
   "theorems": [
    "Verif.ComputeAction.C234_shape",
    "Verif.ComputeAction.C234_partial",
    "Verif.ComputeAction.C234_contains_partial",
    "Verif.ComputeAction.C234_discrete_partial",
    "Verif.ComputeAction.C234_multi",
    "Verif.ComputeAction.C234_scalar_violated",
    "Verif.ComputeAction.C234_violated"
   ],
   "note": "Violated for dimensions of size one and for scalar observations; exact characterisation of the shapes."
  },
  {
   "property": "C235",
   "status": "partial",
   "theorems": [
    "Verif.PolicyGradient.C235_partial",
    "Verif.PolicyGradient.C235_defined",
    "Verif.PolicyGradient.C235_fixed_partial",
    "Verif.PolicyGradient.C235_discount_violated",
    "Verif.PolicyGradient.C235_length_violated"
   ],
   "note": "Violated for gamma < 1 and for one batch of episodes of different lengths; partial: gamma = 1, weighted by the number of transitions or for episodes of fixed length."
  },
  {
   "property": "C236",
   "status": "proved",
   "theorems": [
    "Verif.PolicyGradient.C236_a2c",
    "Verif.PolicyGradient.C236_ppo",
    "Verif.PolicyGradient.C236_trpo"
   ],
   "note": ""
  },
  {
   "property": "C237",
   "status": "partial",
   "theorems": [
    "Verif.QLearning.C237_partial",
    "Verif.QLearning.C237_only_partial",
    "Verif.QLearning.C237_clip_violated",
    "Verif.QLearning.C237_nstep_violated",
    "Verif.QLearning.C237_unique"
   ],
   "note": "Violated with clip_loss_grad and with n_step > 1; partial: squared loss, n_step = 1."
  },
  {
   "property": "C238",
   "status": "proved",
   "theorems": [
    "Verif.QLearning.C238_converges",
    "Verif.QLearning.C238_greedy"
   ],
   "note": ""
  },
  {
   "property": "C239",
   "status": "proved",
   "theorems": [
    "Verif.Buffer.C239_uniform",
    "Verif.Buffer.C239_prioritised",
    "Verif.Buffer.C239_vector"
   ],
   "note": ""
  },
  {
   "property": "C240",
   "status": "partial",
   "theorems": [
    "Verif.Buffer.C240_partial",
    "Verif.Buffer.C240_violated",
    "Verif.Buffer.C240_vector_violated"
   ],
   "note": "Violated with weight_norm=True (the default) for all buffers with different priorities; partial: weight_norm=False."
  },
  {
   "property": "C241",
   "status": "proved",
   "theorems": [
    "Verif.PolicyGradient.C241_advantages",
    "Verif.PolicyGradient.C241_returns",
    "Verif.PolicyGradient.C241_actor",
    "Verif.PolicyGradient.C241_lambda",
    "Verif.PolicyGradient.C241_critic"
   ],
   "note": ""
  },
  {
   "property": "C242",
   "status": "proved",
   "theorems": [
    "Verif.SoftQ.C242_best",
    "Verif.SoftQ.C242_actor",
    "Verif.SoftQ.C242_stationary",
    "Verif.SoftQ.C242_only",
    "Verif.SoftQ.C242_unique",
    "Verif.SoftQ.C242_temperature",
    "Verif.SoftQ.C242_converges"
   ],
   "note": "With fixed alpha, one-step returns and critics that are tables (stationarity: any parametrisation). What happens with several steps is C237_nstep_violated's observation for off-policy data."
  },
  {
   "property": "C243",
   "status": "proved",
   "theorems": [
    "Verif.C51Learn.C243_backup",
    "Verif.C51Learn.C243_converges",
    "Verif.C51Learn.C243_range"
   ],
   "note": "Distributions are arbitrary tables (closed simplex; a softmax output reaches only its interior). Several steps: C95_violated."
  },
  {
   "property": "C244",
   "status": "proved",
   "theorems": [
    "Verif.Fitting.C244_disc",
    "Verif.Fitting.C244_none",
    "Verif.Fitting.C244_reward",
    "Verif.Fitting.C244_imitator"
   ],
   "note": "Discriminators are arbitrary functions of the pair; policy and expert rows are drawn together from one space."
  },
  {
   "property": "C245",
   "status": "proved",
   "theorems": [
    "Verif.Fitting.C245_discrete",
    "Verif.Fitting.C245_exists",
    "Verif.Fitting.C245_act",
    "Verif.Fitting.C245_continuous"
   ],
   "note": "Networks are arbitrary functions of the observation."
  },
  {
   "property": "C246",
   "status": "partial",
   "theorems": [
    "Verif.Quantile.C246_partial",
    "Verif.Quantile.C246_apart_partial",
    "Verif.Quantile.C246_sorted",
    "Verif.Quantile.C246_exists",
    "Verif.Quantile.C246_violated"
   ],
   "note": "Missing: exactness for targets that differ by less than 1 (`C246_violated`). Importance weights are 1; tables are arbitrary."
  },
  {
   "property": "C247",
   "status": "partial",
   "theorems": [
    "Verif.Psrl.C247_partial",
    "Verif.Psrl.C247_violated"
   ],
   "note": "Missing: states in which episodes end, with `add_done_loop` (`C247_violated`)."
  },
  {
   "property": "C248",
   "status": "proved",
   "theorems": [
    "Verif.Critics.C248_ddpg",
    "Verif.Critics.C248_td3",
    "Verif.Critics.C248_rate",
    "Verif.Critics.C248_value",
    "Verif.Critics.C248_ddpg_exists",
    "Verif.Critics.C248_td3_exists"
   ],
   "note": ""
  },
  {
   "property": "C249",
   "status": "proved",
   "theorems": [
    "Verif.Policy.C249_sum",
    "Verif.Policy.C249_often",
    "Verif.Policy.C249_greedy",
    "Verif.Policy.C249_everywhere"
   ],
   "note": ""
  },
  {
   "property": "C250",
   "status": "partial",
   "theorems": [
    "Verif.Cql.C250_range",
    "Verif.Cql.C250_gradient",
    "Verif.Cql.C250_partial",
    "Verif.Cql.C250_device_violated",
    "Verif.Cql.C250_stuck_violated"
   ],
   "note": {
    "note": "Violated on devices other than the cpu and beyond alpha_max (C250_device_violated, C250_stuck_violated)."
   }
  },
  {
   "property": "C251",
   "status": "proved",
   "theorems": [
    "Verif.NetOut.C251_loss",
    "Verif.NetOut.C251_divergence",
    "Verif.NetOut.C251_identity",
    "Verif.NetOut.C251_bound"
   ],
   "note": ""
  },
  {
   "property": "C252",
   "status": "partial",
   "theorems": [
    "Verif.Logger.C252_logs",
    "Verif.Logger.C252_resume_partial",
    "Verif.Logger.C252_violated",
    "Verif.Logger.C252_unloaded"
   ],
   "note": {
    "note": "Violated for runs that end before the first checkpoint (C252_violated)."
   }
  },
  {
   "property": "C253",
   "status": "proved",
   "theorems": [
    "Verif.Stats.C253_limit",
    "Verif.Stats.C253_independent"
   ],
   "note": ""
  },
  {
   "property": "C254",
   "status": "proved",
   "theorems": [
    "Verif.ActorCritic.C254_mean",
    "Verif.ActorCritic.C254_one",
    "Verif.ActorCritic.C254_monotone",
    "Verif.ActorCritic.C254_whole"
   ],
   "note": ""
  },
  {
   "property": "C255",
   "status": "proved",
   "theorems": [
    "Verif.TrustRegion.C255_discrete",
    "Verif.TrustRegion.C255_normal",
    "Verif.TrustRegion.C255_fisher",
    "Verif.TrustRegion.C255_fisher_normal",
    "Verif.TrustRegion.C255_curvature",
    "Verif.TrustRegion.C255_npg",
    "Verif.TrustRegion.C255_trpo",
    "Verif.TrustRegion.C255_region",
    "Verif.TrustRegion.C255_same"
   ],
   "note": ""
  },
  {
   "property": "C256",
   "status": "proved",
   "theorems": [
    "Verif.Fraction.C256_gradient",
    "Verif.Fraction.C256_value",
    "Verif.Fraction.C256_loss"
   ],
   "note": ""
  },
  {
   "property": "C257",
   "status": "proved",
   "theorems": [
    "Verif.Learn.C257_dqn",
    "Verif.Learn.C257_discrete_bcq",
    "Verif.Learn.C257_pg",
    "Verif.Learn.C257_a2c",
    "Verif.Learn.C257_npg",
    "Verif.Learn.C257_fqf",
    "Verif.Learn.C257_ddpg",
    "Verif.Learn.C257_td3",
    "Verif.Learn.C257_redq",
    "Verif.Learn.C257_sac",
    "Verif.Learn.C257_cql",
    "Verif.Learn.C257_bcq",
    "Verif.Learn.C257_gail",
    "Verif.Learn.C257_icm",
    "Verif.Learn.C257_run"
   ],
   "note": "Stated for optimizers that hold all parameters whose gradients are clipped; C147_violated shows what happens otherwise."
  },
  {
   "property": "C258",
   "status": "partial",
   "theorems": [
    "Verif.Offline.C258_rate",
    "Verif.Offline.C258_apart_partial",
    "Verif.Offline.C258_violated"
   ],
   "note": "Proved for the modes \"binary\" and \"all\"; in mode \"exp\" the gradient flows through the weights (C258_violated)."
  },
  {
   "property": "C259",
   "status": "proved",
   "theorems": [
    "Verif.Offline.C259_entry",
    "Verif.Offline.C259_shortfall",
    "Verif.Offline.C259_lower",
    "Verif.Offline.C259_data"
   ],
   "note": "the exp mode is excluded: there the loss of the actor reaches the critic (C258_violated)"
  },
  {
   "property": "C260",
   "status": "proved",
   "theorems": [
    "Verif.ActorCritic.C260_law",
    "Verif.ActorCritic.C260_covariance",
    "Verif.ActorCritic.C260_components",
    "Verif.ActorCritic.C260_limit"
   ],
   "note": ""
  },
  {
   "property": "C261",
   "status": "partial",
   "theorems": [
    "Verif.ApplyValues.C261_batch_partial",
    "Verif.ApplyValues.C261_copy",
    "Verif.ApplyValues.C261_others",
    "Verif.ApplyValues.C261_violated"
   ],
   "note": "nested batches are replaced, not transformed in place: a reference kept to one still sees the old values (C261_violated)"
  },
  {
   "property": "C262",
   "status": "partial",
   "theorems": [
    "Verif.ApplyValues.C262_arrays",
    "Verif.ApplyValues.C262_dists_partial",
    "Verif.ApplyValues.C262_violated"
   ],
   "note": "arrays in full; distributions only at the top level, a nested one becomes an array of objects (C262_violated)"
  },
  {
   "property": "C263",
   "status": "proved",
   "theorems": [
    "Verif.PolicyGradient.C263_average",
    "Verif.PolicyGradient.C263_exists",
    "Verif.PolicyGradient.C263_round",
    "Verif.PolicyGradient.C263_rounds",
    "Verif.PolicyGradient.C263_converges"
   ],
   "note": ""
  },
  {
   "property": "C264",
   "status": "partial",
   "theorems": [
    "Verif.SacLoss.C264_loss_partial",
    "Verif.SacLoss.C264_redq_partial",
    "Verif.SacLoss.C264_best_partial",
    "Verif.SacLoss.C264_forward_partial",
    "Verif.SacLoss.C264_improves",
    "Verif.SacLoss.C264_violated"
   ],
   "note": "partial: the loss is the divergence only without the eps of the correction of log_prob; with it the loss has no lower bound (C264_violated)"
  },
  {
   "property": "C265",
   "status": "proved",
   "theorems": [
    "Verif.SacLoss.C265_values",
    "Verif.SacLoss.C265_round",
    "Verif.SacLoss.C265_exists"
   ],
   "note": ""
  },
  {
   "property": "C266",
   "status": "partial",
   "theorems": [
    "Verif.SacLoss.C266_ddpg",
    "Verif.SacLoss.C266_sac_partial",
    "Verif.SacLoss.C266_ddpg_exists",
    "Verif.SacLoss.C266_sac_exists",
    "Verif.SacLoss.C266_ddpg_errors",
    "Verif.SacLoss.C266_sac_errors_partial"
   ],
   "note": "For SAC the actor is assumed to report the exact log-density of its actions; what the code adds to it is the subject of C264_violated."
  },
  {
   "property": "C267",
   "status": "partial",
   "theorems": [
    "Verif.SacLoss.C267_gradient_partial",
    "Verif.SacLoss.C267_violated"
   ],
   "note": "Proved for rows distributed like the discounted visits; for rows drawn from the buffer of the actor itself a counterexample."
  },
  {
   "property": "C268",
   "status": "partial",
   "theorems": [
    "Verif.UniformAction.C268_box_partial",
    "Verif.UniformAction.C268_discrete_partial",
    "Verif.UniformAction.C268_other",
    "Verif.UniformAction.C268_violated_start",
    "Verif.UniformAction.C268_violated_shape",
    "Verif.UniformAction.C268_violated_point",
    "Verif.UniformAction.C268_violated_unbounded"
   ],
   "note": "Box with one dimension and finite bounds in order, Discrete with start 0; the other cases are violations."
  },
  {
   "property": "C269",
   "status": "partial",
   "theorems": [
    "Verif.Buffer.C269_steps_partial",
    "Verif.Buffer.C269_values_partial",
    "Verif.Buffer.C269_violated_chance",
    "Verif.Buffer.C269_violated_end"
   ],
   "note": "Environments without chance in which the end does not depend on the goal, obs_next stored, horizon covering the episodes; violated otherwise."
  },
  {
   "property": "C270",
   "status": "partial",
   "theorems": [
    "Verif.DiscreteBcq.C270_mask_partial",
    "Verif.DiscreteBcq.C270_values_partial",
    "Verif.DiscreteBcq.C270_returns_partial",
    "Verif.DiscreteBcq.C270_unique_partial",
    "Verif.DiscreteBcq.C270_exists_partial",
    "Verif.DiscreteBcq.C270_violated_penalty",
    "Verif.DiscreteBcq.C270_violated_chance"
   ],
   "note": "imitation_logits_penalty 0, environments without chance whose next states occur in the data, one-step returns, no action exactly at the threshold; violated otherwise."
  },
  {
   "property": "C271",
   "status": "proved",
   "theorems": [
    "Verif.TrustRegion.C271_learn",
    "Verif.TrustRegion.C271_step"
   ],
   "note": "discrete actions, discount factor 1, a batch without sampling errors and exact values."
  },
  {
   "property": "C272",
   "status": "partial",
   "theorems": [
    "Verif.Bdq.C272_means",
    "Verif.Bdq.C272_unique",
    "Verif.Bdq.C272_exists",
    "Verif.Bdq.C272_single_partial",
    "Verif.Bdq.C272_additive_partial",
    "Verif.Bdq.C272_violated",
    "Verif.Bdq.C272_violated_later"
   ],
   "note": "Values settle as stated; the greedy joint action is the best only for one branch without chance, or for one-step episodes with additive rewards and all combinations of actions equally often. Otherwise violated."
  },
  {
   "property": "C273",
   "status": "partial",
   "theorems": [
    "Verif.Td3Bc.C273_trade",
    "Verif.Td3Bc.C273_near_partial",
    "Verif.Td3Bc.C273_alpha_partial",
    "Verif.Td3Bc.C273_scale",
    "Verif.Td3Bc.C273_violated",
    "Verif.Td3Bc.C273_violated_far"
   ],
   "note": "The bound alpha holds if the actor can repeat the dataset and the mean value of its actions is not negative; in general the bound is alpha times the relative gain. The zero of the rewards matters (violated)."
  },
  {
   "property": "C274",
   "status": "partial",
   "theorems": [
    "Verif.Nstep.C274_le",
    "Verif.Nstep.C274_ge",
    "Verif.Nstep.C274_optimal_partial",
    "Verif.Nstep.C274_one_partial",
    "Verif.Nstep.C274_exists",
    "Verif.Nstep.C274_violated"
   ],
   "note": "The bounds hold for all n; the values are the optimal ones for n = 1 or if the recorded later actions are optimal, otherwise violated."
  },
  {
   "property": "C275",
   "status": "partial",
   "theorems": [
    "Verif.TargetBias.C275_over",
    "Verif.TargetBias.C275_double",
    "Verif.TargetBias.C275_certain_partial",
    "Verif.TargetBias.C275_twin",
    "Verif.TargetBias.C275_violated",
    "Verif.TargetBias.C275_violated_double"
   ],
   "note": "The signs of the biases are proved in general; no bias only if the best action is certain, otherwise violated."
  },
  {
   "property": "C276",
   "status": "partial",
   "theorems": [
    "Verif.PpoReturn.C276_return",
    "Verif.PpoReturn.C276_bound",
    "Verif.PpoReturn.C276_minimal_partial",
    "Verif.PpoReturn.C276_beyond_partial",
    "Verif.PpoReturn.C276_violated",
    "Verif.PpoReturn.C276_violated_return"
   ],
   "note": "The return of minimisers and a bound for all policies are proved; closeness to the old policy and improvement by any lower loss are violated. The description of the minimisers assumes that better actions leave room (total probability at most 1 / (1 + eps_clip))."
  },
  {
   "property": "C277",
   "status": "partial",
   "theorems": [
    "Verif.DiscreteCql.C277_clone",
    "Verif.DiscreteCql.C277_order",
    "Verif.DiscreteCql.C277_quantiles",
    "Verif.DiscreteCql.C277_unlogged",
    "Verif.DiscreteCql.C277_exists",
    "Verif.DiscreteCql.C277_violated"
   ],
   "note": "What is learned is proved for settled tables: softmax of the values near the frequencies, quantiles up to a shift of half a quantile and a distance of 1; existence if every action is in the data. The order by targets and the existence in general are violated."
  },
  {
   "property": "C278",
   "status": "partial",
   "theorems": [
    "Verif.CrrActor.C278_all",
    "Verif.CrrActor.C278_binary",
    "Verif.CrrActor.C278_improves",
    "Verif.CrrActor.C278_violated"
   ],
   "note": "Modes \"all\" and \"binary\" are described completely, and in all modes the policy is at least as good as the data; that better actions are preferred is violated. Policies are tables of positive probabilities."
  },
  {
   "property": "C279",
   "status": "proved",
   "theorems": [
    "Verif.EndToEnd.C279_bellman",
    "Verif.EndToEnd.C279_optimal",
    "Verif.EndToEnd.C279_le"
   ],
   "note": "For observations that are the states of a deterministic process (the environment may have more state, e.g. a time limit), a vector buffer with default options, collectors in ordinary use (`Usage`), values as a table, loss without clipping. Chance is treated in C237 and C238."
  },
  {
   "property": "C280",
   "status": "proved",
   "theorems": [
    "Verif.Curiosity.C280_forward",
    "Verif.Curiosity.C280_fades",
    "Verif.Curiosity.C280_inverse",
    "Verif.Curiosity.C280_collapse"
   ],
   "note": "Models are arbitrary functions (tables), features are fixed for the first three statements; for the inverse model every action has to occur between the features (otherwise no minimum is attained). Optimisation itself is not modelled."
  },
  {
   "property": "C281",
   "status": "partial",
   "theorems": [
    "Verif.ValueClip.C281_floor",
    "Verif.ValueClip.C281_settled",
    "Verif.ValueClip.C281_repeated",
    "Verif.ValueClip.C281_violated"
   ],
   "note": "Values as a function of the observation, loss of a whole batch; `C281_violated` shows that the values of a settled critic may be arbitrarily far from the old ones."
  },
  {
   "property": "C282",
   "status": "proved",
   "theorems": [
    "Verif.EndToEnd.C282_async",
    "Verif.EndToEnd.C282_cached",
    "Verif.EndToEnd.C282_cached_async"
   ],
   "note": "Hypotheses: actions reach the environments unchanged and survive the float array of the asynchronous collector; the collection does not raise (see C78, C208)."
  },
  {
   "property": "C283",
   "status": "partial",
   "theorems": [
    "Verif.Repeat.C283_reinforce",
    "Verif.Repeat.C283_diverges",
    "Verif.Repeat.C283_a2c",
    "Verif.Repeat.C283_entropy",
    "Verif.Repeat.C283_violated"
   ],
   "note": "Exact description of where updates settle and when they cannot; `C283_violated`: the policy learned prefers the action with the smaller return. One minibatch with all rows."
  },
  {
   "property": "C284",
   "status": "proved",
   "theorems": [
    "Verif.RedqLoss.C284_agree",
    "Verif.RedqLoss.C284_soft",
    "Verif.RedqLoss.C284_exists"
   ],
   "note": "One-step returns, tabular members, target ensemble equal to the ensemble (settled); the actions drawn for the next observations are fixed."
  },
  {
   "property": "C285",
   "status": "proved",
   "theorems": [
    "Verif.Tested.C285_optimal",
    "Verif.Tested.C285_best"
   ],
   "note": "Tabular values, deterministic world, one-step returns, synchronous collectors with actions passed on unchanged (discrete), no action mask, as in C279."
  },
  {
   "property": "C286",
   "status": "proved",
   "theorems": [
    "Verif.PrioEndToEnd.C286_bellman",
    "Verif.PrioEndToEnd.C286_optimal"
   ],
   "note": "Tabular values, deterministic world, one-step returns, synchronous collector, as in C279; the random numbers used to sample are strictly between 0 and 1 (see C26 for 0)."
  },
  {
   "property": "C287",
   "status": "proved",
   "theorems": [
    "Verif.VecCollector.C287_same",
    "Verif.VecCollector.C287_frozen",
    "Verif.VecCollector.C287_transparent",
    "Verif.VecCollector.C287_statistics"
   ],
   "note": "Observations are functions to an ordered field, the square root is a parameter; the policy that replays the actions is constructed in the proof."
  },
  {
   "property": "C288",
   "status": "proved",
   "theorems": [
    "Verif.VecCollector.C288_normalised",
    "Verif.VecCollector.C288_independent",
    "Verif.VecCollector.C288_adjacent",
    "Verif.VecCollector.C288_steps",
    "Verif.VecCollector.C288_episodes",
    "Verif.VecCollector.C288_nstep"
   ],
   "note": "For neighbouring transitions and targets the calls are those of ordinary use (C61): no environment is reset in the middle of an episode whose transitions stay in the buffer. Observations are values, not views of shared memory (see C61 for that)."
  },
  {
   "property": "C289",
   "status": "partial",
   "theorems": [
    "Verif.Tested.C289_goal_partial",
    "Verif.Tested.C289_loss_partial",
    "Verif.Tested.C289_whole_partial",
    "Verif.Tested.C289_violated"
   ],
   "note": "Violated in general (C289_violated). Proved for environments whose only reward is a positive one for reaching a goal that ends the episode, and for whole rewards with a discount close to 1; otherwise a bound for the loss."
  },
  {
   "property": "C290",
   "status": "proved",
   "theorems": [
    "Verif.Tested.C290_near",
    "Verif.Tested.C290_return",
    "Verif.Tested.C290_finally"
   ],
   "note": "Tabular networks trained to the minimum of the loss in each round, deterministic environments, one-step returns, unit weights; with a target network and without is_double the network is arbitrary during a round, otherwise the targets of a round are those computed at its start."
  },
  {
   "property": "C291",
   "status": "partial",
   "theorems": [
    "Verif.Collector.C291_last_partial",
    "Verif.Collector.C291_shares_partial",
    "Verif.Collector.C291_violated",
    "Verif.Collector.C291_shares_violated"
   ],
   "note": "Violated for the stored order when episodes end in the same step. Synchronous collector."
  },
  {
   "property": "C292",
   "status": "proved",
   "theorems": [
    "Verif.Collector.C292_unseen",
    "Verif.Collector.C292_reset"
   ],
   "note": "Synchronous collector, with and without reset_before_collect. Unbiased means follow in C294."
  },
  {
   "property": "C293",
   "status": "partial",
   "theorems": [
    "Verif.Collector.C293_violated"
   ],
   "note": "Violated: short episodes are preferred. How many episodes are collected is C62_counts."
  },
  {
   "property": "C294",
   "status": "proved",
   "theorems": [
    "Verif.Collector.C294_unbiased"
   ],
   "note": "Synchronous collector, collect after reset; finitely many seeds per episode, with any chances; policy without recurrent state or noise; rational rewards. Not true of AsyncCollector (C293)."
  },
  {
   "property": "C295",
   "status": "partial",
   "theorems": [
    "Verif.Collector.C295_violated"
   ],
   "note": "Violated. The synchronous collector is unbiased (C294)."
  },
  {
   "property": "C296",
   "status": "partial",
   "theorems": [
    "Verif.Trainer.C296_optimistic_partial",
    "Verif.Trainer.C296_equal_partial",
    "Verif.Trainer.C296_bound_partial",
    "Verif.Trainer.C296_violated"
   ],
   "note": "Violated: the best reward is optimistic. The partial theorems assume that training is not stopped early (see C66)."
  }
 ]
}