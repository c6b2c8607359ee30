# Axioms each theorem depends on

Output of `#print axioms` for every theorem named in MANIFEST.json, grouped by the set of axioms. No axiom is declared in this development.

## none (15 theorems)

- `Verif.Buffer.C11_before_first_write`
- `Verif.Buffer.C15_empty`
- `Verif.Policy.C45_target`
- `Verif.Policy.C45_module`
- `Verif.Policy.C45_within`
- `Verif.Policy.C45_update_violated`
- `Verif.Policy.C45_multiagent_violated`
- `Verif.ActorCritic.C100_ddpg`
- `Verif.ActorCritic.C106_violated`
- `Verif.Offline.C123_violated`
- `Verif.Net.C137_actor`
- `Verif.Net.C137_prob_partial`
- `Verif.Net.C137_violated`
- `Verif.Factories.C160_violated`
- `Verif.PettingZoo.C196_violated`

## propext (74 theorems)

- `Verif.Returns.C35_rejects`
- `Verif.MultiAgent.C43_restored`
- `Verif.Policy.C45_inside`
- `Verif.Policy.C45_update_raises`
- `Verif.Batch.C48_unknown_key`
- `Verif.Hdf5.C49_marker_violated`
- `Verif.Hdf5.C49_class_violated`
- `Verif.VecEnv.C50_dummy_skips`
- `Verif.VecEnv.C51_bad_id_violated`
- `Verif.VecEnv.C52_seed_violated`
- `Verif.VecEnv.C53_rejected_late`
- `Verif.Wrappers.C54_size`
- `Verif.Collector.C64_rejected_partial`
- `Verif.Collector.C64_both_violated`
- `Verif.Collector.C64_negative_violated`
- `Verif.Trainer.C83_reset_partial`
- `Verif.Trainer.C83_violated`
- `Verif.Wrappers.C86_trajectories`
- `Verif.ActorCritic.C100_start`
- `Verif.ActorCritic.C106_direct_partial`
- `Verif.Logger.C128_scopes`
- `Verif.Logger.C130_violated`
- `Verif.Logger.C132_partial`
- `Verif.Net.C134_concat_partial`
- `Verif.Net.C138_partial`
- `Verif.Net.C138_violated`
- `Verif.Net.C139_joint`
- `Verif.Net.C139_obs_partial`
- `Verif.Net.C141_violated`
- `Verif.NetOut.C146_inside`
- `Verif.NetOut.C146_partial`
- `Verif.NetOut.C146_violated`
- `Verif.Optim.C148_refused`
- `Verif.Optim.C150_refused`
- `Verif.Optim.C150_cloned`
- `Verif.Schedule.C153_direct_partial`
- `Verif.Schedule.C153_violated`
- `Verif.Schedule.C155_missing`
- `Verif.Schedule.C155_spec`
- `Verif.Experiment.C157_order_partial`
- `Verif.Experiment.C157_violated`
- `Verif.Experiment.C158_single`
- `Verif.Factories.C160_continuous_partial`
- `Verif.Factories.C160_critic`
- `Verif.Factories.C160_dist`
- `Verif.Factories.C162_own`
- `Verif.Factories.C163_partial`
- `Verif.Factories.C163_violated`
- `Verif.Factories.C164_partial`
- `Verif.Factories.C164_violated`
- `Verif.Batch.C173_reserved_violated`
- `Verif.Batch.C173_stack_violated`
- `Verif.Batch.C174_none`
- `Verif.Batch.C175_keys_violated`
- `Verif.Batch.C177_whole`
- `Verif.Batch.C177_nested`
- `Verif.Batch.C177_violated`
- `Verif.Batch.C177_partial`
- `Verif.BatchTree.C179_single`
- `Verif.BatchTree.C179_objects`
- `Verif.Modules.C191_later`
- `Verif.Modules.C191_refused`
- `Verif.ShMem.C209_duplicate_violated`
- `Verif.ShMem.C210_violated`
- `Verif.EnvAttr.C217_violated`
- `Verif.EnvFactory.C218_shapes`
- `Verif.VecEnv.C219_attribute`
- `Verif.VecEnv.C219_worker`
- `Verif.EpisodeHook.C220_steps_raise`
- `Verif.InfoStore.C221_async_off`
- `Verif.InfoStore.C221_flag_violated`
- `Verif.Builder.C223_build`
- `Verif.Buffer.C224_relink`
- `Verif.Collector.C291_violated`

## Quot.sound (1 theorems)

- `Verif.Net.C136_rows`

## Quot.sound, propext (129 theorems)

- `Verif.SegTree.C02_reads_in_bounds`
- `Verif.Buffer.C24_capacity`
- `Verif.Policy.C40_no_noise`
- `Verif.Policy.C41_no_target`
- `Verif.MultiAgent.C43_process_fn`
- `Verif.MultiAgent.C43_raise_leaves_column`
- `Verif.MultiAgent.C43_noise`
- `Verif.Policy.C45_train_mode`
- `Verif.Policy.C45_nested`
- `Verif.Policy.C45_update_partial`
- `Verif.Batch.C46_ok`
- `Verif.Batch.C46_sizes`
- `Verif.Batch.C46_whole`
- `Verif.Batch.C46_rejected`
- `Verif.VecEnv.C50_rejected`
- `Verif.VecEnv.C50_duplicate_violated`
- `Verif.Wrappers.C54_array`
- `Verif.Wrappers.C55_built`
- `Verif.Stats.C57_average_partial`
- `Verif.Collector.C61_idle_violated`
- `Verif.Collector.C61_shared_violated`
- `Verif.Collector.C62_totals`
- `Verif.Collector.C63_checked_violated`
- `Verif.Stats.C75_frozen`
- `Verif.Stats.C76_empty`
- `Verif.Collector.C77_tensor_violated`
- `Verif.Collector.C78_stateless_violated`
- `Verif.Collector.C78_random_violated`
- `Verif.Collector.C79_violated`
- `Verif.Stats.C85_initial_partial`
- `Verif.Stats.C85_unbounded_partial`
- `Verif.Wrappers.C86_terminated`
- `Verif.TrustRegion.C87_parameters`
- `Verif.QTarget.C97_explore_partial`
- `Verif.ActorCritic.C100_redq`
- `Verif.ActorCritic.C103_fixed`
- `Verif.ActorCritic.C105_process_partial`
- `Verif.ActorCritic.C105_reset`
- `Verif.ActorCritic.C105_violated`
- `Verif.Offline.C114_weights`
- `Verif.Offline.C116_targets_partial`
- `Verif.Logger.C128_due`
- `Verif.Logger.C129_empty`
- `Verif.Logger.C132_flush`
- `Verif.Logger.C132_violated`
- `Verif.Net.C134_violated`
- `Verif.Net.C136_split`
- `Verif.Net.C136_steps`
- `Verif.Net.C141_single_partial`
- `Verif.NetOut.C145_random_partial`
- `Verif.NetOut.C146_targets_partial`
- `Verif.Optim.C148_step`
- `Verif.Optim.C148_violated`
- `Verif.Optim.C149_clone_partial`
- `Verif.Optim.C149_refused`
- `Verif.Optim.C149_violated`
- `Verif.Experiment.C156_config`
- `Verif.Experiment.C158_results`
- `Verif.Experiment.C159_missing`
- `Verif.Factories.C163_buffer`
- `Verif.Factories.C168_none_partial`
- `Verif.Evaluation.C169_ignored`
- `Verif.Batch.C173_cat_partial`
- `Verif.Batch.C173_stack_partial`
- `Verif.Batch.C175_flattened_violated`
- `Verif.Batch.C176_all`
- `Verif.Batch.C177_frame`
- `Verif.BatchTree.C178_nested_violated`
- `Verif.BatchTree.C178_copy_nested_violated`
- `Verif.BatchTree.C178_partial`
- `Verif.Buffer.C181_rows`
- `Verif.Modules.C190_crr`
- `Verif.Modules.C191_missing`
- `Verif.Modules.C191_manager`
- `Verif.Modules.C191_violated`
- `Verif.Pipeline.C194_violated`
- `Verif.Pipeline.C194_raises`
- `Verif.PettingZoo.C195_step`
- `Verif.PettingZoo.C195_reset`
- `Verif.PettingZoo.C196_rewards_partial`
- `Verif.PettingZoo.C196_stale`
- `Verif.PettingZoo.C196_unknown`
- `Verif.PettingZoo.C197_last_partial`
- `Verif.PettingZoo.C197_violated`
- `Verif.Timing.C198_counts`
- `Verif.Timing.C198_offline`
- `Verif.Timing.C198_collect_partial`
- `Verif.Timing.C198_update_partial`
- `Verif.Timing.C198_test_violated`
- `Verif.Timing.C198_collect_violated`
- `Verif.Batch.C202_none`
- `Verif.Pipeline.C204_violated`
- `Verif.Pipeline.C205_violated`
- `Verif.Pipeline.C208_violated`
- `Verif.Pipeline.C208_raises`
- `Verif.ShMem.C209_transparent_partial`
- `Verif.ShMem.C209_violated`
- `Verif.ShMem.C210_plain`
- `Verif.ShMem.C210_latest`
- `Verif.LossStats.C214_violated`
- `Verif.EnvAttr.C217_partial`
- `Verif.EnvAttr.C217_before`
- `Verif.EnvAttr.C217_ray`
- `Verif.EnvAttr.C217_method`
- `Verif.EnvAttr.C217_copies`
- `Verif.EnvAttr.C217_reset`
- `Verif.EnvFactory.C218_made`
- `Verif.EnvFactory.C218_partial`
- `Verif.EnvFactory.C218_violated`
- `Verif.InfoStore.C221_violated`
- `Verif.Builder.C223_violated`
- `Verif.Buffer.C224_same_partial`
- `Verif.MultiAgent.C225_violated`
- `Verif.MultiAgent.C226_violated`
- `Verif.MultiAgent.C226_environments_violated`
- `Verif.MultiAgent.C226_lost`
- `Verif.Rainbow.C231_draws`
- `Verif.Rainbow.C231_mode`
- `Verif.ComputeAction.C234_discrete_partial`
- `Verif.ComputeAction.C234_scalar_violated`
- `Verif.Logger.C252_logs`
- `Verif.Logger.C252_violated`
- `Verif.Logger.C252_unloaded`
- `Verif.ApplyValues.C261_others`
- `Verif.ApplyValues.C262_dists_partial`
- `Verif.ApplyValues.C262_violated`
- `Verif.VecCollector.C288_normalised`
- `Verif.Collector.C291_shares_violated`
- `Verif.Collector.C293_violated`

## Classical.choice, Quot.sound, propext (816 theorems)

- `Verif.SegTree.C01_read_after_write`
- `Verif.SegTree.C01_rejects`
- `Verif.SegTree.C02_reduce_all`
- `Verif.SegTree.C02_reduce`
- `Verif.SegTree.C03_accepts`
- `Verif.SegTree.C03_prefix_sum_idx`
- `Verif.SegTree.C03_interval`
- `Verif.SegTree.C04_violated`
- `Verif.SegTree.C04_residual_partial`
- `Verif.Buffer.C05_len`
- `Verif.Buffer.C05_fifo`
- `Verif.Buffer.C05_rows`
- `Verif.Buffer.C06_enumerates`
- `Verif.Buffer.C06_getAll`
- `Verif.Buffer.C07_sampled_live`
- `Verif.Buffer.C07_count`
- `Verif.Buffer.C07_all_outcomes`
- `Verif.Buffer.C07_special`
- `Verif.Buffer.C08_prev`
- `Verif.Buffer.C09_next`
- `Verif.Buffer.C10_inverse`
- `Verif.Buffer.C10_next_iterate`
- `Verif.Buffer.C10_prev_iterate`
- `Verif.Buffer.C11_unfinished`
- `Verif.Buffer.C12_add_result`
- `Verif.Buffer.C13_episode_indices_partial`
- `Verif.Buffer.C13_full_wrap_raises`
- `Verif.Buffer.C13_violated`
- `Verif.Buffer.C13_vector`
- `Verif.Buffer.C13_interval`
- `Verif.Buffer.C13_vector_rejects`
- `Verif.Buffer.C14_add_succeeds`
- `Verif.Buffer.C15_update`
- `Verif.Buffer.C16_stack`
- `Verif.Buffer.C16_stack_total`
- `Verif.Buffer.C17_sample_avail`
- `Verif.Buffer.C17_sample_avail_random`
- `Verif.Buffer.C18_obs_next`
- `Verif.Buffer.C18_chained`
- `Verif.Buffer.C19_violated`
- `Verif.Buffer.C19_check_partial`
- `Verif.Buffer.C20_store`
- `Verif.Buffer.C20_children`
- `Verif.Buffer.C20_add`
- `Verif.Buffer.C20_no_interference`
- `Verif.Buffer.C21_live`
- `Verif.Buffer.C21_same_subbuffer`
- `Verif.Buffer.C21_total`
- `Verif.Buffer.C22_len`
- `Verif.Buffer.C22_unfinished`
- `Verif.Buffer.C23_sample`
- `Verif.Buffer.C23_all`
- `Verif.Buffer.C23_order`
- `Verif.Buffer.C23_special`
- `Verif.Buffer.C25_cached`
- `Verif.Buffer.C25_add_succeeds`
- `Verif.Buffer.C25_add_result`
- `Verif.Buffer.C25_reach`
- `Verif.Buffer.C26_prioritised_sampling`
- `Verif.Buffer.C26_vector_partial`
- `Verif.Buffer.C26_vector_violated`
- `Verif.Buffer.C27_violated`
- `Verif.Buffer.C27_refilled_partial`
- `Verif.Buffer.C28_new_transition_maximal`
- `Verif.Buffer.C28_vector`
- `Verif.Buffer.C28_update_weight`
- `Verif.Buffer.C29_normalised`
- `Verif.Buffer.C29_vector`
- `Verif.Buffer.C30_no_effect`
- `Verif.Buffer.C30_violated`
- `Verif.Buffer.C30_single_partial`
- `Verif.Buffer.C31_restored`
- `Verif.Buffer.C31_plain`
- `Verif.Buffer.C31_not_compounded`
- `Verif.Buffer.C31_only_goal_and_reward`
- `Verif.Buffer.C32_round`
- `Verif.Buffer.C32_future_goal`
- `Verif.Buffer.C32_relabelling`
- `Verif.Returns.C33_gae`
- `Verif.Returns.C33_buffer`
- `Verif.Returns.C33_vector`
- `Verif.Returns.C34_gae`
- `Verif.Returns.C34_buffer`
- `Verif.Returns.C34_vector`
- `Verif.Returns.C35_buffer`
- `Verif.Returns.C35_vector`
- `Verif.Returns.C35_gae`
- `Verif.Returns.C36_buffer`
- `Verif.Returns.C36_vector`
- `Verif.Returns.C37_return_to_go`
- `Verif.Returns.C37_hook`
- `Verif.Policy.C38_in_box`
- `Verif.Policy.C38_monotone`
- `Verif.Policy.C38_unbounded`
- `Verif.Policy.C38_tanh`
- `Verif.Policy.C39_right_inverse`
- `Verif.Policy.C39_left_inverse`
- `Verif.Policy.C39_narrow_violated`
- `Verif.Policy.C39_tanh`
- `Verif.Policy.C40_greedy`
- `Verif.Policy.C40_unmasked`
- `Verif.Policy.C40_random`
- `Verif.Policy.C41_during_learn`
- `Verif.Policy.C41_in_process_fn`
- `Verif.Policy.C42_entry`
- `Verif.Policy.C42_polyak`
- `Verif.Policy.C42_between`
- `Verif.MultiAgent.C43_forward`
- `Verif.MultiAgent.C43_rowwise`
- `Verif.Policy.C44_projection`
- `Verif.Batch.C46_partition`
- `Verif.Batch.C46_merge_last`
- `Verif.Batch.C46_rows`
- `Verif.Batch.C47_stack`
- `Verif.Batch.C47_stack_same`
- `Verif.Batch.C47_stack_len`
- `Verif.Batch.C47_stack_kind`
- `Verif.Batch.C47_cat`
- `Verif.Batch.C47_cat_same`
- `Verif.Batch.C48_one`
- `Verif.Batch.C48_one_frame`
- `Verif.Batch.C48_one_ok`
- `Verif.Batch.C48_many`
- `Verif.Batch.C48_many_ok`
- `Verif.Hdf5.C49_roundtrip_partial`
- `Verif.Hdf5.C49_slash_violated`
- `Verif.VecEnv.C50_made`
- `Verif.VecEnv.C50_partition`
- `Verif.VecEnv.C50_returns`
- `Verif.VecEnv.C50_live`
- `Verif.VecEnv.C50_hands_over_partial`
- `Verif.VecEnv.C50_answers_partial`
- `Verif.VecEnv.C50_exactly_once_partial`
- `Verif.VecEnv.C51_routing_partial`
- `Verif.VecEnv.C51_reset_partial`
- `Verif.VecEnv.C52_getattr_partial`
- `Verif.VecEnv.C52_render_partial`
- `Verif.VecEnv.C52_accepted`
- `Verif.VecEnv.C52_seed_partial`
- `Verif.VecEnv.C53_int`
- `Verif.VecEnv.C53_list`
- `Verif.VecEnv.C53_wrong_length`
- `Verif.Wrappers.C54_bijection`
- `Verif.Wrappers.C55_in_box`
- `Verif.Wrappers.C55_extremes`
- `Verif.Wrappers.C55_strict`
- `Verif.Wrappers.C55_rows`
- `Verif.Stats.C56_pooled`
- `Verif.Stats.C56_split_independent`
- `Verif.Stats.C57_nan_violated`
- `Verif.Collector.C58_exact`
- `Verif.Collector.C58_terminates`
- `Verif.Collector.C59_exact`
- `Verif.Collector.C59_terminates`
- `Verif.Collector.C60_whole_episodes`
- `Verif.Collector.C61_trajectories_partial`
- `Verif.Collector.C61_adjacent_partial`
- `Verif.Collector.C61_actions_partial`
- `Verif.Collector.C62_pairing`
- `Verif.Collector.C62_trajectories`
- `Verif.Collector.C62_counts`
- `Verif.Collector.C63_union_partial`
- `Verif.Trainer.C65_epochs_partial`
- `Verif.Trainer.C65_terminates`
- `Verif.Trainer.C65_violated`
- `Verif.Trainer.C65_run_iterates`
- `Verif.Trainer.C66_best_partial`
- `Verif.Trainer.C66_violated`
- `Verif.Trainer.C67_ratio`
- `Verif.Trainer.C67_zero`
- `Verif.Trainer.C67_raises`
- `Verif.Trainer.C68_counted_partial`
- `Verif.Trainer.C68_partial`
- `Verif.Trainer.C68_violated`
- `Verif.Trainer.C68_trainer_violated`
- `Verif.Trainer.C69_violated`
- `Verif.Trainer.C69_next_partial`
- `Verif.Buffer.C70_violated`
- `Verif.Buffer.C70_single_partial`
- `Verif.Buffer.C71_violated`
- `Verif.Buffer.C71_partial`
- `Verif.Buffer.C72_ratio`
- `Verif.Buffer.C73_stored_partial`
- `Verif.Buffer.C73_violated`
- `Verif.Buffer.C74_unsampled_partial`
- `Verif.Buffer.C74_violated`
- `Verif.Stats.C75_normalised`
- `Verif.Stats.C75_clipped`
- `Verif.Stats.C76_summary`
- `Verif.Collector.C77_recurrent_partial`
- `Verif.Collector.C78_actions_violated`
- `Verif.Collector.C78_stateful_partial`
- `Verif.Collector.C79_reset_partial`
- `Verif.Trainer.C80_tests_partial`
- `Verif.Trainer.C80_training_partial`
- `Verif.Trainer.C80_violated`
- `Verif.Trainer.C81_flag`
- `Verif.Trainer.C82_counters`
- `Verif.Trainer.C82_new`
- `Verif.Trainer.C82_offline`
- `Verif.Trainer.C84_violated`
- `Verif.Trainer.C84_once_partial`
- `Verif.Stats.C85_forgotten`
- `Verif.Stats.C85_std_violated`
- `Verif.Stats.C85_clip_violated`
- `Verif.TrustRegion.C87_accepted_partial`
- `Verif.TrustRegion.C87_rejected`
- `Verif.TrustRegion.C87_learn_partial`
- `Verif.TrustRegion.C87_violated`
- `Verif.TrustRegion.C88_direction_partial`
- `Verif.TrustRegion.C88_npg_partial`
- `Verif.TrustRegion.C88_violated`
- `Verif.Ppo.C89_clipped`
- `Verif.Ppo.C89_gain`
- `Verif.Ppo.C89_unbounded`
- `Verif.Ppo.C89_dual`
- `Verif.Ppo.C89_loss`
- `Verif.Ppo.C90_clipped`
- `Verif.Ppo.C90_loss`
- `Verif.Ppo.C91_ppo_partial`
- `Verif.Ppo.C91_violated`
- `Verif.Ppo.C91_npg_partial`
- `Verif.Ppo.C91_real_partial`
- `Verif.QTarget.C92_dqn_double`
- `Verif.QTarget.C92_distributional_partial`
- `Verif.QTarget.C92_violated`
- `Verif.QTarget.C92_action_values`
- `Verif.QTarget.C93_dqn_plain_partial`
- `Verif.QTarget.C93_violated`
- `Verif.QTarget.C94_weighted_partial`
- `Verif.QTarget.C94_violated`
- `Verif.QTarget.C95_one_step_partial`
- `Verif.QTarget.C95_violated`
- `Verif.QTarget.C96_target_partial`
- `Verif.QTarget.C96_violated`
- `Verif.QTarget.C97_violated`
- `Verif.QTarget.C98_midpoints`
- `Verif.QTarget.C98_loss`
- `Verif.QTarget.C98_asymmetric`
- `Verif.QTarget.C99_filter`
- `Verif.QTarget.C99_unfiltered`
- `Verif.ActorCritic.C100_td3`
- `Verif.ActorCritic.C101_returns`
- `Verif.ActorCritic.C101_noise_partial`
- `Verif.ActorCritic.C101_violated`
- `Verif.ActorCritic.C102_sac`
- `Verif.ActorCritic.C102_discrete`
- `Verif.ActorCritic.C102_redq`
- `Verif.ActorCritic.C103_auto_partial`
- `Verif.ActorCritic.C103_start`
- `Verif.ActorCritic.C103_discrete_partial`
- `Verif.ActorCritic.C103_violated`
- `Verif.ActorCritic.C104_priority_partial`
- `Verif.ActorCritic.C104_violated`
- `Verif.Trainer.C107_runs`
- `Verif.Trainer.C108_onpolicy`
- `Verif.Psrl.C109_posterior_partial`
- `Verif.Psrl.C109_order`
- `Verif.Psrl.C109_violated`
- `Verif.Psrl.C110_std_partial`
- `Verif.Psrl.C110_violated`
- `Verif.Psrl.C111_terminates_partial`
- `Verif.Psrl.C111_optimal_partial`
- `Verif.Psrl.C111_violated`
- `Verif.Psrl.C112_solved`
- `Verif.Psrl.C113_violated`
- `Verif.Offline.C114_actor_partial`
- `Verif.Offline.C114_violated`
- `Verif.Offline.C114_critic`
- `Verif.Offline.C114_loss`
- `Verif.Offline.C115_regulariser`
- `Verif.Offline.C116_violated`
- `Verif.Offline.C117_random_partial`
- `Verif.Offline.C117_violated`
- `Verif.Offline.C117_density_partial`
- `Verif.Offline.C117_density_violated`
- `Verif.Offline.C118_penalty_partial`
- `Verif.Offline.C118_violated`
- `Verif.Offline.C119_column`
- `Verif.Offline.C119_calibration_partial`
- `Verif.Offline.C119_vector_column`
- `Verif.Offline.C119_vector_partial`
- `Verif.Offline.C119_violated`
- `Verif.Offline.C120_act`
- `Verif.Offline.C120_target`
- `Verif.Offline.C121_violated`
- `Verif.Offline.C122_reward`
- `Verif.Offline.C122_returns`
- `Verif.Offline.C122_direction`
- `Verif.Offline.C123_updates_partial`
- `Verif.Offline.C124_bonus_partial`
- `Verif.Offline.C124_gae_partial`
- `Verif.Offline.C124_violated`
- `Verif.Offline.C125_violated`
- `Verif.Offline.C126_random`
- `Verif.Offline.C127_normalised`
- `Verif.Logger.C128_spaced`
- `Verif.Logger.C128_every`
- `Verif.Logger.C129_restore`
- `Verif.Logger.C129_due`
- `Verif.Logger.C130_train_partial`
- `Verif.Logger.C130_update_partial`
- `Verif.Logger.C131_round_trip`
- `Verif.Net.C133_layers`
- `Verif.Net.C133_fails`
- `Verif.Net.C133_dims`
- `Verif.Net.C134_output`
- `Verif.Net.C135_dueling`
- `Verif.Net.C135_net`
- `Verif.Net.C135_branching`
- `Verif.Net.C139_violated`
- `Verif.Net.C140_members`
- `Verif.Net.C140_linear`
- `Verif.Net.C141_batch_partial`
- `Verif.Net.C141_empty_violated`
- `Verif.NetOut.C142_actor`
- `Verif.NetOut.C142_mean`
- `Verif.NetOut.C142_scale`
- `Verif.NetOut.C142_perturbation`
- `Verif.NetOut.C142_vae`
- `Verif.NetOut.C142_latent`
- `Verif.NetOut.C142_softmax`
- `Verif.NetOut.C143_layout`
- `Verif.NetOut.C143_fractions`
- `Verif.NetOut.C143_fqf`
- `Verif.NetOut.C144_noisy`
- `Verif.NetOut.C144_sample`
- `Verif.NetOut.C145_info`
- `Verif.NetOut.C145_dim`
- `Verif.NetOut.C145_violated`
- `Verif.NetOut.C145_probs`
- `Verif.Optim.C147_clipped`
- `Verif.Optim.C147_plain`
- `Verif.Optim.C147_fresh_partial`
- `Verif.Optim.C147_no_module`
- `Verif.Optim.C147_violated`
- `Verif.Optim.C148_restore_partial`
- `Verif.Optim.C150_roles_partial`
- `Verif.Optim.C150_violated`
- `Verif.Schedule.C151_steps`
- `Verif.Schedule.C152_onpolicy_partial`
- `Verif.Schedule.C152_missing`
- `Verif.Schedule.C152_violated`
- `Verif.Schedule.C154_decay_partial`
- `Verif.Schedule.C154_run`
- `Verif.Schedule.C154_violated`
- `Verif.Schedule.C155_threshold`
- `Verif.Experiment.C156_experiment_partial`
- `Verif.Experiment.C156_names`
- `Verif.Experiment.C156_violated`
- `Verif.Experiment.C159_restore_partial`
- `Verif.Experiment.C159_checkpoints`
- `Verif.Experiment.C159_disabled`
- `Verif.Experiment.C159_violated`
- `Verif.Factories.C161_policy_partial`
- `Verif.Factories.C161_logits_partial`
- `Verif.Factories.C161_violated`
- `Verif.Factories.C162_built_partial`
- `Verif.Factories.C162_violated`
- `Verif.Params.C165_fit`
- `Verif.Params.C165_values`
- `Verif.Params.C165_schedulers`
- `Verif.Factories.C166_box_partial`
- `Verif.Factories.C166_violated`
- `Verif.Factories.C167_partial`
- `Verif.Factories.C167_violated`
- `Verif.Factories.C168_violated`
- `Verif.Evaluation.C169_same_partial`
- `Verif.Evaluation.C169_rows`
- `Verif.Evaluation.C169_violated`
- `Verif.Evaluation.C170_below_partial`
- `Verif.Evaluation.C170_violated`
- `Verif.Evaluation.C171_plain_partial`
- `Verif.Evaluation.C171_dist`
- `Verif.Evaluation.C171_no_train`
- `Verif.Evaluation.C171_violated`
- `Verif.BatchTree.C172_order_violated`
- `Verif.BatchTree.C172_division_violated`
- `Verif.BatchTree.C172_violated`
- `Verif.BatchTree.C172_add_partial`
- `Verif.BatchTree.C172_add_only`
- `Verif.BatchTree.C172_number_partial`
- `Verif.BatchTree.C172_division_partial`
- `Verif.Batch.C173_cat_violated`
- `Verif.Batch.C173_empty_partial`
- `Verif.Batch.C174_violated`
- `Verif.Batch.C174_rows_partial`
- `Verif.Batch.C174_stack_partial`
- `Verif.Batch.C174_index_partial`
- `Verif.Batch.C175_partial`
- `Verif.Batch.C176_one`
- `Verif.Batch.C176_many`
- `Verif.Batch.C177_new`
- `Verif.Batch.C177_existing`
- `Verif.BatchTree.C178_violated`
- `Verif.BatchTree.C178_copy_violated`
- `Verif.BatchTree.C179_violated`
- `Verif.BatchTree.C179_partial`
- `Verif.BatchTree.C179_roundtrip`
- `Verif.Batch.C180_one`
- `Verif.Batch.C180_many`
- `Verif.Buffer.C181_first_violated`
- `Verif.Buffer.C181_wrap_violated`
- `Verif.Buffer.C181_violated`
- `Verif.Buffer.C181_partial`
- `Verif.Buffer.C181_inner_partial`
- `Verif.OnPolicy.C182_same`
- `Verif.OnPolicy.C182_gae`
- `Verif.OnPolicy.C182_log_prob`
- `Verif.OnPolicy.C182_refused`
- `Verif.OnPolicy.C183_a2c_partial`
- `Verif.OnPolicy.C183_pg`
- `Verif.OnPolicy.C183_recompute`
- `Verif.OnPolicy.C183_violated`
- `Verif.OnPolicy.C184_repetitions`
- `Verif.OnPolicy.C185_partial`
- `Verif.OnPolicy.C185_column`
- `Verif.OnPolicy.C185_wide`
- `Verif.OnPolicy.C185_violated`
- `Verif.Squash.C186_forward`
- `Verif.Squash.C186_density`
- `Verif.Squash.C186_eps`
- `Verif.Squash.C186_bounded`
- `Verif.Imitation.C187_prob`
- `Verif.Imitation.C187_likelihood`
- `Verif.Imitation.C187_refused`
- `Verif.Imitation.C187_mode`
- `Verif.Imitation.C187_regression`
- `Verif.Imitation.C187_cql`
- `Verif.Imitation.C187_bcq`
- `Verif.Buffer.C188_partial`
- `Verif.Buffer.C188_succeeds`
- `Verif.Buffer.C188_others`
- `Verif.Buffer.C188_reversed`
- `Verif.Buffer.C188_violated`
- `Verif.Buffer.C188_cancel`
- `Verif.Buffer.C188_manager`
- `Verif.Imitation.C189_bonus`
- `Verif.Imitation.C189_rows`
- `Verif.Imitation.C189_loss`
- `Verif.Modules.C190_partial`
- `Verif.Modules.C190_learning`
- `Verif.Modules.C190_fqf`
- `Verif.Modules.C190_violated`
- `Verif.Modules.C190_new`
- `Verif.Modules.C190_complete`
- `Verif.Modules.C190_bcq`
- `Verif.Modules.C190_rainbow`
- `Verif.Modules.C190_manager`
- `Verif.Modules.C191_partial`
- `Verif.Buffer.C192_unbiased`
- `Verif.Buffer.C192_loss`
- `Verif.Buffer.C192_ignored`
- `Verif.Buffer.C192_used_partial`
- `Verif.Buffer.C192_violated`
- `Verif.Pipeline.C193_content`
- `Verif.Pipeline.C193_nstep`
- `Verif.Pipeline.C193_gae`
- `Verif.Pipeline.C194_returns_partial`
- `Verif.Pipeline.C194_partial`
- `Verif.PettingZoo.C195_make`
- `Verif.Timing.C198_total`
- `Verif.Timing.C198_violated`
- `Verif.Timing.C198_raises`
- `Verif.Dists.C199_rows_partial`
- `Verif.Dists.C199_summaries`
- `Verif.Dists.C199_violated`
- `Verif.Dists.C200_item`
- `Verif.Dists.C200_rows`
- `Verif.Dists.C200_outside`
- `Verif.Dists.C200_weights`
- `Verif.Dists.C201_batched`
- `Verif.Dists.C201_single_partial`
- `Verif.Dists.C201_violated`
- `Verif.Batch.C202_rows`
- `Verif.Batch.C202_ok`
- `Verif.Buffer.C203_children`
- `Verif.Buffer.C203_restored`
- `Verif.Buffer.C203_only_goal_and_reward`
- `Verif.Buffer.C203_add`
- `Verif.Buffer.C203_sample`
- `Verif.Buffer.C203_capacity`
- `Verif.Pipeline.C204_records`
- `Verif.Pipeline.C204_partial`
- `Verif.Pipeline.C205_partial`
- `Verif.Pipeline.C206_statistics`
- `Verif.Pipeline.C206_content`
- `Verif.Pipeline.C206_nstep`
- `Verif.Pipeline.C206_gae`
- `Verif.Pipeline.C207_content`
- `Verif.Pipeline.C207_content_async`
- `Verif.Pipeline.C207_nstep`
- `Verif.Pipeline.C207_nstep_async`
- `Verif.Pipeline.C207_gae`
- `Verif.Pipeline.C207_gae_async`
- `Verif.Pipeline.C208_partial`
- `Verif.Pipeline.C208_async`
- `Verif.ShMem.C210_box_partial`
- `Verif.LossStats.C211_losses_partial`
- `Verif.LossStats.C211_wrapper_violated`
- `Verif.LossStats.C211_agents_violated`
- `Verif.LossStats.C211_names_violated`
- `Verif.LossStats.C212_set_partial`
- `Verif.LossStats.C212_sync`
- `Verif.LossStats.C212_violated`
- `Verif.LossStats.C213_smoothed_partial`
- `Verif.LossStats.C213_reset_violated`
- `Verif.LossStats.C214_logged_partial`
- `Verif.EnvAttr.C215_partial`
- `Verif.EnvAttr.C215_others`
- `Verif.EnvAttr.C215_violated`
- `Verif.EnvAttr.C216_partial`
- `Verif.EnvAttr.C216_violated`
- `Verif.VecEnv.C219_close`
- `Verif.EpisodeHook.C220_partial`
- `Verif.EpisodeHook.C220_ok`
- `Verif.EpisodeHook.C220_no_nan`
- `Verif.EpisodeHook.C220_mc_partial`
- `Verif.EpisodeHook.C220_violated`
- `Verif.InfoStore.C221_exact`
- `Verif.InfoStore.C221_partial`
- `Verif.InfoStore.C222_recorded`
- `Verif.InfoStore.C222_recorded_async`
- `Verif.InfoStore.C222_partial`
- `Verif.InfoStore.C222_violated`
- `Verif.Builder.C223_calls`
- `Verif.Builder.C223_keeps_partial`
- `Verif.Builder.C223_seeded`
- `Verif.Buffer.C224_unfinished`
- `Verif.Buffer.C224_reported_open`
- `Verif.Buffer.C224_violated`
- `Verif.Buffer.C224_cached`
- `Verif.Buffer.C224_cached_violated`
- `Verif.MultiAgent.C225_rewards`
- `Verif.MultiAgent.C225_turns_partial`
- `Verif.MultiAgent.C226_partial`
- `Verif.MultiAgent.C226_crosses`
- `Verif.Buffer.C227_refines`
- `Verif.Buffer.C227_single`
- `Verif.Buffer.C227_vector`
- `Verif.Buffer.C227_stacked`
- `Verif.Buffer.C228_single`
- `Verif.Buffer.C228_vector`
- `Verif.Policy.C229_dqn`
- `Verif.Policy.C229_random`
- `Verif.Buffer.C230_goal_partial`
- `Verif.Buffer.C230_violated`
- `Verif.Rainbow.C231_weights`
- `Verif.Rainbow.C231_independent_partial`
- `Verif.Rainbow.C231_fresh`
- `Verif.Rainbow.C231_violated`
- `Verif.VecEnv.C232_dummy`
- `Verif.VecEnv.C232_subproc`
- `Verif.ComputeAction.C233_exact`
- `Verif.ComputeAction.C233_partial`
- `Verif.ComputeAction.C233_outside_violated`
- `Verif.ComputeAction.C233_violated`
- `Verif.ComputeAction.C234_shape`
- `Verif.ComputeAction.C234_partial`
- `Verif.ComputeAction.C234_contains_partial`
- `Verif.ComputeAction.C234_multi`
- `Verif.ComputeAction.C234_violated`
- `Verif.PolicyGradient.C235_partial`
- `Verif.PolicyGradient.C235_defined`
- `Verif.PolicyGradient.C235_fixed_partial`
- `Verif.PolicyGradient.C235_discount_violated`
- `Verif.PolicyGradient.C235_length_violated`
- `Verif.PolicyGradient.C236_a2c`
- `Verif.PolicyGradient.C236_ppo`
- `Verif.PolicyGradient.C236_trpo`
- `Verif.QLearning.C237_partial`
- `Verif.QLearning.C237_only_partial`
- `Verif.QLearning.C237_clip_violated`
- `Verif.QLearning.C237_nstep_violated`
- `Verif.QLearning.C237_unique`
- `Verif.QLearning.C238_converges`
- `Verif.QLearning.C238_greedy`
- `Verif.Buffer.C239_uniform`
- `Verif.Buffer.C239_prioritised`
- `Verif.Buffer.C239_vector`
- `Verif.Buffer.C240_partial`
- `Verif.Buffer.C240_violated`
- `Verif.Buffer.C240_vector_violated`
- `Verif.PolicyGradient.C241_advantages`
- `Verif.PolicyGradient.C241_returns`
- `Verif.PolicyGradient.C241_actor`
- `Verif.PolicyGradient.C241_lambda`
- `Verif.PolicyGradient.C241_critic`
- `Verif.SoftQ.C242_best`
- `Verif.SoftQ.C242_actor`
- `Verif.SoftQ.C242_stationary`
- `Verif.SoftQ.C242_only`
- `Verif.SoftQ.C242_unique`
- `Verif.SoftQ.C242_temperature`
- `Verif.SoftQ.C242_converges`
- `Verif.C51Learn.C243_backup`
- `Verif.C51Learn.C243_converges`
- `Verif.C51Learn.C243_range`
- `Verif.Fitting.C244_disc`
- `Verif.Fitting.C244_none`
- `Verif.Fitting.C244_reward`
- `Verif.Fitting.C244_imitator`
- `Verif.Fitting.C245_discrete`
- `Verif.Fitting.C245_exists`
- `Verif.Fitting.C245_act`
- `Verif.Fitting.C245_continuous`
- `Verif.Quantile.C246_partial`
- `Verif.Quantile.C246_apart_partial`
- `Verif.Quantile.C246_sorted`
- `Verif.Quantile.C246_exists`
- `Verif.Quantile.C246_violated`
- `Verif.Psrl.C247_partial`
- `Verif.Psrl.C247_violated`
- `Verif.Critics.C248_ddpg`
- `Verif.Critics.C248_td3`
- `Verif.Critics.C248_rate`
- `Verif.Critics.C248_value`
- `Verif.Critics.C248_ddpg_exists`
- `Verif.Critics.C248_td3_exists`
- `Verif.Policy.C249_sum`
- `Verif.Policy.C249_often`
- `Verif.Policy.C249_greedy`
- `Verif.Policy.C249_everywhere`
- `Verif.Cql.C250_range`
- `Verif.Cql.C250_gradient`
- `Verif.Cql.C250_partial`
- `Verif.Cql.C250_device_violated`
- `Verif.Cql.C250_stuck_violated`
- `Verif.NetOut.C251_loss`
- `Verif.NetOut.C251_divergence`
- `Verif.NetOut.C251_identity`
- `Verif.NetOut.C251_bound`
- `Verif.Logger.C252_resume_partial`
- `Verif.Stats.C253_limit`
- `Verif.Stats.C253_independent`
- `Verif.ActorCritic.C254_mean`
- `Verif.ActorCritic.C254_one`
- `Verif.ActorCritic.C254_monotone`
- `Verif.ActorCritic.C254_whole`
- `Verif.TrustRegion.C255_discrete`
- `Verif.TrustRegion.C255_normal`
- `Verif.TrustRegion.C255_fisher`
- `Verif.TrustRegion.C255_fisher_normal`
- `Verif.TrustRegion.C255_curvature`
- `Verif.TrustRegion.C255_npg`
- `Verif.TrustRegion.C255_trpo`
- `Verif.TrustRegion.C255_region`
- `Verif.TrustRegion.C255_same`
- `Verif.Fraction.C256_gradient`
- `Verif.Fraction.C256_value`
- `Verif.Fraction.C256_loss`
- `Verif.Learn.C257_dqn`
- `Verif.Learn.C257_discrete_bcq`
- `Verif.Learn.C257_pg`
- `Verif.Learn.C257_a2c`
- `Verif.Learn.C257_npg`
- `Verif.Learn.C257_fqf`
- `Verif.Learn.C257_ddpg`
- `Verif.Learn.C257_td3`
- `Verif.Learn.C257_redq`
- `Verif.Learn.C257_sac`
- `Verif.Learn.C257_cql`
- `Verif.Learn.C257_bcq`
- `Verif.Learn.C257_gail`
- `Verif.Learn.C257_icm`
- `Verif.Learn.C257_run`
- `Verif.Offline.C258_rate`
- `Verif.Offline.C258_apart_partial`
- `Verif.Offline.C258_violated`
- `Verif.Offline.C259_entry`
- `Verif.Offline.C259_shortfall`
- `Verif.Offline.C259_lower`
- `Verif.Offline.C259_data`
- `Verif.ActorCritic.C260_law`
- `Verif.ActorCritic.C260_covariance`
- `Verif.ActorCritic.C260_components`
- `Verif.ActorCritic.C260_limit`
- `Verif.ApplyValues.C261_batch_partial`
- `Verif.ApplyValues.C261_copy`
- `Verif.ApplyValues.C261_violated`
- `Verif.ApplyValues.C262_arrays`
- `Verif.PolicyGradient.C263_average`
- `Verif.PolicyGradient.C263_exists`
- `Verif.PolicyGradient.C263_round`
- `Verif.PolicyGradient.C263_rounds`
- `Verif.PolicyGradient.C263_converges`
- `Verif.SacLoss.C264_loss_partial`
- `Verif.SacLoss.C264_redq_partial`
- `Verif.SacLoss.C264_best_partial`
- `Verif.SacLoss.C264_forward_partial`
- `Verif.SacLoss.C264_improves`
- `Verif.SacLoss.C264_violated`
- `Verif.SacLoss.C265_values`
- `Verif.SacLoss.C265_round`
- `Verif.SacLoss.C265_exists`
- `Verif.SacLoss.C266_ddpg`
- `Verif.SacLoss.C266_sac_partial`
- `Verif.SacLoss.C266_ddpg_exists`
- `Verif.SacLoss.C266_sac_exists`
- `Verif.SacLoss.C266_ddpg_errors`
- `Verif.SacLoss.C266_sac_errors_partial`
- `Verif.SacLoss.C267_gradient_partial`
- `Verif.SacLoss.C267_violated`
- `Verif.UniformAction.C268_box_partial`
- `Verif.UniformAction.C268_discrete_partial`
- `Verif.UniformAction.C268_other`
- `Verif.UniformAction.C268_violated_start`
- `Verif.UniformAction.C268_violated_shape`
- `Verif.UniformAction.C268_violated_point`
- `Verif.UniformAction.C268_violated_unbounded`
- `Verif.Buffer.C269_steps_partial`
- `Verif.Buffer.C269_values_partial`
- `Verif.Buffer.C269_violated_chance`
- `Verif.Buffer.C269_violated_end`
- `Verif.DiscreteBcq.C270_mask_partial`
- `Verif.DiscreteBcq.C270_values_partial`
- `Verif.DiscreteBcq.C270_returns_partial`
- `Verif.DiscreteBcq.C270_unique_partial`
- `Verif.DiscreteBcq.C270_exists_partial`
- `Verif.DiscreteBcq.C270_violated_penalty`
- `Verif.DiscreteBcq.C270_violated_chance`
- `Verif.TrustRegion.C271_learn`
- `Verif.TrustRegion.C271_step`
- `Verif.Bdq.C272_means`
- `Verif.Bdq.C272_unique`
- `Verif.Bdq.C272_exists`
- `Verif.Bdq.C272_single_partial`
- `Verif.Bdq.C272_additive_partial`
- `Verif.Bdq.C272_violated`
- `Verif.Bdq.C272_violated_later`
- `Verif.Td3Bc.C273_trade`
- `Verif.Td3Bc.C273_near_partial`
- `Verif.Td3Bc.C273_alpha_partial`
- `Verif.Td3Bc.C273_scale`
- `Verif.Td3Bc.C273_violated`
- `Verif.Td3Bc.C273_violated_far`
- `Verif.Nstep.C274_le`
- `Verif.Nstep.C274_ge`
- `Verif.Nstep.C274_optimal_partial`
- `Verif.Nstep.C274_one_partial`
- `Verif.Nstep.C274_exists`
- `Verif.Nstep.C274_violated`
- `Verif.TargetBias.C275_over`
- `Verif.TargetBias.C275_double`
- `Verif.TargetBias.C275_certain_partial`
- `Verif.TargetBias.C275_twin`
- `Verif.TargetBias.C275_violated`
- `Verif.TargetBias.C275_violated_double`
- `Verif.PpoReturn.C276_return`
- `Verif.PpoReturn.C276_bound`
- `Verif.PpoReturn.C276_minimal_partial`
- `Verif.PpoReturn.C276_beyond_partial`
- `Verif.PpoReturn.C276_violated`
- `Verif.PpoReturn.C276_violated_return`
- `Verif.DiscreteCql.C277_clone`
- `Verif.DiscreteCql.C277_order`
- `Verif.DiscreteCql.C277_quantiles`
- `Verif.DiscreteCql.C277_unlogged`
- `Verif.DiscreteCql.C277_exists`
- `Verif.DiscreteCql.C277_violated`
- `Verif.CrrActor.C278_all`
- `Verif.CrrActor.C278_binary`
- `Verif.CrrActor.C278_improves`
- `Verif.CrrActor.C278_violated`
- `Verif.EndToEnd.C279_bellman`
- `Verif.EndToEnd.C279_optimal`
- `Verif.EndToEnd.C279_le`
- `Verif.Curiosity.C280_forward`
- `Verif.Curiosity.C280_fades`
- `Verif.Curiosity.C280_inverse`
- `Verif.Curiosity.C280_collapse`
- `Verif.ValueClip.C281_floor`
- `Verif.ValueClip.C281_settled`
- `Verif.ValueClip.C281_repeated`
- `Verif.ValueClip.C281_violated`
- `Verif.EndToEnd.C282_async`
- `Verif.EndToEnd.C282_cached`
- `Verif.EndToEnd.C282_cached_async`
- `Verif.Repeat.C283_reinforce`
- `Verif.Repeat.C283_diverges`
- `Verif.Repeat.C283_a2c`
- `Verif.Repeat.C283_entropy`
- `Verif.Repeat.C283_violated`
- `Verif.RedqLoss.C284_agree`
- `Verif.RedqLoss.C284_soft`
- `Verif.RedqLoss.C284_exists`
- `Verif.Tested.C285_optimal`
- `Verif.Tested.C285_best`
- `Verif.PrioEndToEnd.C286_bellman`
- `Verif.PrioEndToEnd.C286_optimal`
- `Verif.VecCollector.C287_same`
- `Verif.VecCollector.C287_frozen`
- `Verif.VecCollector.C287_transparent`
- `Verif.VecCollector.C287_statistics`
- `Verif.VecCollector.C288_independent`
- `Verif.VecCollector.C288_adjacent`
- `Verif.VecCollector.C288_steps`
- `Verif.VecCollector.C288_episodes`
- `Verif.VecCollector.C288_nstep`
- `Verif.Tested.C289_goal_partial`
- `Verif.Tested.C289_loss_partial`
- `Verif.Tested.C289_whole_partial`
- `Verif.Tested.C289_violated`
- `Verif.Tested.C290_near`
- `Verif.Tested.C290_return`
- `Verif.Tested.C290_finally`
- `Verif.Collector.C291_last_partial`
- `Verif.Collector.C291_shares_partial`
- `Verif.Collector.C292_unseen`
- `Verif.Collector.C292_reset`
- `Verif.Collector.C294_unbiased`
- `Verif.Collector.C295_violated`
- `Verif.Trainer.C296_optimistic_partial`
- `Verif.Trainer.C296_equal_partial`
- `Verif.Trainer.C296_bound_partial`
- `Verif.Trainer.C296_violated`
