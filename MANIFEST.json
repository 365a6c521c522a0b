{
 "claims": [
  {
   "property": "C01",
   "status": "proved",
   "theorems": [
    "Machin.Replay.C01_ring_storage"
   ],
   "note": ""
  },
  {
   "property": "C02",
   "status": "proved",
   "theorems": [
    "Machin.Replay.C02_whole_episode_eviction"
   ],
   "note": ""
  },
  {
   "property": "C03",
   "status": "proved",
   "theorems": [
    "Machin.Replay.C03_sampling"
   ],
   "note": ""
  },
  {
   "property": "C04",
   "status": "partial",
   "theorems": [
    "Machin.Replay.C04_violated",
    "Machin.Replay.C04_rejected_store_partial",
    "Machin.Replay.C04_too_long_partial"
   ],
   "note": "Violated by the code for episodes longer than the capacity (C04_violated: data is overwritten before the ValueError); C04_rejected_store_partial covers empty episodes and invalid items."
  },
  {
   "property": "C05",
   "status": "partial",
   "theorems": [
    "Machin.Replay.C05_sample_after_clear_fails",
    "Machin.Replay.C05_violated",
    "Machin.Replay.C05_clear_partial",
    "Machin.Replay.C05_rounds_partial",
    "Machin.Replay.C05_violated_rounds",
    "Machin.Replay.C05_single_partial",
    "Machin.Replay.C05_growing_partial"
   ],
   "note": "Violated by the code: clear() keeps the handle dictionaries, so every sample after clear raises IndexError (C05_sample_after_clear_fails, C05_violated). C05_clear_partial: size and ring storage behave like new. For rounds of stores with a clear after each (the on-policy algorithms) the exact condition: sampling gives the last round if and only if every earlier episode began before the end of some later round (C05_rounds_partial, C05_violated_rounds); one episode per update and growing rounds are safe (C05_single_partial, C05_growing_partial)."
  },
  {
   "property": "C06",
   "status": "proved",
   "theorems": [
    "Machin.Prio.C06_tree_sums",
    "Machin.Prio.C06_update_leaf_size_one_fails"
   ],
   "note": "update_leaf on a tree of size 1 raises (C06_update_leaf_size_one_fails); all other sizes and histories proved."
  },
  {
   "property": "C07",
   "status": "proved",
   "theorems": [
    "Machin.Prio.C07_leaf_last_write"
   ],
   "note": ""
  },
  {
   "property": "C08",
   "status": "proved",
   "theorems": [
    "Machin.Prio.C08_find_leaf_index"
   ],
   "note": ""
  },
  {
   "property": "C09",
   "status": "partial",
   "theorems": [
    "Machin.Prio.C09_violated",
    "Machin.Prio.C09_out_of_range_partial"
   ],
   "note": "Violated by the code: update_leaf accepts index == size (C09_violated). C09_out_of_range_partial: every other out-of-range index is rejected without touching the tree, and update_leaf_batch rejects all of them."
  },
  {
   "property": "C10",
   "status": "partial",
   "theorems": [
    "Machin.Prio.C10_violated",
    "Machin.Prio.C10_leaf_max_partial",
    "Machin.Prio.C10_exact_partial"
   ],
   "note": "Violated by the code: the cached maximum is never lowered by single or batch updates (C10_violated). C10_leaf_max_partial: it is an upper bound, exact right after a full rebuild."
  },
  {
   "property": "C11",
   "status": "proved",
   "theorems": [
    "Machin.Prio.C11_stratified_sampling"
   ],
   "note": ""
  },
  {
   "property": "C12",
   "status": "partial",
   "theorems": [
    "Machin.Prio.C12_batch_of_one_fails",
    "Machin.Prio.C12_violated",
    "Machin.Prio.C12_every_batch_size_partial"
   ],
   "note": "Violated by the code for batch size 1 (C12_batch_of_one_fails: TypeError for every reachable buffer; C12_violated). C12_every_batch_size_partial covers all other sizes."
  },
  {
   "property": "C13",
   "status": "proved",
   "theorems": [
    "Machin.Prio.C13_beta_annealing",
    "Machin.Prio.C13_beta_bounds"
   ],
   "note": ""
  },
  {
   "property": "C14",
   "status": "proved",
   "theorems": [
    "Machin.Prio.C14_importance_weights"
   ],
   "note": ""
  },
  {
   "property": "C15",
   "status": "partial",
   "theorems": [
    "Machin.Prio.C15_violated",
    "Machin.Prio.C15_sampled_stored_partial"
   ],
   "note": "Violated by the code: priorities of evicted transitions are not zeroed (C15_violated). C15_sampled_stored_partial: sampled items are always among the newest N stored, and are live until the first overwrite."
  },
  {
   "property": "C16",
   "status": "partial",
   "theorems": [
    "Machin.Dist.C16_violated",
    "Machin.Dist.C16_violated_too_long",
    "Machin.Dist.C16_violated_short_priorities",
    "Machin.Dist.C16_versioned_update_partial",
    "Machin.Dist.C16_marks_partial"
   ],
   "note": "Violated by the code: versions restart after clear (C16_violated), a store rejected for its length (C16_violated_too_long) or with too few priorities (C16_violated_short_priorities) overwrites entries without a version bump. C16_versioned_update_partial covers all histories of legal stores, samplings and updates. C16_marks_partial covers all histories whatsoever with the exact condition: an entry is changed exactly if it has as many marks since the last clear as it had when it was sampled."
  },
  {
   "property": "C17",
   "status": "proved",
   "theorems": [
    "Machin.Dist.C17_priority_split"
   ],
   "note": ""
  },
  {
   "property": "C18",
   "status": "proved",
   "theorems": [
    "Machin.Dist.C18_proportional_split"
   ],
   "note": ""
  },
  {
   "property": "C19",
   "status": "partial",
   "theorems": [
    "Machin.Dist.C19_violated",
    "Machin.Dist.C19_distributed_uniform_partial"
   ],
   "note": "Violated by the code when all members are empty and sample_attrs is None (C19_violated: IndexError). C19_distributed_uniform_partial covers every other case."
  },
  {
   "property": "C20",
   "status": "proved",
   "theorems": [
    "Machin.Rnn.C20_rnn_windows"
   ],
   "note": ""
  },
  {
   "property": "C21",
   "status": "partial",
   "theorems": [
    "Machin.Rnn.C21_violated",
    "Machin.Rnn.C21_violated_wrap",
    "Machin.Rnn.C21_prioritized_rnn_windows_partial"
   ],
   "note": "Violated by the code: windows across two short episodes when all priorities are 0 (C21_violated), IndexError for an episode stored across the end of the ring (C21_violated_wrap). C21_prioritized_rnn_windows_partial covers positive total weight and positive draws, with IndexError possible only after wrap-around. The class cannot be constructed at all (C65); the model assumes a constructed object."
  },
  {
   "property": "C22",
   "status": "partial",
   "theorems": [
    "Machin.Trans.C22_violated",
    "Machin.Trans.C22_violated_poisoned",
    "Machin.Trans.C22_violated_attribute",
    "Machin.Trans.C22_new_partial",
    "Machin.Trans.C22_constructed_partial",
    "Machin.Trans.C22_run_partial",
    "Machin.Trans.C22_visible_partial",
    "Machin.Trans.C22_violated_terminal",
    "Machin.Trans.C22_base_partial",
    "Machin.Trans.C22_exception_partial",
    "Machin.Trans.C22_custom_sorted_partial",
    "Machin.Trans.C22_has_keys_partial"
   ],
   "note": "Violated: __setitem__ stores the value before checking it, so a rejected assignment leaves an invalid transition (and every later assignment fails); __setattr__ accepts and discards values. Proved: construction succeeds exactly for batch size 1 data, sequences without item assignments rejected by the checks keep validity, accepted item assignments are visible, unknown names change nothing."
  },
  {
   "property": "C23",
   "status": "proved",
   "theorems": [
    "Machin.Trans.C23_entries",
    "Machin.Trans.C23_empty",
    "Machin.Trans.C23_no_error"
   ],
   "note": ""
  },
  {
   "property": "C24",
   "status": "proved",
   "theorems": [
    "Machin.Server.C24_accept",
    "Machin.Server.C24_chain",
    "Machin.Server.C24_at_most_one",
    "Machin.Server.C24_reuse_needed"
   ],
   "note": "Versions must not be reused, except version = prev_version (C24_reuse_needed shows what happens otherwise); requests are atomic under the server's lock."
  },
  {
   "property": "C25",
   "status": "partial",
   "theorems": [
    "Machin.Server.C25_new",
    "Machin.Server.C25_violated",
    "Machin.Server.C25_newest_partial",
    "Machin.Server.C25_retained_partial"
   ],
   "note": "Violated: one version more than documented is retained (with depth 1 the version before the newest is still served). Proved with depth+1 in place of depth, and that pull without version returns the newest accepted value."
  },
  {
   "property": "C26",
   "status": "proved",
   "theorems": [
    "Machin.Server.C26_newest",
    "Machin.Server.C26_accept",
    "Machin.Server.C26_based",
    "Machin.Server.C26_rejected",
    "Machin.Server.C26_bound",
    "Machin.Server.C26_pull"
   ],
   "note": ""
  },
  {
   "property": "C27",
   "status": "proved",
   "theorems": [
    "Machin.Server.C27_conservation_lost",
    "Machin.Server.C27_conservation",
    "Machin.Server.C27_exactly_once",
    "Machin.Server.C27_no_block",
    "Machin.Server.C27_discard",
    "Machin.Server.C27_no_discard",
    "Machin.Server.C27_mean"
   ],
   "note": "Gradients held by reducers between queues count as still queued. Hypotheses: a model is managed and every push has all its parameters (C27_conservation_lost covers the general case)."
  },
  {
   "property": "C28",
   "status": "proved",
   "theorems": [
    "Machin.Pool.C28_split",
    "Machin.Pool.C28_chunksize",
    "Machin.Pool.C28_map_order",
    "Machin.Pool.C28_empty",
    "Machin.Pool.C28_zero_chunksize"
   ],
   "note": "Handle methods taken as atomic; one result per task."
  },
  {
   "property": "C29",
   "status": "proved",
   "theorems": [
    "Machin.Pool.C29_failure",
    "Machin.Pool.C29_first",
    "Machin.Pool.C29_chunk",
    "Machin.Pool.C29_final"
   ],
   "note": "Also: a complete handle never changes."
  },
  {
   "property": "C30",
   "status": "proved",
   "theorems": [
    "Machin.Pool.C30_prefix",
    "Machin.Pool.C30_stop",
    "Machin.Pool.C30_wait",
    "Machin.Pool.C30_wake",
    "Machin.Pool.C30_wakes",
    "Machin.Pool.C30_unordered",
    "Machin.Pool.C30_chunked"
   ],
   "note": "One consumer; waiting consumers retry when notified, wake-up theorems included."
  },
  {
   "property": "C31",
   "status": "partial",
   "theorems": [
    "Machin.Pool.C31_routing",
    "Machin.Pool.C31_complete",
    "Machin.Pool.C31_violated",
    "Machin.Pool.C31_no_leftover_partial",
    "Machin.Pool.C31_map_empty",
    "Machin.Pool.C31_violated_race",
    "Machin.Pool.C31_violated_crosstalk",
    "Machin.Pool.C31_ready"
   ],
   "note": "False as stated: an imap call with empty input stays registered, and unlocked job numbers can collide. Routing proved for all histories with distinct numbers; no leftover proved when no imap input is empty."
  },
  {
   "property": "C32",
   "status": "partial",
   "theorems": [
    "Machin.Pool.C32_base_partial",
    "Machin.Pool.C32_violated",
    "Machin.Pool.C32_violated_never",
    "Machin.Pool.C32_map",
    "Machin.Pool.C32_map_async",
    "Machin.Pool.C32_violated_empty_map"
   ],
   "note": "False for all classes but BasePool: Pool.apply_async drops the callbacks. Proved for BasePool and for map_async with non-empty input."
  },
  {
   "property": "C33",
   "status": "proved",
   "theorems": [
    "Machin.Pool.C33_contexts"
   ],
   "note": "Iteration order of the set of missing ids is any permutation."
  },
  {
   "property": "C34",
   "status": "partial",
   "theorems": [
    "Machin.Pool.C34_violated",
    "Machin.Pool.C34_initial_partial",
    "Machin.Pool.C34_maintain_partial",
    "Machin.Pool.C34_round_robin",
    "Machin.Pool.C34_counter"
   ],
   "note": "False: a replacement worker reads sub-queue 0, 1, ... instead of the queue of the exited worker. Proved: initial pool; exact condition under which maintenance is harmless."
  },
  {
   "property": "C35",
   "status": "partial",
   "theorems": [
    "Machin.World.C35_violated",
    "Machin.World.C35_unique_partial",
    "Machin.World.C35_second_partial",
    "Machin.World.C35_release_partial",
    "Machin.World.C35_reacquire_partial"
   ],
   "note": "Violated when a look-up is served by a process in the middle of pair/register (C35_violated); proved for all other interleavings (QuietReach)."
  },
  {
   "property": "C36",
   "status": "proved",
   "theorems": [
    "Machin.World.C36_lookup",
    "Machin.World.C36_abs"
   ],
   "note": "Refinement of one abstract owner/value table for every sequence of atomic calls."
  },
  {
   "property": "C37",
   "status": "partial",
   "theorems": [
    "Machin.World.C37_purge_partial",
    "Machin.World.C37_reregister_partial",
    "Machin.World.C37_violated_history",
    "Machin.World.C37_violated",
    "Machin.World.C37_violated_failed_creation",
    "Machin.World.C37_violated_recreate"
   ],
   "note": "Violated for services of a re-created group (C37_violated, C37_violated_history, C37_violated_recreate); proved for values and for destroyed groups."
  },
  {
   "property": "C38",
   "status": "partial",
   "theorems": [
    "Machin.Barrier.C38_safety",
    "Machin.Barrier.C38_violated",
    "Machin.Barrier.C38_liveness_partial"
   ],
   "note": "Safety proved for all interleavings; liveness violated by a lost wake-up (C38_violated); proved when all other members already wait."
  },
  {
   "property": "C39",
   "status": "partial",
   "theorems": [
    "Machin.Event.C39_violated_early",
    "Machin.Event.C39_violated_and",
    "Machin.Event.C39_violated_blocks",
    "Machin.Event.C39_violated",
    "Machin.Event.C39_violated_timeout",
    "Machin.Event.C39_timeout_partial",
    "Machin.Event.C39_not_before_partial",
    "Machin.Event.C39_returns_partial",
    "Machin.Event.C39_or_partial",
    "Machin.Event.C39_and_partial",
    "Machin.Event.C39_registered"
   ],
   "note": "Violated (C39_violated*: lost early notification, AndEvent returns after the first member, blocks when already set, timeout never cut short); proved: no return before a member is set, result after a completed set, registration."
  },
  {
   "property": "C40",
   "status": "proved",
   "theorems": [
    "Machin.Finalize.C40_once",
    "Machin.Finalize.C40_cancelled",
    "Machin.Finalize.C40_active",
    "Machin.Finalize.C40_log",
    "Machin.Finalize.C40_call"
   ],
   "note": "Simulation with a one-status-per-finalizer specification; machin has no run-all function, so there is none in the model."
  },
  {
   "property": "C41",
   "status": "partial",
   "theorems": [
    "Machin.Config.C41_violated_contains",
    "Machin.Config.C41_violated_default",
    "Machin.Config.C41_violated_iter",
    "Machin.Config.C41_violated",
    "Machin.Config.C41_get_partial",
    "Machin.Config.C41_set_partial",
    "Machin.Config.C41_call_partial"
   ],
   "note": "Violated: contains is always true, defaults are never used, iteration yields two internal names; proved: set names are found with their value, setting changes one name."
  },
  {
   "property": "C42",
   "status": "partial",
   "theorems": [
    "Machin.Config.C42_violated_names",
    "Machin.Config.C42_violated",
    "Machin.Config.C42_dict_partial",
    "Machin.Config.C42_const_partial",
    "Machin.Config.C42_config_partial"
   ],
   "note": "Violated for names of members (data replaces everything, get is rejected); proved for ordinary names, dictionaries and Configs. conf itself is deep-copied (immutable in the model)."
  },
  {
   "property": "C43",
   "status": "partial",
   "theorems": [
    "Machin.Load.C43_violated_zeros",
    "Machin.Load.C43_violated",
    "Machin.Load.C43_load_partial"
   ],
   "note": "Violated for files with leading zeros; proved for directories without them and names the regular expression accepts."
  },
  {
   "property": "C44",
   "status": "partial",
   "theorems": [
    "Machin.Load.C44_violated_default",
    "Machin.Load.C44_violated_negative",
    "Machin.Load.C44_violated_name",
    "Machin.Load.C44_violated",
    "Machin.Load.C44_roundtrip_partial"
   ],
   "note": "Violated for -1 (default), other negative versions and names outside the regular expression; proved for versions >= 0."
  },
  {
   "property": "C45",
   "status": "partial",
   "theorems": [
    "Machin.Helper.C45_violated_before",
    "Machin.Helper.C45_violated",
    "Machin.Helper.C45_rate_partial"
   ],
   "note": "Violated before the first boundary (the last rate is returned); proved from the first boundary on."
  },
  {
   "property": "C46",
   "status": "proved",
   "theorems": [
    "Machin.Returns.C46_values",
    "Machin.Returns.C46_length"
   ],
   "note": "Episode value recursion of A2C/PPO style store_episode equals the discounted return of the rest of the episode."
  },
  {
   "property": "C47",
   "status": "partial",
   "theorems": [
    "Machin.Returns.C47_violated_truncated",
    "Machin.Returns.C47_violated",
    "Machin.Returns.C47_general_partial",
    "Machin.Returns.C47_truncated_partial",
    "Machin.Returns.C47_one_partial",
    "Machin.Returns.C47_zero_partial",
    "Machin.Returns.C47_branches_partial",
    "Machin.Returns.C47_cut_partial",
    "Machin.Returns.C47_recurrence_partial"
   ],
   "note": "Violated for episodes that do not end in a terminal state (no bootstrap); the partial theorems give the value for the general, truncated, lambda=1 and lambda=0 cases."
  },
  {
   "property": "C48",
   "status": "proved",
   "theorems": [
    "Machin.Returns.C48_nstep"
   ],
   "note": "n-step value of RAINBOW store_episode equals the discounted sum of the next n rewards clipped at the end of the episode."
  },
  {
   "property": "C49",
   "status": "partial",
   "theorems": [
    "Machin.Project.C49_entries",
    "Machin.Project.C49_mass_partial",
    "Machin.Project.C49_mean_partial",
    "Machin.Project.C49_nonneg",
    "Machin.Project.C49_sum_partial",
    "Machin.Project.C49_bellman_partial",
    "Machin.Project.C49_violated_mass",
    "Machin.Project.C49_violated"
   ],
   "note": "Violated: an atom whose shifted position falls exactly on an atom of the support loses its whole mass (both distances are 0). C49_mass_partial gives the exact row mass, C49_sum_partial shows it is 1 when no shifted atom falls on the support. C49_mean_partial: every atom that is not lost contributes its mass times its clamped shifted value, so the projection keeps the expectation."
  },
  {
   "property": "C50",
   "status": "partial",
   "theorems": [
    "Machin.Impala.C50_whole_episodes_partial",
    "Machin.Impala.C50_violated_too_long",
    "Machin.Impala.C50_violated"
   ],
   "note": "Proved for all histories of episodes that fit the buffer. Violated when an episode longer than the capacity was rejected: it has overwritten stored steps, the sampled steps carry no length and update() raises RuntimeError."
  },
  {
   "property": "C51",
   "status": "partial",
   "theorems": [
    "Machin.Impala.C51_locality",
    "Machin.Impala.C51_recursion",
    "Machin.Impala.C51_shifted",
    "Machin.Impala.C51_advantage",
    "Machin.Impala.C51_on_policy_partial",
    "Machin.Impala.C51_violated_last_reward",
    "Machin.Impala.C51_violated_sample",
    "Machin.Impala.C51_violated"
   ],
   "note": "Locality and the v-trace recursion are proved for all batches. Violated at the last step: its target is 0, so the recursion v_t = r_t + g v_{t+1} holds only before it and the last reward enters no target."
  },
  {
   "property": "C52",
   "status": "partial",
   "theorems": [
    "Machin.Ars.C52_push",
    "Machin.Ars.C52_merge_partial",
    "Machin.Ars.C52_order_partial",
    "Machin.Ars.C52_violated_forever",
    "Machin.Ars.C52_violated"
   ],
   "note": "Proved for every sequence and every tree of pushes and merges without a merge of two empty statistics; merging two empty statistics gives nan for ever (C52_violated)."
  },
  {
   "property": "C53",
   "status": "partial",
   "theorems": [
    "Machin.Ars.C53_counted_partial",
    "Machin.Ars.C53_violated_always",
    "Machin.Ars.C53_violated",
    "Machin.Ars.C53_violated_idle_member",
    "Machin.Ars.C53_stable_partial",
    "Machin.Ars.C53_carried_partial",
    "Machin.Ars.C53_violated_mean",
    "Machin.Ars.C53_stable_violated"
   ],
   "note": "Violated: the manager's own observations are counted twice in every run (C53_violated_always), an idle member makes update() raise KeyError, and the mean used for normalisation is the tensor that push changes in place. The partial theorems give the exact statistics and the stability of the deviation."
  },
  {
   "property": "C54",
   "status": "proved",
   "theorems": [
    "Machin.Ars.C54_partition",
    "Machin.Ars.C54_exactly_one",
    "Machin.Ars.C54_seeds",
    "Machin.Ars.C54_noise",
    "Machin.Ars.C54_check_never_raises"
   ],
   "note": "Partition, distinct seeds and noise slices proved for all sizes; the size check can never raise (C54_check_never_raises)."
  },
  {
   "property": "C55",
   "status": "partial",
   "theorems": [
    "Machin.Update.C55_soft",
    "Machin.Update.C55_between",
    "Machin.Update.C55_schedule_partial",
    "Machin.Update.C55_violated_fixed_target",
    "Machin.Update.C55_violated"
   ],
   "note": "Soft updates proved; hard update schedule proved for mode double and all algorithms with the counting scheme. Violated in DQN mode fixed_target with update_steps (TypeError)."
  },
  {
   "property": "C56",
   "status": "partial",
   "theorems": [
    "Machin.Update.C56_partial",
    "Machin.Update.C56_violated_overwrites",
    "Machin.Update.C56_violated_config_object",
    "Machin.Update.C56_violated",
    "Machin.Update.C56_derived_partial",
    "Machin.Update.C56_fill_default"
   ],
   "note": "Violated: user settings under default keys are overwritten; Config objects without frame_config raise TypeError. Proved: exact contents of the result; fill_default is correct."
  },
  {
   "property": "C57",
   "status": "partial",
   "theorems": [
    "Machin.EnvWrap.C57_call",
    "Machin.EnvWrap.C57_completes",
    "Machin.EnvWrap.C57_partial",
    "Machin.EnvWrap.C57_single_partial",
    "Machin.EnvWrap.C57_violated_stale",
    "Machin.EnvWrap.C57_violated",
    "Machin.EnvWrap.C57_violated_key"
   ],
   "note": "Violated: results of a failing call stay in the shared queue and are returned by later calls. Proved: histories without failing calls, single-environment calls with failures, completion."
  },
  {
   "property": "C58",
   "status": "partial",
   "theorems": [
    "Machin.EnvWrap.C58_dummy_guard",
    "Machin.EnvWrap.C58_dummy_only",
    "Machin.EnvWrap.C58_dummy_partial",
    "Machin.EnvWrap.C58_active_partial",
    "Machin.EnvWrap.C58_violated_raise",
    "Machin.EnvWrap.C58_violated_twice",
    "Machin.EnvWrap.C58_violated_dummy",
    "Machin.EnvWrap.C58_sub_never_partial",
    "Machin.EnvWrap.C58_violated_sub_step",
    "Machin.EnvWrap.C58_violated_sub",
    "Machin.EnvWrap.C58_alike_partial",
    "Machin.EnvWrap.C58_reset_dummy_partial",
    "Machin.EnvWrap.C58_reset_sub_partial",
    "Machin.EnvWrap.C58_histories_partial",
    "Machin.EnvWrap.C58_new_partial"
   ],
   "note": "Holds for the for-loop wrapper when no environment raises and no index is repeated; violated otherwise and for the sub-process wrapper, which never checks termination. Both wrappers proved alike in the remaining cases."
  },
  {
   "property": "C59",
   "status": "partial",
   "theorems": [
    "Machin.Trpo.C59_compare_restores",
    "Machin.Trpo.C59_search_partial",
    "Machin.Trpo.C59_measured",
    "Machin.Trpo.C59_violated_kl",
    "Machin.Trpo.C59_violated"
   ],
   "note": "Proved for the divergence as measured by compare_kl; violated for the true divergence with ActorContinuous: views of action_log_std make the log terms cancel."
  },
  {
   "property": "C60",
   "status": "proved",
   "theorems": [
    "Machin.Trpo.C60_get_set",
    "Machin.Trpo.C60_set_get",
    "Machin.Trpo.C60_wrong_length"
   ],
   "note": "All shapes, all vectors; behaviour on wrong lengths also proved."
  },
  {
   "property": "C61",
   "status": "partial",
   "theorems": [
    "Machin.Maddpg.C61_setter_partial",
    "Machin.Maddpg.C61_round_trip_partial",
    "Machin.Maddpg.C61_violated",
    "Machin.Maddpg.C61_violated_result"
   ],
   "note": "Violated: getter lists critics first, setter expects actors first (C61_violated); the setter is correct for actors ++ critics and the exact effect of the round trip is characterised."
  },
  {
   "property": "C62",
   "status": "partial",
   "theorems": [
    "Machin.Noise.C62_restored_partial",
    "Machin.Noise.C62_settled_again_partial",
    "Machin.Noise.C62_reset_accumulates_partial",
    "Machin.Noise.C62_violated",
    "Machin.Noise.C62_violated_values",
    "Machin.Noise.C62_exact_partial"
   ],
   "note": "Violated when the reset switch is on in two or more noisy passes (C62_violated); restored when noise is drawn once (C62_restored_partial); a pass with noise off always re-establishes the precondition; exact accumulation with reset on (C62_reset_accumulates_partial)."
  },
  {
   "property": "C63",
   "status": "partial",
   "theorems": [
    "Machin.Noise.C63_uniform_partial",
    "Machin.Noise.C63_uniform_gen_partial",
    "Machin.Noise.C63_clipped_between_partial",
    "Machin.Noise.C63_wrong_number_refused_partial",
    "Machin.Noise.C63_violated_add",
    "Machin.Noise.C63_violated_gen",
    "Machin.Noise.C63_violated"
   ],
   "note": "Violated by add_clipped_normal_noise_to_action (clamp result discarded, draws uniform) and ClippedNormalNoiseGen (never clipped); uniform noise proved."
  },
  {
   "property": "C64",
   "status": "partial",
   "theorems": [
    "Machin.SafeCall.C64_success_exact_partial",
    "Machin.SafeCall.C64_safe_call_partial",
    "Machin.SafeCall.C64_exact_partial",
    "Machin.SafeCall.C64_violated_demands_default",
    "Machin.SafeCall.C64_violated_misses_argument",
    "Machin.SafeCall.C64_violated_varargs",
    "Machin.SafeCall.C64_violated",
    "Machin.SafeCall.C64_device_partial"
   ],
   "note": "Violated with keyword-only arguments plus defaults and with *args without **kwargs; unconditional exactness on success; full statement proved for the remaining signatures."
  },
  {
   "property": "C65",
   "status": "partial",
   "theorems": [
    "Machin.Rnn.C65_unconstructible",
    "Machin.Rnn.C65_violated",
    "Machin.Rnn.C65_construct_partial"
   ],
   "note": "Violated by the code: RNNDistributedBuffer, RNNPrioritizedBuffer and RNNDistributedPrioritizedBuffer raise TypeError for every set of arguments (C65_unconstructible). C65_construct_partial: the other five classes."
  },
  {
   "property": "C66",
   "status": "partial",
   "theorems": [
    "Machin.Rnn.C66_store_always_fails",
    "Machin.Rnn.C66_violated",
    "Machin.Rnn.C66_store_none_partial"
   ],
   "note": "Violated by the code: with a non-empty tuple of required attributes (the default) every store raises TypeError after writing the transitions (C66_store_always_fails). C66_store_none_partial: with required_attrs=None and given priorities the result is the same."
  },
  {
   "property": "C67",
   "status": "partial",
   "theorems": [
    "Machin.Pool.C67_violated_ctx",
    "Machin.Pool.C67_violated",
    "Machin.Pool.C67_calls_partial"
   ],
   "note": "False for CtxPool.apply, which always raises ValueError; proved for everything else."
  },
  {
   "property": "C68",
   "status": "partial",
   "theorems": [
    "Machin.Pool.C68_violated",
    "Machin.Pool.C68_violated_threads",
    "Machin.Pool.C68_process_partial"
   ],
   "note": "False for the thread pools (TypeError instead of the exception); proved for process pools."
  },
  {
   "property": "C69",
   "status": "partial",
   "theorems": [
    "Machin.Finalize.C69_violated",
    "Machin.Finalize.C69_gc_partial"
   ],
   "note": "Violated: the weak reference is bound to finalizer_registry and the call fails; proved: gc never changes anything, direct calls run it (C40_call)."
  },
  {
   "property": "C70",
   "status": "proved",
   "theorems": [
    "Machin.Helper.C70_counter"
   ],
   "note": ""
  },
  {
   "property": "C71",
   "status": "proved",
   "theorems": [
    "Machin.Helper.C71_trigger",
    "Machin.Helper.C71_once"
   ],
   "note": ""
  },
  {
   "property": "C72",
   "status": "partial",
   "theorems": [
    "Machin.Returns.C72_violated",
    "Machin.Returns.C72_one_partial",
    "Machin.Returns.C72_last_partial"
   ],
   "note": "Violated: the n-step value is combined with the 1-step next_state and terminal flag; holds for n = 1 and for the last step."
  },
  {
   "property": "C73",
   "status": "partial",
   "theorems": [
    "Machin.Update.C73_td3_partial",
    "Machin.Update.C73_sac_partial",
    "Machin.Update.C73_violated"
   ],
   "note": "Holds for TD3; violated for SAC (critic gets critic2_target, critic2 not restored)."
  },
  {
   "property": "C74",
   "status": "partial",
   "theorems": [
    "Machin.Update.C74_never_partial",
    "Machin.Update.C74_violated"
   ],
   "note": "Violated: isinstance(x, callable) raises TypeError for every available environment."
  },
  {
   "property": "C75",
   "status": "partial",
   "theorems": [
    "Machin.Trpo.C75_discrete_partial",
    "Machin.Trpo.C75_violated",
    "Machin.Trpo.C75_continuous_partial"
   ],
   "note": "Holds for the continuous actor; violated for the discrete one (returns p instead of 1/p)."
  },
  {
   "property": "C76",
   "status": "proved",
   "theorems": [
    "Machin.Trpo.C76_residual",
    "Machin.Trpo.C76_one_step",
    "Machin.Trpo.C76_enough",
    "Machin.Trpo.C76_solves"
   ],
   "note": "Exact arithmetic, any linear map and bilinear dot."
  },
  {
   "property": "C77",
   "status": "partial",
   "theorems": [
    "Machin.Trpo.C77_backtracks_partial",
    "Machin.Trpo.C77_update_partial",
    "Machin.Trpo.C77_violated_zero_gradient",
    "Machin.Trpo.C77_violated_backtracks",
    "Machin.Trpo.C77_violated"
   ],
   "note": "Violated: line_search_backtracks is never passed; zero gradient returns early without clearing the buffer."
  },
  {
   "property": "C78",
   "status": "partial",
   "theorems": [
    "Machin.Noise.C78_last_parameter_partial",
    "Machin.Noise.C78_violated",
    "Machin.Noise.C78_violated_values"
   ],
   "note": "Violated: hooks close over the loop variables late, only the last parameter is swapped; exact result proved for all parameter counts."
  },
  {
   "property": "C79",
   "status": "partial",
   "theorems": [
    "Machin.Noise.C79_reset_partial",
    "Machin.Noise.C79_shared_generator_partial",
    "Machin.Noise.C79_violated"
   ],
   "note": "Recurrence, reset and shared generator proved; default noise_param=None raises TypeError (C79_violated)."
  },
  {
   "property": "C80",
   "status": "proved",
   "theorems": [
    "Machin.Noise.C80_adaptive",
    "Machin.Noise.C80_direction"
   ],
   "note": "Exact arithmetic over ordered fields."
  },
  {
   "property": "C81",
   "status": "partial",
   "theorems": [
    "Machin.Noise.C81_per_component_partial",
    "Machin.Noise.C81_wrong_number_refused_partial",
    "Machin.Noise.C81_one_tuple_uniform_partial",
    "Machin.Noise.C81_violated"
   ],
   "note": "Violated for one tuple (uniform draws are used); proved for one tuple per component."
  },
  {
   "property": "C82",
   "status": "partial",
   "theorems": [
    "Machin.SafeCall.C82_jit_partial",
    "Machin.SafeCall.C82_violated"
   ],
   "note": "Violated: arguments left out are passed as None (C82_violated); given arguments arrive."
  },
  {
   "property": "C83",
   "status": "partial",
   "theorems": [
    "Machin.Maddpg.C83_td_target_partial",
    "Machin.Maddpg.C83_online_actions_partial",
    "Machin.Maddpg.C83_violated",
    "Machin.Maddpg.C83_violated_values"
   ],
   "note": "Violated: keyword target=True is swallowed, other agents' next actions come from online actors (C83_violated)."
  },
  {
   "property": "C84",
   "status": "partial",
   "theorems": [
    "Machin.Maddpg.C84_policy_loss_partial",
    "Machin.Maddpg.C84_violated",
    "Machin.Maddpg.C84_violated_values"
   ],
   "note": "Violated: the actor is evaluated at the next state (C84_violated); equality when state = next state, structure of the actions proved."
  },
  {
   "property": "C85",
   "status": "partial",
   "theorems": [
    "Machin.Maddpg.C85_update_result_partial",
    "Machin.Maddpg.C85_unseen_partial",
    "Machin.Maddpg.C85_violated"
   ],
   "note": "Violated: sign of the first component (C85_violated); exact result proved."
  },
  {
   "property": "C86",
   "status": "partial",
   "theorems": [
    "Machin.Maddpg.C86_tensors_kept_partial",
    "Machin.Maddpg.C86_violated"
   ],
   "note": "Violated for leaves that are neither tensor nor container (C86_violated)."
  },
  {
   "property": "C87",
   "status": "partial",
   "theorems": [
    "Machin.Maddpg.C87_aligned_partial",
    "Machin.Maddpg.C87_count_checked_partial",
    "Machin.Maddpg.C87_lengths_checked_partial",
    "Machin.Maddpg.C87_violated_mismatch",
    "Machin.Maddpg.C87_violated"
   ],
   "note": "Violated when a call raises half way (C87_violated); proved for histories of successful calls of any length."
  },
  {
   "property": "C88",
   "status": "proved",
   "theorems": [
    "Machin.Dist.C88_store_writes_priorities",
    "Machin.Dist.C88_update_writes_priorities"
   ],
   "note": "Both theorems for all reachable buffers; positions are those of the handle table."
  },
  {
   "property": "C89",
   "status": "partial",
   "theorems": [
    "Machin.Dist.C89_violated",
    "Machin.Dist.C89_local_formula_partial"
   ],
   "note": "Violated: each member divides by its own maximum and uses its own size (witness). Proved: per-member formula with the total sent by the sampler."
  },
  {
   "property": "C90",
   "status": "partial",
   "theorems": [
    "Machin.Dist.C90_violated",
    "Machin.Dist.C90_wrong_number_raises_partial"
   ],
   "note": "Violated: transitions are stored before the priorities are checked. Proved: a wrong number always raises and no leaf is written."
  },
  {
   "property": "C91",
   "status": "proved",
   "theorems": [
    "Machin.Algo.C91_targets",
    "Machin.Algo.C91_total",
    "Machin.Algo.C91_double_le_fixed"
   ],
   "note": "All three modes, row by row, plus totality."
  },
  {
   "property": "C92",
   "status": "proved",
   "theorems": [
    "Machin.Algo.C92_epsilon",
    "Machin.Algo.C92_range",
    "Machin.Algo.C92_choice"
   ],
   "note": "The draw and the random actions are parameters."
  },
  {
   "property": "C93",
   "status": "partial",
   "theorems": [
    "Machin.Algo.C93_violated",
    "Machin.Algo.C93_mean_partial",
    "Machin.Algo.C93_ddpg_partial"
   ],
   "note": "Violated by DDPG: ddpg.py:437 unpacks the tensor of values (act_value, *_ = ...), so only the first row enters the loss. Holds for TD3, HDDPG, DDPGPer, SAC."
  },
  {
   "property": "C94",
   "status": "proved",
   "theorems": [
    "Machin.Algo.C94_ddpg",
    "Machin.Algo.C94_td3",
    "Machin.Algo.C94_sac",
    "Machin.Algo.C94_terminal"
   ],
   "note": "Networks are functions; exact rationals."
  },
  {
   "property": "C95",
   "status": "proved",
   "theorems": [
    "Machin.Algo.C95_range",
    "Machin.Algo.C95_first",
    "Machin.Algo.C95_direction",
    "Machin.Algo.C95_off"
   ],
   "note": "The optimizer is a parameter."
  },
  {
   "property": "C96",
   "status": "proved",
   "theorems": [
    "Machin.Algo.C96_rates_one",
    "Machin.Algo.C96_hysteresis"
   ],
   "note": "Exact rationals."
  },
  {
   "property": "C97",
   "status": "partial",
   "theorems": [
    "Machin.Algo.C97_violated",
    "Machin.Algo.C97_dqn_partial",
    "Machin.Algo.C97_ddpg_partial"
   ],
   "note": "Violated by DDPGPer: ddpg_per.py:154-157 uses the value of the actor's own action, under the critic already changed, instead of the sampled action. Holds for DQNPer."
  },
  {
   "property": "C98",
   "status": "partial",
   "theorems": [
    "Machin.Algo.C98_violated",
    "Machin.Algo.C98_violated_batches",
    "Machin.Algo.C98_single_partial",
    "Machin.Algo.C98_distribution_partial",
    "Machin.Algo.C98_order_partial",
    "Machin.Algo.C98_extreme_partial"
   ],
   "note": "Violated for two or more rows: sample([B, 1]) of a distribution over B rows has B*B elements, view(B, 1) raises. Proved for single rows, with the distribution, order and extreme-row parts for all rows."
  },
  {
   "property": "C103",
   "status": "proved",
   "theorems": [
    "Machin.Algo.C103_at_old",
    "Machin.Algo.C103_lower_bound",
    "Machin.Algo.C103_closed_form",
    "Machin.Algo.C103_no_gain_outside",
    "Machin.Algo.C103_loss",
    "Machin.Algo.C103_loss_at_old"
   ],
   "note": "Over the reals."
  },
  {
   "property": "C105",
   "status": "partial",
   "theorems": [
    "Machin.Algo.C105_violated",
    "Machin.Algo.C105_batch_partial"
   ],
   "note": "Violated for one transition: the unbiased standard deviation is nan. Proved for two or more."
  },
  {
   "property": "C99",
   "status": "partial",
   "theorems": [
    "Machin.Algo.C99_counts_partial",
    "Machin.Algo.C99_violated_sac",
    "Machin.Algo.C99_violated",
    "Machin.Algo.C99_others_partial",
    "Machin.Algo.C99_gail_partial",
    "Machin.Algo.C99_maddpg_partial"
   ],
   "note": "Violated by SAC (C99_violated, C99_violated_sac): update_lr_scheduler (sac.py:399-406) steps the schedulers of actor and critic only; those of critic2 and alpha are never advanced. The partial theorems prove the claim for the other algorithms."
  },
  {
   "property": "C100",
   "status": "partial",
   "theorems": [
    "Machin.Algo.C100_violated_default",
    "Machin.Algo.C100_violated_impala",
    "Machin.Algo.C100_violated_maddpg",
    "Machin.Algo.C100_violated",
    "Machin.Algo.C100_default_partial",
    "Machin.Algo.C100_given_partial",
    "Machin.Algo.C100_entry_partial",
    "Machin.Algo.C100_maddpg_partial",
    "Machin.Algo.C100_maddpg_exact_partial"
   ],
   "note": "Violated: PPO, TRPO, IMPALA, DQNApex, DDPGApex use the default () and raise IndexError, IMPALA configured with None raises TypeError, MADDPG passes keyword names as positional arguments. Partial theorems: the algorithms whose defaults fit, all algorithms with full tuples, MADDPG without keywords."
  },
  {
   "property": "C101",
   "status": "partial",
   "theorems": [
    "Machin.Algo.C101_violated",
    "Machin.Algo.C101_violated_second",
    "Machin.Algo.C101_kept_partial"
   ],
   "note": "Violated: DDPG, HDDPG, TD3, DDPGPer and SAC replace the classes in the caller's configuration, a second call raises TypeError. Partial: all others leave it unchanged."
  },
  {
   "property": "C102",
   "status": "partial",
   "theorems": [
    "Machin.Algo.C102_violated_unknown",
    "Machin.Algo.C102_violated",
    "Machin.Algo.C102_violated_silent",
    "Machin.Algo.C102_class_partial",
    "Machin.Algo.C102_called_partial",
    "Machin.Algo.C102_kind_partial",
    "Machin.Algo.C102_criterion_partial",
    "Machin.Algo.C102_models_partial"
   ],
   "note": "Violated: a name without a dot that is found nowhere gives None without exception (C102_violated_unknown), so a misspelt scheduler is silently ignored (C102_violated_silent). Partial: which object classes, criteria and models resolve to; unknown model names are refused."
  },
  {
   "property": "C104",
   "status": "partial",
   "theorems": [
    "Machin.Algo.C104_ratio_partial",
    "Machin.Algo.C104_no_update_partial",
    "Machin.Algo.C104_exception_partial",
    "Machin.Algo.C104_violated_lost",
    "Machin.Algo.C104_violated"
   ],
   "note": "Violated: when the evaluation with the old actor raises, self.actor stays the temporary copy and is never trained again (C104_violated_lost). Partial: every update without exception, any number of iterations."
  },
  {
   "property": "C106",
   "status": "partial",
   "theorems": [
    "Machin.Algo.C106_violated_never",
    "Machin.Algo.C106_violated_actor",
    "Machin.Algo.C106_violated",
    "Machin.Algo.C106_rest_partial",
    "Machin.Algo.C106_policy_partial"
   ],
   "note": "Violated: discriminator_optim is built with the parameters of the actor (gail.py:160-162): the discriminator never changes (C106_violated_never), the actor is moved by left-over gradients (C106_violated_actor). Partial: where the gradient goes, what stays untouched."
  },
  {
   "property": "C107",
   "status": "partial",
   "theorems": [
    "Machin.Algo.C107_violated_dropped",
    "Machin.Algo.C107_violated",
    "Machin.Algo.C107_dicts_partial"
   ],
   "note": "Violated: the comprehension keeps dictionaries only (C107_violated_dropped). Partial: episodes of dictionaries."
  },
  {
   "property": "C108",
   "status": "partial",
   "theorems": [
    "Machin.Algo.C108_managed_partial",
    "Machin.Algo.C108_single_rate_partial",
    "Machin.Algo.C108_one_scheduler_partial",
    "Machin.Algo.C108_violated_scheduler",
    "Machin.Algo.C108_violated_a3c",
    "Machin.Algo.C108_violated_int",
    "Machin.Algo.C108_violated",
    "Machin.Algo.C108_violated_short"
   ],
   "note": "Violated: with a scheduler and two models the variable optimizer is rebound and called (TypeError); an int rate cannot be zipped; short lists leave servers unmanaged without notice. Partial: no scheduler, or one model."
  },
  {
   "property": "C109",
   "status": "partial",
   "theorems": [
    "Machin.Algo.C109_violated_critic",
    "Machin.Algo.C109_violated",
    "Machin.Algo.C109_violated_thread",
    "Machin.Algo.C109_last_partial"
   ],
   "note": "Violated: the creators are closures over comprehension variables, both servers manage a critic. Partial: the last model is right."
  },
  {
   "property": "C110",
   "status": "partial",
   "theorems": [
    "Machin.Algo.C110_violated_only_primary",
    "Machin.Algo.C110_violated",
    "Machin.Algo.C110_primary_partial",
    "Machin.Algo.C110_violated_stuck",
    "Machin.Algo.C110_violated_restart"
   ],
   "note": "Violated: only the primary reducer starts its thread, while push chooses among all members; gradients pushed to other members wait for ever in every run (C110_violated_stuck). Partial: the primary reducer runs."
  },
  {
   "property": "C111",
   "status": "partial",
   "theorems": [
    "Machin.Algo.C111_violated_last",
    "Machin.Algo.C111_violated_flag",
    "Machin.Algo.C111_violated_sync",
    "Machin.Algo.C111_violated",
    "Machin.Algo.C111_rest_partial"
   ],
   "note": "Violated: only the gradient of the last iteration is sent, update_policy=False still sends, an exception leaves synchronisation off, the losses are not returned. Partial: parameters, cleared gradients, synchronisation after a normal update."
  },
  {
   "property": "C112",
   "status": "partial",
   "theorems": [
    "Machin.Proc.C112_collected_partial",
    "Machin.Proc.C112_violated_silent",
    "Machin.Proc.C112_violated_second",
    "Machin.Proc.C112_violated_deadlock",
    "Machin.Proc.C112_violated",
    "Machin.Proc.C112_first_partial",
    "Machin.Proc.C112_exception_partial",
    "Machin.Proc.C112_released_partial",
    "Machin.Proc.C112_thread_partial"
   ],
   "note": "Holds for the first watch with a message that fits into the pipe, for the property exception, and for threads. Violated: reading exception (or a first watch) silences later calls of watch, and watch waits for ever in join if the message is larger than the pipe."
  },
  {
   "property": "C113",
   "status": "partial",
   "theorems": [
    "Machin.Proc.C113_violated_other",
    "Machin.Proc.C113_violated_race",
    "Machin.Proc.C113_violated_empty",
    "Machin.Proc.C113_violated",
    "Machin.Proc.C113_loop_partial",
    "Machin.Proc.C113_reported_partial"
   ],
   "note": "Violated: one process that ended normally ends the supervision of the others; a failure between the two calls of one round is taken for a normal end; no process at all: endless loop. Proved: only failures are reported, which failures can be lost, and when a failure is reported."
  },
  {
   "property": "C114",
   "status": "partial",
   "theorems": [
    "Machin.Checker.C114_violated_name",
    "Machin.Checker.C114_violated_skipped",
    "Machin.Checker.C114_violated",
    "Machin.Checker.C114_modules_partial"
   ],
   "note": "Violated: names are compared as strings, so fc10 is skipped after fc1. Proved: only wanted modules are checked, all of them if names that begin alike are nested."
  },
  {
   "property": "C115",
   "status": "partial",
   "theorems": [
    "Machin.Checker.C115_violated_input",
    "Machin.Checker.C115_violated_variadic",
    "Machin.Checker.C115_violated_output",
    "Machin.Checker.C115_violated_scalar",
    "Machin.Checker.C115_violated_param",
    "Machin.Checker.C115_violated_unnoticed",
    "Machin.Checker.C115_violated",
    "Machin.Checker.C115_values_partial"
   ],
   "note": "Violated: input names are shifted by self, only the first row of a single output tensor is checked, only the last parameter is checked (late binding). Proved: no calls outside due passes, all inputs are seen, tuples are complete, single parameters are right."
  },
  {
   "property": "C116",
   "status": "partial",
   "theorems": [
    "Machin.Assign.C116_size_partial",
    "Machin.Assign.C116_violated_complex",
    "Machin.Assign.C116_violated_refused",
    "Machin.Assign.C116_violated"
   ],
   "note": "Violated for complex32 (twice the size) and for bfloat16, complex64 and complex128 (refused). Proved for all other types."
  },
  {
   "property": "C117",
   "status": "partial",
   "theorems": [
    "Machin.Assign.C117_violated_capacity",
    "Machin.Assign.C117_violated_index",
    "Machin.Assign.C117_violated",
    "Machin.Assign.C117_devices_partial",
    "Machin.Assign.C117_distance_partial",
    "Machin.Assign.C117_connection_partial"
   ],
   "note": "Violated: only totals are compared, and the device cuda without index is thrown out. Proved: devices used are available and non-empty, order kept, exact condition of the check, distances."
  },
  {
   "property": "C118",
   "status": "partial",
   "theorems": [
    "Machin.Assign.C118_violated_unconnected",
    "Machin.Assign.C118_violated",
    "Machin.Assign.C118_numbers_partial",
    "Machin.Assign.C118_total_partial",
    "Machin.Assign.C118_largest_partial",
    "Machin.Assign.C118_nan_partial"
   ],
   "note": "Violated for tables without connections: the first division 0/0 makes everything nan and argmax chooses the first device. Proved: entries stay numbers if the connection cost is divided by a non-zero total."
  },
  {
   "property": "C119",
   "status": "partial",
   "theorems": [
    "Machin.Queue.C119_violated_lock",
    "Machin.Queue.C119_violated",
    "Machin.Queue.C119_clock_partial",
    "Machin.Queue.C119_order_partial"
   ],
   "note": "Violated: the timeout does not cover the wait for the lock of the readers. Proved for all interleavings: exactly once, in order, one reader at a time, and a reader inside poll can return after its timeout."
  },
  {
   "property": "C120",
   "status": "partial",
   "theorems": [
    "Machin.Queue.C120_violated_starved",
    "Machin.Queue.C120_violated",
    "Machin.Queue.C120_order_partial",
    "Machin.Queue.C120_served_partial",
    "Machin.Queue.C120_turns_partial"
   ],
   "note": "Violated: every quick_get begins with the first sub-queue, so later ones can starve. Proved for all interleavings: exactly once and in order per sub-queue, round robin of quick_put, service when the earlier sub-queues are empty."
  },
  {
   "property": "C121",
   "status": "proved",
   "theorems": [
    "Machin.Auto.C121_played",
    "Machin.Auto.C121_connected",
    "Machin.Auto.C121_read"
   ],
   "note": "For both datasets: transitions are the steps played, connected, terminal only at the end, logs as described (C121_played, C121_connected); conversely every finite episode is read (C121_read). Environment, policy and rendering are parameters."
  },
  {
   "property": "C122",
   "status": "proved",
   "theorems": [
    "Machin.Auto.C122_rendered",
    "Machin.Auto.C122_every",
    "Machin.Auto.C122_zero"
   ],
   "note": "C122_rendered (pictures before the steps), C122_every (by induction over the items read), C122_zero (0 does not switch rendering off but fails)."
  },
  {
   "property": "C123",
   "status": "partial",
   "theorems": [
    "Machin.Auto.C123_violated_exception",
    "Machin.Auto.C123_violated",
    "Machin.Auto.C123_synced_partial",
    "Machin.Auto.C123_off_partial"
   ],
   "note": "Violated: after an exception within an episode the algorithm stays unsynchronised (C123_violated_exception, C123_violated), and a setting the user had switched off is switched on. Holds: after an item has been read the algorithm synchronises (C123_synced_partial); it does not during the episode (C123_off_partial)."
  },
  {
   "property": "C124",
   "status": "partial",
   "theorems": [
    "Machin.Auto.C124_violated_refused",
    "Machin.Auto.C124_violated",
    "Machin.Auto.C124_available_partial",
    "Machin.Auto.C124_disc_partial",
    "Machin.Auto.C124_cont_partial"
   ],
   "note": "Violated: TRPO and MADDPG are listed as available, but both datasets refuse them (C124_violated_refused). Holds for all others (C124_disc_partial, C124_cont_partial); the list is complete (C124_available_partial)."
  },
  {
   "property": "C125",
   "status": "partial",
   "theorems": [
    "Machin.Auto.C125_violated_stored",
    "Machin.Auto.C125_violated_refused",
    "Machin.Auto.C125_violated_given",
    "Machin.Auto.C125_violated",
    "Machin.Auto.C125_same_partial",
    "Machin.Auto.C125_tuple_partial"
   ],
   "note": "Violated: for DDPG, DDPGPer, HDDPG, TD3, DDPGApex with an actor without further outputs [0] takes the first row, the stored action has no batch dimension (C125_violated_stored) and the Transition refuses it unless d = 1 (C125_violated_refused); for A2C, PPO, SAC, GAIL, A3C, IMPALA the environment is given shape [1, d] (C125_violated_given). Holds: stored and given action are the same (C125_same_partial), tuples (C125_tuple_partial)."
  },
  {
   "property": "C126",
   "status": "partial",
   "theorems": [
    "Machin.Auto.C126_violated_assert",
    "Machin.Auto.C126_violated",
    "Machin.Auto.C126_kind_partial",
    "Machin.Auto.C126_precision_partial"
   ],
   "note": "Violated: MultiDiscrete and MultiBinary action spaces end in an AssertionError instead of the ValueError (C126_violated_assert). Holds: kinds otherwise (C126_kind_partial), precision (C126_precision_partial)."
  },
  {
   "property": "C127",
   "status": "partial",
   "theorems": [
    "Machin.Auto.C127_order_partial",
    "Machin.Auto.C127_no_updates_partial",
    "Machin.Auto.C127_empty_partial",
    "Machin.Auto.C127_violated_onpolicy",
    "Machin.Auto.C127_violated",
    "Machin.Auto.C127_single_partial",
    "Machin.Auto.C127_finishes_partial",
    "Machin.Auto.C127_violated_store"
   ],
   "note": "Violated for A2C, A3C, PPO, TRPO, GAIL: the first update clears the buffer, the second raises IndexError, for every history, all settings and every episode of at least two transitions (C127_violated_onpolicy, C127_violated); ARS and MADDPG have no store_episode (C127_violated_store). Holds: order of events of every finished step (C127_order_partial), algorithms whose store and update do not fail (C127_finishes_partial), episodes of one transition (C127_single_partial)."
  },
  {
   "property": "C128",
   "status": "proved",
   "theorems": [
    "Machin.Auto.C128_order",
    "Machin.Auto.C128_barrier"
   ],
   "note": "C128_order: the whole sequence of events of a finished step; C128_barrier: the barrier is passed last and only by finished steps."
  },
  {
   "property": "C129",
   "status": "partial",
   "theorems": [
    "Machin.Auto.C129_violated_short",
    "Machin.Auto.C129_violated",
    "Machin.Auto.C129_handled_partial"
   ],
   "note": "Violated: tuples with fewer than two parts raise IndexError and lose the entries behind them (C129_violated_short). Holds otherwise (C129_handled_partial)."
  },
  {
   "property": "C130",
   "status": "partial",
   "theorems": [
    "Machin.Media.C130_file",
    "Machin.Media.C130_violated_zero",
    "Machin.Media.C130_violated",
    "Machin.Media.C130_violated_mixed",
    "Machin.Media.C130_distinct_partial"
   ],
   "note": "Violated: step 0 counts as not given, steps -1, 0, 1 write one file twice (C130_violated_zero); a call with step 1 and a later one without step meet (C130_violated_mixed). C130_file gives the name for every call; C130_distinct_partial the cases in which files differ."
  },
  {
   "property": "C131",
   "status": "proved",
   "theorems": [
    "Machin.Media.C131_first_free",
    "Machin.Media.C131_kept"
   ],
   "note": "C131_first_free (termination by the pigeonhole principle, first free number, nothing overwritten), C131_kept (induction over the artifacts)."
  },
  {
   "property": "C132",
   "status": "partial",
   "theorems": [
    "Machin.Media.C132_violated_empty",
    "Machin.Media.C132_violated",
    "Machin.Media.C132_ends_partial",
    "Machin.Media.C132_wait_partial"
   ],
   "note": "Violated: without frames the temporary file stays empty and the loop never ends (C132_violated_empty). Holds with at least one frame (C132_ends_partial); the loop by itself: C132_wait_partial. The gym datasets never log an empty video."
  },
  {
   "property": "C133",
   "status": "proved",
   "theorems": [
    "Machin.Media.C133_float_color",
    "Machin.Media.C133_float_grey",
    "Machin.Media.C133_integer",
    "Machin.Media.C133_size"
   ],
   "note": "C133_integer, C133_float_color, C133_float_grey, C133_size, over exact rationals; the C conversion of values out of range is not claimed."
  },
  {
   "property": "C134",
   "status": "partial",
   "theorems": [
    "Machin.Media.C134_violated_float",
    "Machin.Media.C134_violated",
    "Machin.Media.C134_again_partial",
    "Machin.Media.C134_bytes_partial"
   ],
   "note": "Violated: the converted frames replace the caller's (C134_violated_float). Holds: a second call writes the same frames (C134_again_partial), bytes in colour are not changed (C134_bytes_partial)."
  },
  {
   "property": "C135",
   "status": "partial",
   "theorems": [
    "Machin.Media.C135_violated_file",
    "Machin.Media.C135_violated",
    "Machin.Media.C135_removed_partial",
    "Machin.Media.C135_age_partial",
    "Machin.Media.C135_threshold"
   ],
   "note": "Violated: an old entry that is not a directory ends the call, later old trials stay (C135_violated_file). Holds if old entries are directories (C135_removed_partial); the age is taken from the name, at most one second off (C135_age_partial); C135_threshold."
  },
  {
   "property": "C136",
   "status": "partial",
   "theorems": [
    "Machin.Media.C136_violated_second",
    "Machin.Media.C136_violated",
    "Machin.Media.C136_distinct_partial",
    "Machin.Media.C136_restart_partial"
   ],
   "note": "Violated: within one second the directory is shared (C136_violated_second). Holds: a second or more apart (C136_distinct_partial), restarted trials (C136_restart_partial)."
  },
  {
   "property": "C137",
   "status": "partial",
   "theorems": [
    "Machin.Batch.C137_blocks",
    "Machin.Batch.C137_refused",
    "Machin.Batch.C137_violated_mixed",
    "Machin.Batch.C137_violated",
    "Machin.Batch.C137_tensors_partial",
    "Machin.Batch.C137_numbers_partial",
    "Machin.Batch.C137_plain_partial",
    "Machin.Batch.C137_aligned_partial"
   ],
   "note": "Holds for lists of tensors of equal trailing shape, lists of numbers and plain lists. A list that mixes numbers with tensors does not give one row per item: C137_violated_mixed."
  },
  {
   "property": "C138",
   "status": "partial",
   "theorems": [
    "Machin.Batch.C138_own_partial",
    "Machin.Batch.C138_numbers_partial",
    "Machin.Batch.C138_violated_flat",
    "Machin.Batch.C138_violated_terminal",
    "Machin.Batch.C138_violated",
    "Machin.Batch.C138_violated_loss"
   ],
   "note": "Holds for rewards and flags stored as numbers or as tensors with two dimensions (C138_own_partial). Rewards or flags stored as tensors of shape [1], which Transition accepts, give a square of targets (C138_violated_flat, C138_violated_terminal), and the least squares solution becomes the target of the average reward of the batch (C138_violated_loss)."
  },
  {
   "property": "C139",
   "status": "partial",
   "theorems": [
    "Machin.Create.C139_safety",
    "Machin.Create.C139_violated_start",
    "Machin.Create.C139_violated",
    "Machin.Create.C139_violated_waits",
    "Machin.Create.C139_all_return_partial"
   ],
   "note": "C139_safety holds in all interleavings: a process returns only after all members entered with one list. C139_violated: a member or the look-up table process may be polled before its WORLD is assigned, then the leader fails with an AttributeError and the other members wait forever (C139_violated_waits). C139_all_return_partial: if every process has started, all members return."
  },
  {
   "property": "C140",
   "status": "partial",
   "theorems": [
    "Machin.Act.C140_violated_defaults",
    "Machin.Act.C140_violated",
    "Machin.Act.C140_tuple_partial",
    "Machin.Act.C140_default_partial",
    "Machin.Act.C140_unknown_partial",
    "Machin.Act.C140_columns_partial",
    "Machin.Act.C140_refused_partial",
    "Machin.Act.C140_clipped_partial",
    "Machin.Act.C140_short_partial"
   ],
   "note": "C140_violated: with the default noise parameter mode clipped_normal raises an IndexError and mode ou (no generator yet) a TypeError. Partial: formulas and shapes of uniform and normal noise for one tuple and one tuple per column, wrong number of tuples, unknown modes."
  },
  {
   "property": "C141",
   "status": "partial",
   "theorems": [
    "Machin.Act.C141_violated_rows",
    "Machin.Act.C141_violated_agents",
    "Machin.Act.C141_violated",
    "Machin.Act.C141_one_shape_partial",
    "Machin.Act.C141_other_modes_partial",
    "Machin.Act.C141_maddpg_partial"
   ],
   "note": "C141_violated: the shared generator keeps the shape of the first action, so a later action for one state becomes a batch, and MADDPG agents with different action widths raise an exception. Partial: actions of one shape; other modes always keep the shape."
  },
  {
   "property": "C142",
   "status": "partial",
   "theorems": [
    "Machin.Act.C142_same_partial",
    "Machin.Act.C142_default_partial",
    "Machin.Act.C142_others_partial",
    "Machin.Act.C142_violated_probability",
    "Machin.Act.C142_network_partial",
    "Machin.Act.C142_violated"
   ],
   "note": "C142_violated: DDPGApex.act_discrete_with_noise does not hand on choose_max_prob, so the wanted probability is ignored. Partial: all other methods, and this one with the default; A3C and IMPALA."
  },
  {
   "property": "C143",
   "status": "proved",
   "theorems": [
    "Machin.Act.C143_rainbow",
    "Machin.Act.C143_rainbow_bounds_aux",
    "Machin.Act.C143_rainbow_bounds",
    "Machin.Act.C143_rainbow_noise",
    "Machin.Act.C143_ddpg"
   ],
   "note": "First maximum of expected values, bounds of the expected value, exploration, DDPG greedy actions and refusal."
  },
  {
   "property": "C144",
   "status": "proved",
   "theorems": [
    "Machin.Ars.C144_types",
    "Machin.Ars.C144_other",
    "Machin.Ars.C144_generated",
    "Machin.Ars.C144_gathered"
   ],
   "note": "int() of the type is modelled for decimal numbers; parameter names are distinct."
  },
  {
   "property": "C145",
   "status": "partial",
   "theorems": [
    "Machin.Ars.C145_used_iff_partial",
    "Machin.Ars.C145_number_partial",
    "Machin.Ars.C145_violated_ties",
    "Machin.Ars.C145_violated"
   ],
   "note": "Violated by ties: with equal best rewards all of them are used, whatever used_rollout_num is. Proved: a rollout is used exactly if fewer than used_rollout_num are better; at least as many as asked for, exactly as many without ties; unused ones are strictly worse. Percentile with exact arithmetic; used_rollout_num = 0 uses the best rollout."
  },
  {
   "property": "C146",
   "status": "proved",
   "theorems": [
    "Machin.Ars.C146_perturbed",
    "Machin.Ars.C146_step",
    "Machin.Ars.C146_missing"
   ],
   "note": "Exact arithmetic; optimizer SGD without momentum; std and isclose are arbitrary functions, so the result holds for those of numpy."
  },
  {
   "property": "C147",
   "status": "partial",
   "theorems": [
    "Machin.Ars.C147_units_partial",
    "Machin.Ars.C147_np_partial",
    "Machin.Ars.C147_violated_tiny",
    "Machin.Ars.C147_violated"
   ],
   "note": "Violated when the deviation falls below the absolute tolerance 1e-8 of np.isclose: then rewards are not divided at all (witness: a step of 2 becomes one of 1e-9). Proved when the deviation is above the tolerance in both units, for np.std."
  },
  {
   "property": "C148",
   "status": "partial",
   "theorems": [
    "Machin.Ars.C148_fresh_partial",
    "Machin.Ars.C148_act_partial",
    "Machin.Ars.C148_violated_twice",
    "Machin.Ars.C148_violated"
   ],
   "note": "Violated: act replaces the entries of the caller's dictionary, so using it again normalises twice, and filters are updated before an invalid type is refused. Proved: without normalisation nothing changes; with it, keys, order, values and the filters after the call are exactly the documented ones."
  },
  {
   "property": "C149",
   "status": "partial",
   "theorems": [
    "Machin.Step.C149_violated_td3",
    "Machin.Step.C149_violated_sac",
    "Machin.Step.C149_violated_dqn",
    "Machin.Step.C149_violated_gail",
    "Machin.Step.C149_violated",
    "Machin.Step.C149_hooked_partial"
   ],
   "note": "Violated by TD3, SAC, DQN vanilla (loss.backward()) and by the inner PPO or TRPO of GAIL, which keeps its own backward function (C149_violated, C149_violated_td3, _sac, _dqn, _gail); proved for DDPG, HDDPG, DDPG-PER, DQN fixed_target and double, DQN-PER, RAINBOW, A2C, PPO, IMPALA and the discriminator of GAIL (C149_hooked_partial)."
  },
  {
   "property": "C150",
   "status": "partial",
   "theorems": [
    "Machin.Step.C150_ddpg",
    "Machin.Step.C150_td3",
    "Machin.Step.C150_sac",
    "Machin.Step.C150_double",
    "Machin.Step.C150_modes",
    "Machin.Step.C150_a2c",
    "Machin.Step.C150_gail_partial",
    "Machin.Step.C150_violated_discriminator",
    "Machin.Step.C150_impala",
    "Machin.Step.C150_violated"
   ],
   "note": "One theorem for each family of algorithms; proved for all but GAIL. GAIL is characterised exactly by C150_gail_partial; its discriminator is not trained, since its optimizer was built with the parameters of the actor (gail.py:160-162, see C106). DQN with mode fixed_target and update_steps raises a TypeError, which is part of C150_modes."
  },
  {
   "property": "C151",
   "status": "partial",
   "theorems": [
    "Machin.Step.C151_violated_sequential",
    "Machin.Step.C151_violated_lost",
    "Machin.Step.C151_violated_error",
    "Machin.Step.C151_violated",
    "Machin.Step.C151_alone",
    "Machin.Step.C151_single_partial",
    "Machin.Step.C151_schedules_partial"
   ],
   "note": "Violated for two or more sub-policies, whose workers share the critic: a gradient is lost and another applied twice (C151_violated_lost against C151_violated_sequential), or a RuntimeError because the critic was changed in place between forward and backward pass (C151_violated_error). Proved for one sub-policy per agent, for all schedules (C151_single_partial, C151_schedules_partial)."
  },
  {
   "property": "C152",
   "status": "partial",
   "theorems": [
    "Machin.Step.C152_violated_twice",
    "Machin.Step.C152_violated",
    "Machin.Step.C152_single_partial"
   ],
   "note": "Violated for two or more sub-policies: every sub-policy moves the target of the common critic (C152_violated, C152_violated_twice). Proved for one sub-policy per agent (C152_single_partial)."
  },
  {
   "property": "C153",
   "status": "partial",
   "theorems": [
    "Machin.Batch.C153_violated_product",
    "Machin.Batch.C153_violated",
    "Machin.Batch.C153_column_partial",
    "Machin.Batch.C153_equal_partial"
   ],
   "note": "Violated by RAINBOW: the losses have one dimension, the weights are a column, so the product is a square and its mean is the mean loss times the mean weight (C153_violated_product, C153_violated). Proved for columns (C153_column_partial) and for RAINBOW with equal weights (C153_equal_partial)."
  },
  {
   "property": "C154",
   "status": "proved",
   "theorems": [
    "Machin.ResNet.C154_block",
    "Machin.ResNet.C154_layer",
    "Machin.ResNet.C154_kernels",
    "Machin.ResNet.C154_planes"
   ],
   "note": "Shapes only; what convolutions compute is not modelled."
  },
  {
   "property": "C155",
   "status": "partial",
   "theorems": [
    "Machin.ResNet.C155_exact_partial",
    "Machin.ResNet.C155_violated_deep",
    "Machin.ResNet.C155_refused",
    "Machin.ResNet.C155_violated",
    "Machin.ResNet.C155_depth"
   ],
   "note": "Violated: networks of depth 50, 101 and 152 refuse every image, since fc is made for 512 planes and the bottleneck blocks give 2048 (resnet.py:320); pooling sizes 4, 5 and 6 refuse every image, since the kernel is rounded down to 1. C155_exact_partial says exactly which networks work."
  },
  {
   "property": "C156",
   "status": "partial",
   "theorems": [
    "Machin.Config.C156_cmd_partial",
    "Machin.Config.C156_none",
    "Machin.Config.C156_violated_sign",
    "Machin.Config.C156_violated"
   ],
   "note": "Violated: a text with '=' in it (dict(a=1), a string with '=') raises ValueError, since the argument is split at every sign. Proved for texts without it."
  },
  {
   "property": "C157",
   "status": "partial",
   "theorems": [
    "Machin.Config.C157_roundtrip_partial",
    "Machin.Config.C157_violated_tuple",
    "Machin.Config.C157_violated_key",
    "Machin.Config.C157_violated_lost",
    "Machin.Config.C157_error_partial",
    "Machin.Config.C157_sorted_partial",
    "Machin.Config.C157_violated",
    "Machin.Config.C157_normal_partial",
    "Machin.Config.C157_unchanged_partial"
   ],
   "note": "Violated: tuples come back as lists, keys that are no strings as strings; an error while saving leaves a broken file where a good one was. Proved: what is loaded for every value that can be saved (C157_normal_partial), the exact condition for it to be what was saved and stability of what was loaded once (C157_unchanged_partial, C157_roundtrip_partial), when saving raises (C157_error_partial), order in the file (C157_sorted_partial)."
  },
  {
   "property": "C158",
   "status": "partial",
   "theorems": [
    "Machin.Noise.C158_pairs_partial",
    "Machin.Noise.C158_deviation_partial",
    "Machin.Noise.C158_same_partial",
    "Machin.Noise.C158_violated",
    "Machin.Noise.C158_noise_partial"
   ],
   "note": "Violated: the last noisy output is compared with the next output without noise, whatever their inputs. Proved: exactly which passes are compared and which deviation every pass meets; the full property if neighbouring passes of different kinds have the same input."
  },
  {
   "property": "C159",
   "status": "partial",
   "theorems": [
    "Machin.Trpo.C159_direct_discrete",
    "Machin.Trpo.C159_direct_continuous",
    "Machin.Trpo.C159_fim_discrete",
    "Machin.Trpo.C159_fim_continuous",
    "Machin.Trpo.C159_continuous_partial",
    "Machin.Trpo.C159_discrete_partial",
    "Machin.Trpo.C159_positive_discrete",
    "Machin.Trpo.C159_positive_continuous",
    "Machin.Trpo.C159_violated_discrete",
    "Machin.Trpo.C159_violated_continuous",
    "Machin.Trpo.C159_violated"
   ],
   "note": "The direct mode is proved to multiply with the damped Fisher matrix for both actors, and positivity holds in both modes. Agreement of the modes is violated: fim weighs discrete actions with p instead of 1/p, and leaves out the block of action_log_std (only damping remains there); the exact difference is proved."
  },
  {
   "property": "C160",
   "status": "partial",
   "theorems": [
    "Machin.Dirs.C160_clear_partial",
    "Machin.Dirs.C160_empty_partial",
    "Machin.Dirs.C160_missing",
    "Machin.Dirs.C160_several_partial",
    "Machin.Dirs.C160_violated"
   ],
   "note": "Exact law: what remains below the directory are the sockets, pipes and devices directly in it, which neither isfile, islink nor isdir holds of; otherwise empty. Full statement violated by these."
  },
  {
   "property": "C161",
   "status": "partial",
   "theorems": [
    "Machin.Dirs.C161_create_partial",
    "Machin.Dirs.C161_works",
    "Machin.Dirs.C161_relative_partial",
    "Machin.Dirs.C161_trial_dirs",
    "Machin.Dirs.C161_sub_dirs",
    "Machin.Dirs.C161_clear_apart",
    "Machin.Dirs.C161_clear_own",
    "Machin.Dirs.C161_trial_root",
    "Machin.Dirs.C161_violated_file",
    "Machin.Dirs.C161_violated_absolute",
    "Machin.Dirs.C161_violated"
   ],
   "note": "Creation law, success condition, sub directories and independence of the four directories are proved. Violated: a regular file in the place of a directory passes without error (os.path.exists), and an absolute name in create_dirs leads out of the trial root."
  },
  {
   "property": "C162",
   "status": "partial",
   "theorems": [
    "Machin.EnvWrap.C162_dummy_exact_partial",
    "Machin.EnvWrap.C162_dummy_partial",
    "Machin.EnvWrap.C162_same_seed",
    "Machin.EnvWrap.C162_sub_partial",
    "Machin.EnvWrap.C162_sub_short",
    "Machin.EnvWrap.C162_violated_dummy",
    "Machin.EnvWrap.C162_violated_stale",
    "Machin.EnvWrap.C162_violated"
   ],
   "note": "Proved for lists of the right size and environments with seed. Violated: the wrapper without processes cuts lists silently and skips environments without seed, so answers shift; in the wrapper with processes a short list raises IndexError after the first commands are sent, and the next call takes the stale answers."
  },
  {
   "property": "C163",
   "status": "partial",
   "theorems": [
    "Machin.EnvWrap.C163_render_partial",
    "Machin.EnvWrap.C163_dummy_refuses",
    "Machin.EnvWrap.C163_dummy_index",
    "Machin.EnvWrap.C163_violated"
   ],
   "note": "Equal for selections without terminal environments. Violated: the wrapper without processes raises GymTerminationError (for all environments at once if any is terminal), the other one renders."
  },
  {
   "property": "C164",
   "status": "partial",
   "theorems": [
    "Machin.EnvWrap.C164_close_partial",
    "Machin.EnvWrap.C164_twice",
    "Machin.EnvWrap.C164_after",
    "Machin.EnvWrap.C164_violated_raise",
    "Machin.EnvWrap.C164_violated",
    "Machin.EnvWrap.C164_dummy"
   ],
   "note": "Proved when no environment raises on close. Violated: if one raises, _closed is already set, no worker is told to end, and the next close returns at once. Also proved: a call after close waits for ever."
  },
  {
   "property": "C165",
   "status": "partial",
   "theorems": [
    "Machin.Frames.C165_partial",
    "Machin.Frames.C165_ignored",
    "Machin.Frames.C165_handed",
    "Machin.Frames.C165_ignored_settings",
    "Machin.Frames.C165_violated_at",
    "Machin.Frames.C165_violated",
    "Machin.Frames.C165_violated_rainbow",
    "Machin.Frames.C165_violated_dqnPer",
    "Machin.Frames.C165_violated_trpo",
    "Machin.Frames.C165_violated_defaults"
   ],
   "note": "Violated: DDPGApex ignores learning_rate, DQNPer mode, RAINBOW criterion, criterion_args, criterion_kwargs and mode, TRPO actor_update_times. Partial: all other settings take effect, these have none; every setting is handed on under its own name."
  },
  {
   "property": "C166",
   "status": "proved",
   "theorems": [
    "Machin.Frames.C166_wrong_number",
    "Machin.Frames.C166_too_few",
    "Machin.Frames.C166_gail"
   ],
   "note": "Full statement proved; frameworks that pass groups and servers after the models do not refuse too many models at the call (the further arguments are dropped)."
  },
  {
   "property": "C167",
   "status": "partial",
   "theorems": [
    "Machin.Frames.C167_partial",
    "Machin.Frames.C167_violated"
   ],
   "note": "Violated: the discriminator of GAIL is never moved. Partial: all other frameworks."
  },
  {
   "property": "C168",
   "status": "partial",
   "theorems": [
    "Machin.Frames.C168_partial",
    "Machin.Frames.C168_violated",
    "Machin.Frames.C168_violated_ars",
    "Machin.Frames.C168_violated_all"
   ],
   "note": "Violated: A3C and ARS generate no batch_num, init_frame raises KeyError. Partial: the frameworks with roles."
  },
  {
   "property": "C169",
   "status": "proved",
   "theorems": [
    "Machin.Frames.C169_roles",
    "Machin.Frames.C169_count",
    "Machin.Frames.C169_others"
   ],
   "note": "Full statement proved."
  },
  {
   "property": "C170",
   "status": "partial",
   "theorems": [
    "Machin.Group.C170_violated",
    "Machin.Group.C170_violated_buffers",
    "Machin.Group.C170_violated_grad",
    "Machin.Group.C170_violated_ordered",
    "Machin.Group.C170_order_partial",
    "Machin.Group.C170_servers_partial",
    "Machin.Group.C170_use_partial",
    "Machin.Group.C170_partial"
   ],
   "note": "Violated. Both distributed buffers set the lock that all their services take after the services are registered, so every request before the end of the constructor raises AttributeError (C170_violated, C170_violated_buffers for every moment). The gradient server is visible before its queues exist (C170_violated_grad); the accessor of an ordered server is paired before its services are registered (C170_violated_ordered). Proved: when a constructor has ended everything works; the services of ordered and model servers work from their registration on; and for every constructor the services work at all times exactly if what they read is set before they are registered (C170_order_partial)."
  },
  {
   "property": "C171",
   "status": "proved",
   "theorems": [
    "Machin.Group.C171_tuple",
    "Machin.Group.C171_no_error",
    "Machin.Group.C171_returns",
    "Machin.Group.C171_outside"
   ],
   "note": "The barrier is the ideal one (its safety is C38_safety); the creation of the group is C139. C171_outside: a process outside the list that enters, as the documentation asks, gets RuntimeError."
  },
  {
   "property": "C172",
   "status": "proved",
   "theorems": [
    "Machin.Group.C172_rank",
    "Machin.Group.C172_order",
    "Machin.Group.C172_receive",
    "Machin.Group.C172_source",
    "Machin.Group.C172_outside",
    "Machin.Group.C172_wrong_source",
    "Machin.Group.C172_world",
    "Machin.Group.C172_destroy"
   ],
   "note": "torch.distributed is modelled by its documented behaviour (numbering of new_group, translation of ranks, source of a received message); tags and timing are left out."
  },
  {
   "property": "C173",
   "status": "proved",
   "theorems": [
    "Machin.Group.C173_size",
    "Machin.Group.C173_size_quiet",
    "Machin.Group.C173_size_between",
    "Machin.Group.C173_clear",
    "Machin.Group.C173_clear_size",
    "Machin.Group.C173_unregistered"
   ],
   "note": "Generic in the type of the local buffers; C173_clear_size for the modelled Buffer. C173_unregistered also shows that an all_clear that raises KeyError has cleared the buffers of the members before the missing one."
  },
  {
   "property": "C174",
   "status": "proved",
   "theorems": [
    "Machin.PoolLife.C174_once",
    "Machin.PoolLife.C174_close",
    "Machin.PoolLife.C174_close_ends",
    "Machin.PoolLife.C174_terminate_ends",
    "Machin.PoolLife.C174_final",
    "Machin.PoolLife.C174_refuses",
    "Machin.PoolLife.C174_maxtasks"
   ],
   "note": "Proved over a model of the two handler threads, the workers and the user as interleaved steps. The two statements about coming to an end are about the existence of a continuation from every reachable state, not about every schedule; workers end only by themselves or by stop signals, queues are unbounded, the user's calls come from one thread."
  },
  {
   "property": "C175",
   "status": "partial",
   "theorems": [
    "Machin.PoolLife.C175_violated_window",
    "Machin.PoolLife.C175_violated",
    "Machin.PoolLife.C175_least_partial",
    "Machin.PoolLife.C175_steady_partial",
    "Machin.PoolLife.C175_partial"
   ],
   "note": "Violated: _map_async divides by 4*len(self._pool), and the worker handler empties that list for a moment when all workers have used up maxtasksperchild (ZeroDivisionError). Proved: with any worker in the list the chunk size is the least one; outside that moment, and always without maxtasksperchild, it is computed for all processes workers."
  },
  {
   "property": "C176",
   "status": "partial",
   "theorems": [
    "Machin.PoolLife.C176_violated_ordered",
    "Machin.PoolLife.C176_violated_end",
    "Machin.PoolLife.C176_violated_timeout",
    "Machin.PoolLife.C176_violated",
    "Machin.PoolLife.C176_partial",
    "Machin.PoolLife.C176_outs_partial",
    "Machin.PoolLife.C176_wake_partial",
    "Machin.PoolLife.C176_unordered_partial"
   ],
   "note": "Violated in three ways: with two waiting consumers one notify announces several items (ordered), the end is never announced to the other waiters, and a consumer that comes in between makes the notified one raise TimeoutError without a timeout. Proved for a single consumer; for several consumers of the unordered iterator every item that is there has been announced while somebody waits."
  },
  {
   "property": "C177",
   "status": "partial",
   "theorems": [
    "Machin.Effects.C177_violated_gail",
    "Machin.Effects.C177_violated",
    "Machin.Effects.C177_violated_maddpg",
    "Machin.Effects.C177_partial",
    "Machin.Effects.C177_order_partial",
    "Machin.Effects.C177_gail_partial",
    "Machin.Effects.C177_listed_partial",
    "Machin.Effects.C177_count_partial",
    "Machin.Effects.C177_maddpg_partial"
   ],
   "note": "Violated by GAIL: the setter (gail.py:187-189) replaces its own attributes, the PPO or TRPO inside goes on stepping the old optimizers of actor and critic (C177_violated_gail). Violated by MADDPG: the getter lists the critics first, the setter takes the actors first (C177_violated_maddpg, cf. C61). C177_partial: all other frameworks. C177_gail_partial: with GAIL exactly the optimizer of the discriminator is replaced. C177_order_partial: MADDPG takes a list in the order of the setter. C177_listed_partial: nothing that is stepped is missing from the list, for all frameworks."
  },
  {
   "property": "C178",
   "status": "partial",
   "theorems": [
    "Machin.Effects.C178_violated",
    "Machin.Effects.C178_partial",
    "Machin.Effects.C178_maddpg_partial",
    "Machin.Effects.C178_trained_partial"
   ],
   "note": "Violated by MADDPG (maddpg.py:57): only the target networks are top models (C178_maddpg_partial says exactly which), so enable_multiprocessing does not share the networks that are trained. C178_partial: for all others the top models are exactly the networks; C178_trained_partial: what update trains is a network of the framework."
  },
  {
   "property": "C179",
   "status": "partial",
   "theorems": [
    "Machin.Effects.C179_violated",
    "Machin.Effects.C179_violated_first",
    "Machin.Effects.C179_partial",
    "Machin.Effects.C179_asked_partial"
   ],
   "note": "Violated by MADDPG: has_visualized (maddpg.py:171, 622) is never set, so every update draws all pictures again (C179_violated), and with sub-policies the critic is drawn several times in one update (C179_violated_first). C179_partial: all others draw what is asked exactly once; C179_asked_partial lists what is asked: never critic2 of TD3 and SAC."
  },
  {
   "property": "C180",
   "status": "partial",
   "theorems": [
    "Machin.Effects.C180_violated",
    "Machin.Effects.C180_violated_buffer",
    "Machin.Effects.C180_partial",
    "Machin.Effects.C180_other_partial",
    "Machin.Effects.C180_gail_partial",
    "Machin.Effects.C180_clear_partial"
   ],
   "note": "Violated by TRPO: with a zero policy gradient it returns with actor and critic in training mode (trpo.py:243-248; the buffer is not cleared either, C180_violated_buffer). C180_partial: all other cases, for MADDPG in all interleavings; C180_other_partial: other networks keep their mode, always; C180_gail_partial: GAIL repairs it for the TRPO inside."
  },
  {
   "property": "C181",
   "status": "partial",
   "theorems": [
    "Machin.Effects.C181_violated",
    "Machin.Effects.C181_partial",
    "Machin.Effects.C181_maddpg_partial"
   ],
   "note": "Violated by MADDPG with sub-policies and a thread pool: the tasks of one agent share its critic, and the first that ends calls eval() on it before the backward pass of another (C181_violated). C181_partial: all other frameworks; C181_maddpg_partial: MADDPG without sub-policies, and its actors always, in all interleavings."
  },
  {
   "property": "C182",
   "status": "partial",
   "theorems": [
    "Machin.Prio.C182_partial",
    "Machin.Prio.C182_violated_small",
    "Machin.Prio.C182_violated"
   ],
   "note": "Violated because of the clip at the total minus 1e-6 (prioritized_buffer.py:411-413): if all priorities together do not exceed 1e-6, every draw returns leaf 0 (C182_violated_small, C182_violated: two transitions of priority 1e-7). C182_partial: proportional whenever every stored priority exceeds 1e-6."
  },
  {
   "property": "C183",
   "status": "partial",
   "theorems": [
    "Machin.Prio.C183_partial",
    "Machin.Prio.C183_violated"
   ],
   "note": "Violated for alpha < 1: the cached maximum is already normalized and is normalized again (prioritized_buffer.py:303-304); after a transition of TD error 15/4 (priority 2 with epsilon 1/4, alpha 1/2) the next one gets 3/2 (C183_violated; the witness is a monotone function with these two values). C183_partial: the new leaves are exactly the normalized cached maximum, other leaves stay, and the new ones are the largest if normalizing does not decrease the cached maximum."
  },
  {
   "property": "C184",
   "status": "partial",
   "theorems": [
    "Machin.Device.C184_violated",
    "Machin.Device.C184_violated_more",
    "Machin.Device.C184_device_partial",
    "Machin.Device.C184_partial",
    "Machin.Device.C184_accepted_partial"
   ],
   "note": "Violated: of a container only the first (last) leaf is checked, so a container over two devices is accepted and has no device; also modules without parameters and unfinished nested networks. Proved: the exact condition under which a device is found, and the claim for plain modules with parameters and for networks."
  },
  {
   "property": "C185",
   "status": "proved",
   "theorems": [
    "Machin.Device.C185_moved",
    "Machin.Device.C185_other"
   ],
   "note": "Input and output device after a move, for every tree of modules; networks without shared parameters are not affected."
  },
  {
   "property": "C186",
   "status": "partial",
   "theorems": [
    "Machin.Device.C186_violated",
    "Machin.Device.C186_violated_empty",
    "Machin.Device.C186_net_partial",
    "Machin.Device.C186_dynamic_partial",
    "Machin.Device.C186_partial"
   ],
   "note": "Violated: the first call of an unwrapped model writes the device into the model (static_module_wrapper), later moves are ignored; unwrapped models without parameters raise IndexError. Proved for every NeuralNetworkModule (also dynamic wrappers) after any history, and for unwrapped models that are only moved before the first call."
  },
  {
   "property": "C187",
   "status": "proved",
   "theorems": [
    "Machin.Device.C187_values",
    "Machin.Device.C187_caller",
    "Machin.Device.C187_device"
   ],
   "note": "Heap model with addresses; simulation between storages of objects and storages of values. Simplified: deepcopy copies all objects, devices are given (device=None not modelled); the dictionaries of major attributes are not also sub or custom attributes of the same transition."
  },
  {
   "property": "C188",
   "status": "partial",
   "theorems": [
    "Machin.Launch.C188_partial",
    "Machin.Launch.C188_keys_partial",
    "Machin.Launch.C188_violated_each",
    "Machin.Launch.C188_violated"
   ],
   "note": "Violated: sixteen generated settings differ from the default of the constructor, e.g. update_rate of RAINBOW, HDDPG, DDPGPer and SAC, actor_learning_rate of TRPO, learning_rate of ARS (C188_violated_each). The partial theorems prove that the table is exact and that exactly the keys of the framework are generated."
  },
  {
   "property": "C189",
   "status": "proved",
   "theorems": [
    "Machin.Launch.C189_algorithm",
    "Machin.Launch.C189_config",
    "Machin.Launch.C189_unavailable",
    "Machin.Launch.C189_overwrites",
    "Machin.Launch.C189_env_training"
   ],
   "note": "Exact result of all three generators for every dictionary and framework."
  },
  {
   "property": "C190",
   "status": "partial",
   "theorems": [
    "Machin.Launch.C190_violated_config",
    "Machin.Launch.C190_violated",
    "Machin.Launch.C190_violated_more",
    "Machin.Launch.C190_partial",
    "Machin.Launch.C190_launch_partial"
   ],
   "note": "Violated: a Config claims to have every key, so the checks accept an empty one (C190_violated_config), and launching or generating from it raises TypeError. Exact for dictionaries (C190_partial, C190_launch_partial)."
  },
  {
   "property": "C191",
   "status": "proved",
   "theorems": [
    "Machin.Launch.C191_command_fails",
    "Machin.Launch.C191_launchable",
    "Machin.Launch.C191_kind"
   ],
   "note": "For every framework and every given dictionary; C191_command_fails records that the command itself fails for the reason of C74."
  },
  {
   "property": "C192",
   "status": "proved",
   "theorems": [
    "Machin.Returns.C192_mixture",
    "Machin.Returns.C192_gae"
   ],
   "note": "Over any commutative ring; all three branches of store_episode."
  },
  {
   "property": "C193",
   "status": "proved",
   "theorems": [
    "Machin.Update.C193_average",
    "Machin.Update.C193_lag",
    "Machin.Update.C193_converges"
   ],
   "note": "Exact average over any commutative ring; bound and limit over ordered (archimedean) fields."
  },
  {
   "property": "C194",
   "status": "proved",
   "theorems": [
    "Machin.Noise.C194_closed",
    "Machin.Noise.C194_forgets",
    "Machin.Noise.C194_bounded",
    "Machin.Noise.C194_moments"
   ],
   "note": "Closed form, forgetting, bound, mean and variance for one component; components are independent."
  },
  {
   "property": "C195",
   "status": "proved",
   "theorems": [
    "Machin.Prio.C195_inverse",
    "Machin.Prio.C195_unbiased"
   ],
   "note": "For every power function with the stated laws on positive bases."
  },
  {
   "property": "C196",
   "status": "proved",
   "theorems": [
    "Machin.Wire.C196_snapshot",
    "Machin.Wire.C196_isolated",
    "Machin.Wire.C196_reference",
    "Machin.Wire.C196_history",
    "Machin.Wire.C196_alias",
    "Machin.Wire.C196_views"
   ],
   "note": "Snapshot, isolation, sharing by reference, history of a copying queue, views."
  },
  {
   "property": "C197",
   "status": "partial",
   "theorems": [
    "Machin.Wire.C197_violated_each",
    "Machin.Wire.C197_violated",
    "Machin.Wire.C197_partial",
    "Machin.Wire.C197_captured_partial",
    "Machin.Wire.C197_shared_partial",
    "Machin.Wire.C197_threads_partial"
   ],
   "note": "False in every process pool: the task and result queues are made without copy_tensor, so arguments and results go by reference and a worker writes into the caller's tensors; only tensors captured by the function are copied. Proved: exactly the storages of arguments that are written to can change; without copying a call equals a direct call; thread pools."
  },
  {
   "property": "C198",
   "status": "partial",
   "theorems": [
    "Machin.Wire.C198_violated_daemon",
    "Machin.Wire.C198_violated_fork",
    "Machin.Wire.C198_violated",
    "Machin.Wire.C198_partial"
   ],
   "note": "False: Pool and P2PPool always start daemons, CtxPool does not pass its context to the workers and forks. Proved: the exact start of the workers of each class."
  },
  {
   "property": "C199",
   "status": "partial",
   "theorems": [
    "Machin.Wire.C199_violated_maxtasks",
    "Machin.Wire.C199_violated_initializer",
    "Machin.Wire.C199_violated",
    "Machin.Wire.C199_partial",
    "Machin.Wire.C199_sensible_partial"
   ],
   "note": "False: maxtasksperchild is not checked (workers die with a ValueError from the malformed assertion message), and context pools do not check the initializer. Proved: the exact conditions for construction and for the start of workers."
  },
  {
   "property": "C200",
   "status": "proved",
   "theorems": [
    "Machin.PoolLife.C200_every_task",
    "Machin.PoolLife.C200_close",
    "Machin.PoolLife.C200_terminate"
   ],
   "note": "Helpful-step rule with ranks over infinite schedules: a task passes through input queue, worker, output queue and cache; drained and terminated pools come to their end."
  },
  {
   "property": "C201",
   "status": "proved",
   "theorems": [
    "Machin.Impala.C201_closed",
    "Machin.Impala.C201_batch",
    "Machin.Impala.C201_consistent",
    "Machin.Impala.C201_bounded"
   ],
   "note": "formula, batch, boundedness and consistency over any ordered field / commutative ring"
  },
  {
   "property": "C202",
   "status": "proved",
   "theorems": [
    "Machin.Algo.C202_contract",
    "Machin.Algo.C202_rate",
    "Machin.Algo.C202_converges",
    "Machin.Algo.C202_unique",
    "Machin.Algo.C202_upper",
    "Machin.Algo.C202_greedy",
    "Machin.Algo.C202_returns",
    "Machin.Algo.C202_attained",
    "Machin.Algo.C202_actor_critic"
   ],
   "note": "the network is a table that fits the targets exactly, which stands for an optimizer that reaches zero loss; all three modes for optimality, the fixed target mode for convergence"
  },
  {
   "property": "C203",
   "status": "partial",
   "theorems": [
    "Machin.World.C203_violated_rank",
    "Machin.World.C203_violated_learner",
    "Machin.World.C203_violated",
    "Machin.World.C203_violated_retry",
    "Machin.World.C203_violated_norpc",
    "Machin.World.C203_given_partial",
    "Machin.World.C203_once_partial",
    "Machin.World.C203_stop_partial",
    "Machin.World.C203_lists_partial",
    "Machin.World.C203_learners_partial"
   ],
   "note": "violated: World keeps rank -1 if the rank is found out by torch (get_cur_rank is -1, every process becomes a learner), a construction that fails after the process group was made cannot be repeated, and without the RPC agent there is no world; proved: all of it with given ranks, uniqueness, stop, the lists, the learners"
  },
  {
   "property": "C204",
   "status": "partial",
   "theorems": [
    "Machin.World.C204_violated",
    "Machin.World.C204_violated_pair",
    "Machin.World.C204_violated_unpair",
    "Machin.World.C204_lookup_partial",
    "Machin.World.C204_undo_partial",
    "Machin.World.C204_outside_partial",
    "Machin.World.C204_call_partial",
    "Machin.World.C204_service_partial"
   ],
   "note": "violated: what is paired through a copy is found by nobody and what the process has paired cannot be released through a copy, because requests are served from the object in WORLD.groups; proved: look-ups agree, undo, outsiders, calls and service exceptions"
  },
  {
   "property": "C205",
   "status": "proved",
   "theorems": [
    "Machin.Trpo.C205_boundary",
    "Machin.Trpo.C205_descent",
    "Machin.Trpo.C205_best",
    "Machin.Trpo.C205_optimal",
    "Machin.Trpo.C205_monotone",
    "Machin.Trpo.C205_backtrack"
   ],
   "note": "Exact real arithmetic, conjugate_eps = 0, symmetric positive definite curvature as established in C159. The divergence and the loss are their models of second and first order, as in the code; the line search tests the true values (C59)."
  },
  {
   "property": "C206",
   "status": "proved",
   "theorems": [
    "Machin.Algo.C206_marginal",
    "Machin.Algo.C206_resolution",
    "Machin.Algo.C206_joint"
   ],
   "note": "Outcomes of t.rand and t.randint are equally likely and independent (the random generator is taken as given). C206_joint records that rows of a batch do not explore independently, which the documentation does not promise."
  },
  {
   "property": "C207",
   "status": "partial",
   "theorems": [
    "Machin.Checker.C207_violated_integer",
    "Machin.Checker.C207_violated_empty",
    "Machin.Checker.C207_violated_scalar",
    "Machin.Checker.C207_violated",
    "Machin.Checker.C207_good_partial",
    "Machin.Checker.C207_params_partial",
    "Machin.Checker.C207_nan_partial",
    "Machin.Checker.C207_cancel_partial",
    "Machin.Checker.C207_kept_partial",
    "Machin.Checker.C207_pass_partial",
    "Machin.Checker.C207_rows_partial",
    "Machin.Checker.C207_shape_partial"
   ],
   "note": "Violated: i_chk_range calls t.mean, which raises RuntimeError for integer inputs (an embedding), and t.min, which raises for inputs without elements; an output that is a single number raises TypeError (C207_violated_*). Proved for nonempty float tensors: passes raise nothing, entries are true, nan raises CheckError, cancel."
  },
  {
   "property": "C208",
   "status": "partial",
   "theorems": [
    "Machin.Auto.C208_lockstep_partial",
    "Machin.Auto.C208_stuck_partial",
    "Machin.Auto.C208_bounded_partial",
    "Machin.Auto.C208_paired_partial",
    "Machin.Auto.C208_epoch_partial",
    "Machin.Auto.C208_exception_partial",
    "Machin.Auto.C208_violated_counts",
    "Machin.Auto.C208_violated_generated",
    "Machin.Auto.C208_violated",
    "Machin.Auto.C208_together_partial"
   ],
   "note": "Violated: processes with different numbers of batches wait for ever (C208_violated_counts); with the generated batch_num (10 and 1) this is so for all datasets of the same finite length of two or more items (C208_violated_generated). Proved: all processes finish along some schedule only if their collective calls agree, and if they agree every schedule goes on until all have finished; k-th calls meet k-th calls. Timeouts are left out."
  },
  {
   "property": "C209",
   "status": "partial",
   "theorems": [
    "Machin.Auto.C209_violated_size",
    "Machin.Auto.C209_violated",
    "Machin.Auto.C209_connect_partial",
    "Machin.Auto.C209_consistent_partial",
    "Machin.Auto.C209_launch_partial"
   ],
   "note": "Violated: the argument world_size is overwritten before it is looked at (C209_violated_size). Proved: exact result with the size of the cluster, consistency between processes, refusals and single initialisation of the launchers."
  },
  {
   "property": "C210",
   "status": "proved",
   "theorems": [
    "Machin.Trpo.C210_step",
    "Machin.Trpo.C210_inner",
    "Machin.Trpo.C210_empty"
   ],
   "note": "get_flat_grad with unused parameters; combined with get_flat_params and set_flat_params"
  },
  {
   "property": "C211",
   "status": "proved",
   "theorems": [
    "Machin.Maddpg.C211_concat",
    "Machin.Maddpg.C211_refused",
    "Machin.Maddpg.C211_shared"
   ],
   "note": "concat functions for any number of agents, error cases; shared-memory batches against Buffer.make_tensor_from_batch"
  },
  {
   "property": "C212",
   "status": "proved",
   "theorems": [
    "Machin.Ars.C212_gain",
    "Machin.Ars.C212_ascent",
    "Machin.Ars.C212_opposite",
    "Machin.Ars.C212_linear",
    "Machin.Ars.C212_divisor"
   ],
   "note": "The reward is any linear function of the flat parameters in the second part; the first part has no assumption on rewards."
  },
  {
   "property": "C213",
   "status": "proved",
   "theorems": [
    "Machin.Algo.C213_double",
    "Machin.Algo.C213_twin",
    "Machin.Algo.C213_monotone",
    "Machin.Algo.C213_bounded",
    "Machin.Algo.C213_bounded_dqn"
   ],
   "note": "Exact rationals; networks are arbitrary functions."
  },
  {
   "property": "C214",
   "status": "proved",
   "theorems": [
    "Machin.Replay.C214_random",
    "Machin.Replay.C214_unique",
    "Machin.Replay.C214_included",
    "Machin.Replay.C214_independent"
   ],
   "note": "random.choices: one index per place; random.sample: the first ones of a permutation; all outcomes equally likely, properties as shares of outcomes."
  },
  {
   "property": "C215",
   "status": "proved",
   "theorems": [
    "Machin.Rnn.C215_random",
    "Machin.Rnn.C215_unique",
    "Machin.Rnn.C215_independent"
   ],
   "note": "random.randint(0, hi) is a uniform draw modulo hi + 1, where hi + 1 divides the number of values of the draw."
  },
  {
   "property": "C216",
   "status": "partial",
   "theorems": [
    "Machin.Rnn.C216_silent_member",
    "Machin.Rnn.C216_first_error_partial",
    "Machin.Rnn.C216_violated_group",
    "Machin.Rnn.C216_violated",
    "Machin.Rnn.C216_windows_partial"
   ],
   "note": "Violated: _sample_service of the RNN class returns four values for a member without a contribution, sample_batch unpacks five, so one empty or unasked member makes the call raise ValueError (C216_silent_member, C216_violated_group). Proved for groups in which every member contributes."
  },
  {
   "property": "C217",
   "status": "partial",
   "theorems": [
    "Machin.Rnn.C217_versions_never_change",
    "Machin.Rnn.C217_violated",
    "Machin.Rnn.C217_update_partial"
   ],
   "note": "Violated: store_episode skips DistributedPrioritizedBuffer.store_episode, so versions are never incremented and updates hit overwritten positions (C217_versions_never_change). The partial theorem shows that updates are otherwise exact."
  },
  {
   "property": "C218",
   "status": "partial",
   "theorems": [
    "Machin.Rnn.C218_violated",
    "Machin.Rnn.C218_windows_partial"
   ],
   "note": "Violated only if nothing is sampled and sample_attrs is not given (IndexError), as in C19. Proved otherwise."
  },
  {
   "property": "C219",
   "status": "proved",
   "theorems": [
    "Machin.Algo.C219_same_gradient",
    "Machin.Algo.C219_unbiased"
   ],
   "note": "Stochastic policies over finitely many actions; continuous policies are covered by C219_same_gradient only."
  },
  {
   "property": "C220",
   "status": "proved",
   "theorems": [
    "Machin.Algo.C220_gate",
    "Machin.Algo.C220_trpo"
   ],
   "note": ""
  },
  {
   "property": "C221",
   "status": "proved",
   "theorems": [
    "Machin.Algo.C221_off_policy",
    "Machin.Algo.C221_clipped",
    "Machin.Algo.C221_on_policy"
   ],
   "note": ""
  },
  {
   "property": "C222",
   "status": "partial",
   "theorems": [
    "Machin.Algo.C222_violated_trpo",
    "Machin.Algo.C222_violated",
    "Machin.Algo.C222_entropy_partial"
   ],
   "note": "TRPO ignores the weight (trpo.py:212-218); A2C, PPO and IMPALA add it as documented."
  },
  {
   "property": "C223",
   "status": "proved",
   "theorems": [
    "Machin.Algo.C223_optimal",
    "Machin.Algo.C223_reward",
    "Machin.Algo.C223_reward_optimal"
   ],
   "note": "Discriminators are arbitrary functions of the pair; the size bound comes from the clamp of BCELoss at -100."
  },
  {
   "property": "C224",
   "status": "proved",
   "theorems": [
    "Machin.Algo.C224_boltzmann",
    "Machin.Algo.C224_soft_value"
   ],
   "note": ""
  },
  {
   "property": "C225",
   "status": "partial",
   "theorems": [
    "Machin.Project.C225_optimal",
    "Machin.Project.C225_target_partial",
    "Machin.Project.C225_lost",
    "Machin.Project.C225_violated"
   ],
   "note": "Violated for rows whose shifted atoms fall on the support (C225_lost, C225_violated); proved for all other rows, and for any target with mass (C225_optimal)."
  },
  {
   "property": "C226",
   "status": "proved",
   "theorems": [
    "Machin.Server.C226_monotone",
    "Machin.Server.C226_pushed",
    "Machin.Server.C226_lag"
   ],
   "note": ""
  },
  {
   "property": "C227",
   "status": "partial",
   "theorems": [
    "Machin.LoadState.C227_complete",
    "Machin.LoadState.C227_missing_partial",
    "Machin.LoadState.C227_mixed_partial",
    "Machin.LoadState.C227_violated",
    "Machin.LoadState.C227_several_partial"
   ],
   "note": "Violated: with further names or other shapes the parameters that fit are overwritten before the RuntimeError (C227_violated, exact outcome in C227_mixed_partial); of several models those before the failing one stay loaded (C227_several_partial). Success is characterised exactly by C227_complete, missing names by C227_missing_partial. load_state_dict of torch is modelled from its documented strict behaviour."
  },
  {
   "property": "C228",
   "status": "proved",
   "theorems": [
    "Machin.Server.C228_made",
    "Machin.Server.C228_mean",
    "Machin.Server.C228_sum"
   ],
   "note": ""
  },
  {
   "property": "C229",
   "status": "proved",
   "theorems": [
    "Machin.Assign.C229_expected",
    "Machin.Assign.C229_certain",
    "Machin.Assign.C229_gradient",
    "Machin.Assign.C229_size",
    "Machin.Assign.C229_complexity",
    "Machin.Assign.C229_entropy",
    "Machin.Assign.C229_normalised",
    "Machin.Assign.C229_total",
    "Machin.Assign.C229_terms"
   ],
   "note": ""
  },
  {
   "property": "C230",
   "status": "partial",
   "theorems": [
    "Machin.Rounds.C230_violated_early",
    "Machin.Rounds.C230_together_partial",
    "Machin.Rounds.C230_violated_hangs",
    "Machin.Rounds.C230_violated",
    "Machin.Rounds.C230_violated_safety",
    "Machin.Rounds.C230_alive_partial",
    "Machin.Rounds.C230_prompt_partial"
   ],
   "note": "Violated twice: a member that calls barrier() again while its exit service is between set and clear returns at once, before the others have called (C230_violated_early, C230_violated_safety); a member whose exit service runs before it waits is never woken and the group hangs for ever (C230_violated, C230_violated_hangs). Proved: safety in all histories in which nobody calls again inside that window (C230_together_partial); the group can go on for ever if and only if no member has lost its wake-up (C230_alive_partial), which never happens if no exit service ends while its member stands before wait (C230_prompt_partial)."
  },
  {
   "property": "C231",
   "status": "partial",
   "theorems": [
    "Machin.World.Destroy.C231_violated_copy",
    "Machin.World.Destroy.C231_violated_later",
    "Machin.World.Destroy.C231_violated",
    "Machin.World.Destroy.C231_violated_use",
    "Machin.World.Destroy.C231_own_partial",
    "Machin.World.Destroy.C231_exact_partial",
    "Machin.World.Destroy.C231_collective_partial"
   ],
   "note": "Violated by copies that arrive by pickling: destroying one takes away the group of the process, whose own destroy() then raises KeyError (C231_violated_copy), also a group that was made later (C231_violated_later); and a destroyed object still accepts keys, which nobody can read (C231_violated_use). Proved: the claim for histories without copies (C231_own_partial), the exact outcome in all states (C231_exact_partial), collective groups (C231_collective_partial)."
  },
  {
   "property": "C232",
   "status": "proved",
   "theorems": [
    "Machin.Returns.C232_values",
    "Machin.Returns.C232_advantages",
    "Machin.Returns.C232_any_critic",
    "Machin.Returns.C232_exact"
   ],
   "note": "Conditional averages are stated by arbitrary weights that depend on the past; over any commutative ring. Episodes cut before a terminal state are the subject of C47."
  },
  {
   "property": "C233",
   "status": "partial",
   "theorems": [
    "Machin.Algo.C233_discounted_partial",
    "Machin.Algo.C233_undiscounted_partial",
    "Machin.Algo.C233_violated_downhill",
    "Machin.Algo.C233_violated"
   ],
   "note": "Violated for discounts below one: the rows of an episode are not weighted with discount^t, and a witness has the average step pointing downhill. Proved: exact without discounting, and the exact gradient for every discount has the weights discount^t."
  },
  {
   "property": "C234",
   "status": "partial",
   "theorems": [
    "Machin.Dist.C234_random_partial",
    "Machin.Dist.C234_unique_partial",
    "Machin.Dist.C234_equal_partial",
    "Machin.Dist.C234_small_partial",
    "Machin.Dist.C234_violated_sizes",
    "Machin.Dist.C234_violated"
   ],
   "note": "Violated: every member is asked for ceil(B/P) transitions whatever it holds (buffer_d.py:143-144), so a transition of a member that holds little is drawn more often: with one and two transitions and a batch of two, the single one is in every batch and each of the two in every second (C234_violated_sizes, C234_violated). C234_random_partial, C234_unique_partial: the exact expectation, member m contributing min(size_m, ceil(B/P)) rows times the share of its own transitions; C234_equal_partial: uniform over the group when all members hold equally many; C234_small_partial: when no member holds more than ceil(B/P)."
  },
  {
   "property": "C235",
   "status": "partial",
   "theorems": [
    "Machin.Dist.C235_violated_light",
    "Machin.Dist.C235_violated_small",
    "Machin.Dist.C235_heavy_partial",
    "Machin.Dist.C235_empty_partial",
    "Machin.Dist.C235_violated"
   ],
   "note": "Violated: a member that holds transitions but no more than the B-th part of all priorities is asked for exactly one, and its service raises TypeError because the index is then a single int that is iterated over (C235_violated_light, for all histories and draws); so batches not larger than the number of members that hold transitions can never be sampled (C235_violated_small, C235_violated). C235_heavy_partial: otherwise a batch of sum ceil(w_m B / (S + 1e-6)) transitions; C235_empty_partial: empty group."
  },
  {
   "property": "C236",
   "status": "partial",
   "theorems": [
    "Machin.Dist.C236_share_partial",
    "Machin.Dist.C236_equal_partial",
    "Machin.Dist.C236_violated"
   ],
   "note": "Violated: the number asked of a member is rounded up, which favours members with few priorities (C236_violated: sums 2.02 and 0.82, batch of four, three and two rows). C236_share_partial: exact expectation ceil(w_m B / (S + 1e-6)) p / w_m, at least the share B p / (S + 1e-6) and less than p / w_m more; C236_equal_partial: common factor when the members have equal sums. For priorities above 1e-6 (C182)."
  },
  {
   "property": "C237",
   "status": "partial",
   "theorems": [
    "Machin.Impala.C237_violated",
    "Machin.Impala.C237_missing_partial",
    "Machin.Impala.C237_zero_partial",
    "Machin.Impala.C237_policy_partial",
    "Machin.Impala.C237_unclipped"
   ],
   "note": "Violated: the target of the last step of every episode is 0 (impala.py:351-363), so with a one-step episode of reward 1 and the right critic the target is 0 and not 1 (C237_violated). Proved: on average the targets are the values of the states minus what reaches a step of the target that the last step should have had, V + rho (r + g V' - V), times the discount and clipped ratio of every step in between (C237_missing_partial); nothing is missing where that is 0 (C237_zero_partial); the factor of the policy loss is rho (Q - V) minus rho g times what the next target lacks (C237_policy_partial); without clipping the critic in question is the value function of the learner's policy (C237_unclipped)."
  },
  {
   "property": "C238",
   "status": "partial",
   "theorems": [
    "Machin.Build.C238_violated",
    "Machin.Build.C238_violated_graph",
    "Machin.Build.C238_violated_refused",
    "Machin.Build.C238_raise_partial",
    "Machin.Build.C238_new_partial",
    "Machin.Build.C238_episode_partial",
    "Machin.Build.C238_values_partial",
    "Machin.Build.C238_again_partial",
    "Machin.Build.C238_accepts_partial",
    "Machin.Build.C238_fails_partial",
    "Machin.Build.C238_converted_partial",
    "Machin.Build.C238_first_partial",
    "Machin.Build.C238_custom_partial"
   ],
   "note": "Violated: the items of the list are replaced by transition objects, and _detach writes into the dictionaries of the caller, so that an action kept there is no longer connected with the actor (C238_violated, C238_violated_graph), even if the item is refused for a missing attribute (C238_violated_refused). Proved: a constructor that raises changes nothing (C238_raise_partial); exactly the dictionaries of the major attributes are changed, every entry becomes a new tensor on the same storage outside of the graph (C238_new_partial, C238_episode_partial for whole episodes with the exact part of the list that is replaced); all contents stay (C238_values_partial); storing the same list again changes nothing (C238_again_partial). Simplified: a dictionary is written after the loop over its items; dictionaries inside dictionaries are not modelled. Which episodes are converted, and with which exception the first refused item ends the call, is given exactly, in terms of the objects as they were before the call."
  },
  {
   "property": "C239",
   "status": "partial",
   "theorems": [
    "Machin.Build.C239_violated",
    "Machin.Build.C239_violated_mixed",
    "Machin.Build.C239_values_partial",
    "Machin.Build.C239_stored_partial",
    "Machin.Build.C239_half_partial",
    "Machin.Build.C239_copies_partial",
    "Machin.Build.C239_refused_partial",
    "Machin.Build.C239_custom_partial"
   ],
   "note": "Violated: custom attributes are not detached and deepcopy of a tensor that is the result of an operation in a graph raises RuntimeError (C239_violated, with action_log_prob as IMPALA requires it); the transitions before it have been written by then, so that a full buffer mixes them into the old episode (C239_violated_mixed). Proved: without such custom attributes the episode is stored and state, action, next state, reward and terminal are outside of any graph (C239_stored_partial); storing objects is then storing values (C239_values_partial); exactly what is written before a failing copy (C239_half_partial, C239_custom_partial). A stored copy is represented by its value (C187)."
  },
  {
   "property": "C240",
   "status": "partial",
   "theorems": [
    "Machin.Build.Algs.C240_violated",
    "Machin.Build.Algs.C240_violated_half",
    "Machin.Build.Algs.C240_violated_others",
    "Machin.Build.Algs.C240_exact_partial",
    "Machin.Build.Algs.C240_dicts_partial",
    "Machin.Build.Algs.C240_again_partial",
    "Machin.Build.Algs.C240_empty_partial",
    "Machin.Build.Algs.C240_violated_missing"
   ],
   "note": "Violated: transition objects refuse new attributes (transition.py:70-76), so A2C and its descendants, RAINBOW, IMPALA and GAIL raise RuntimeError for objects that lack the computed attributes, possibly after some items have been changed. Proved instead: exactly when it succeeds and what the items are then; dictionaries always, storing again always."
  },
  {
   "property": "C241",
   "status": "partial",
   "theorems": [
    "Machin.Prio.C241_violated",
    "Machin.Prio.C241_double",
    "Machin.Prio.C241_filled_partial",
    "Machin.Prio.C241_million_partial",
    "Machin.Prio.C241_sum_partial",
    "Machin.Prio.C241_near_partial",
    "Machin.Prio.C241_exact"
   ],
   "note": "Violated: with priorities 2^33, 2^33 and 1 + 3/2^19 in a buffer for four items the last draw of two ends at the empty fourth slot (kernel computation in double precision), because the margin 1e-6 of prioritized_buffer.py:413-415 is absolute. Proved for every monotone rounding with relative error u (double precision is shown to be one with u = 2^-53): draws end at filled slots if (2 log n + 1) u sum <= 1e-6 (for a million slots: sums up to 2e8), the root is the exact sum up to (1 +- u)^log n, and every draw ends at a leaf whose exact cumulative interval contains the query up to an explicit slack. Overflow and underflow are not modelled."
  },
  {
   "property": "C242",
   "status": "proved",
   "theorems": [
    "Machin.Sizes.C242_round_up",
    "Machin.Sizes.C242_round_down",
    "Machin.Sizes.C242_sharp",
    "Machin.Sizes.C242_models",
    "Machin.Sizes.C242_depth"
   ],
   "note": "Python divides integers with one correct rounding. The bound 2^53 is sharp (C242_sharp). The logarithm of numpy is described by assumptions, which a logarithm cut off after sixty digits meets."
  },
  {
   "property": "C243",
   "status": "partial",
   "theorems": [
    "Machin.Sizes.C243_violated_four",
    "Machin.Sizes.C243_violated",
    "Machin.Sizes.C243_shares_partial",
    "Machin.Sizes.C243_double_partial",
    "Machin.Sizes.C243_moderate_partial",
    "Machin.Sizes.C243_double_moderate_partial",
    "Machin.Sizes.C243_total_partial",
    "Machin.Sizes.C243_exact"
   ],
   "note": "Violated: a single process with a weight sum of about 3.4e10 is asked for 4 samples for a batch of 3 (C243_violated, C243_violated_four). Proved: at most one too many for all batch sizes below 2^51, every share within one of the exact one, none for weight 0, at least one for every other weight (C243_double_partial, C243_shares_partial); at most the batch size if no weight exceeds 2e9 (C243_double_moderate_partial, C243_moderate_partial) and in exact arithmetic (C243_exact); bounds for the total (C243_total_partial)."
  },
  {
   "property": "C244",
   "status": "partial",
   "theorems": [
    "Machin.Project.C244_precisions",
    "Machin.Project.C244_violated_lost",
    "Machin.Project.C244_violated_lost_usual",
    "Machin.Project.C244_violated_index",
    "Machin.Project.C244_violated_leak",
    "Machin.Project.C244_violated",
    "Machin.Project.C244_range_partial",
    "Machin.Project.C244_inside_partial",
    "Machin.Project.C244_ends_partial",
    "Machin.Project.C244_single_partial",
    "Machin.Project.C244_column_partial",
    "Machin.Project.C244_entries_partial",
    "Machin.Project.C244_mass_partial",
    "Machin.Project.C244_mass_single_partial"
   ],
   "note": "Violated in single precision: with the support of the project's own test (10 atoms, 0 to 40) and with the usual 51 atoms from -10 to 10, v_max - 1e-6 rounds back so that a value at the upper end falls on the last atom and its whole probability is dropped (C244_violated_lost, _lost_usual); with 51 atoms from 0 to 53 the position exceeds 50, index_add_ raises for the last row and leaks mass into the next row otherwise (C244_violated_index, _leak). Proved for all roundings: positions are never negative and at most one index too large (C244_range_partial); if (7u+5v)M < 1e-6, which covers supports within [-2, 2] in the code's precisions, all positions are strictly inside, values at the ends lie strictly between two atoms (C244_ends_partial, C244_single_partial), every entry and every row sum is the exact one at the rounded positions up to a rounding factor (C244_entries_partial, C244_mass_partial, C244_mass_single_partial)."
  },
  {
   "property": "C245",
   "status": "partial",
   "theorems": [
    "Machin.Precision.C245_violated_moves",
    "Machin.Precision.C245_violated_stuck",
    "Machin.Precision.C245_violated",
    "Machin.Precision.C245_violated_limit",
    "Machin.Precision.C245_step_partial",
    "Machin.Precision.C245_repeat_partial",
    "Machin.Precision.C245_single_partial",
    "Machin.Precision.C245_exact_partial",
    "Machin.Precision.C245_frame_partial"
   ],
   "note": "Violated: with rate 0.005 a parameter 3 equal to its source becomes 12582913/4194304 (C245_violated_moves), and towards a source of 1 the target stops 25/2^22 below or 75/2^22 above (C245_violated_stuck, _limit). Proved for all roundings: one update maps the distance e to at most (1-rate+5u)e + 5u|source| (C245_step_partial), k updates to at most (1-rate+5u)^k e + 5u|source|/(rate-5u) (C245_repeat_partial), within 0.03% of the source in single precision for rates from 0.001 (C245_single_partial); rate 0 and 1 and zero parameters are exact (C245_exact_partial); buffers and lengths are untouched (C245_frame_partial). Missing: exact equality and convergence below the rounding limit, which do not hold. Exponents are unbounded in the model: no overflow, no subnormal numbers."
  },
  {
   "property": "C246",
   "status": "partial",
   "theorems": [
    "Machin.Precision.C246_violated_still",
    "Machin.Precision.C246_violated",
    "Machin.Precision.C246_beta_partial",
    "Machin.Precision.C246_reaches_partial",
    "Machin.Precision.C246_default_partial",
    "Machin.Precision.C246_weights_partial"
   ],
   "note": "Violated for increments below the unit of rounding: 2^-60 never changes an exponent of 1/2 (C246_violated_still). Proved for all monotone roundings: the exponent is monotone, at most 1, and within k units of rounding of min(1, beta + k inc) (C246_beta_partial); with an increment above the unit it is exactly 1 after (1-beta)/(inc-v) samplings (C246_reaches_partial), 601 for the defaults (C246_default_partial). The importance weights are in (0, 1], one is exactly 1, and they fall with the priority (C246_weights_partial), assuming that the computed power is positive and monotone."
  },
  {
   "property": "C247",
   "status": "partial",
   "theorems": [
    "Machin.Precision.C247_violated_above",
    "Machin.Precision.C247_violated",
    "Machin.Precision.C247_range_partial",
    "Machin.Precision.C247_action_partial",
    "Machin.Precision.C247_monotone_partial",
    "Machin.Precision.C247_ends_partial"
   ],
   "note": "Violated for bounds that single precision does not represent: with bounds 1-2^-26 and 1+23/2^27 the largest draw gives 1+2^-22, above the rounded and the given upper bound (C247_violated_above). Proved for bounds that it represents: noise in [lo, hi] for all draws (C247_range_partial), hence the action between the actions with extreme noise (C247_action_partial); the noise is monotone in the draw (C247_monotone_partial); the upper bound itself can be drawn, which is not so in exact arithmetic, and a draw of 0 gives the lower bound (C247_ends_partial)."
  },
  {
   "property": "C248",
   "status": "proved",
   "theorems": [
    "Machin.Returns.C248_values",
    "Machin.Returns.C248_nstep",
    "Machin.Returns.C248_double",
    "Machin.Returns.C248_order",
    "Machin.Returns.C248_integers",
    "Machin.Returns.C248_same",
    "Machin.Returns.C248_general",
    "Machin.Returns.C248_zero",
    "Machin.Returns.C248_one",
    "Machin.Returns.C248_branches"
   ],
   "note": "Values: within 3uR/((1-g)(1-g-3u)) of the exact ones for rewards within R (C248_values, C248_nstep), below 1e-11 for discounts up to 0.99 and rewards within 1 in double precision (C248_double); order kept exactly (C248_order); exact for whole rewards without discount (C248_integers); equal bit for bit (C248_same). Advantages: C248_one, C248_zero, C248_general for the three branches (C248_branches). Exponents are unbounded in the model: no overflow, no subnormal numbers; rewards are numbers of python."
  },
  {
   "property": "C249",
   "status": "partial",
   "theorems": [
    "Machin.Ars.C249_violated",
    "Machin.Ars.C249_violated_scale",
    "Machin.Ars.C249_same_partial",
    "Machin.Ars.C249_multiples_partial",
    "Machin.Ars.C249_whole_partial",
    "Machin.Ars.C249_variance",
    "Machin.Ars.C249_growing",
    "Machin.Ars.C249_between_partial",
    "Machin.Ars.C249_error",
    "Machin.Ars.C249_million",
    "Machin.Ars.C249_exact",
    "Machin.Ars.C249_normalise"
   ],
   "note": "Violated: with samples all equal to the double nearest to 0.1 in two estimators of 1 and 2 samples the merged mean is another number (C249_violated); with a constant of 1.7e9 in three estimators the variance comes out above 1e-14 and the constant is normalised to more than sqrt 2 deviations from 0 (C249_violated_scale). Proved: exact for constants without merging (C249_same_partial) and with merging if the multiples are kept, such as whole numbers (C249_multiples_partial, C249_whole_partial); signs (C249_variance), growth (C249_growing), mean between the bounds of the samples without merging (C249_between_partial), error of the mean over all merge trees (C249_error, C249_million), normalisation (C249_normalise). No error bound for the sum of squares; the square root is a parameter; no overflow and no subnormal numbers."
  },
  {
   "property": "C250",
   "status": "partial",
   "theorems": [
    "Machin.Precision.C250_violated",
    "Machin.Precision.C250_violated_size",
    "Machin.Precision.C250_violated_unbounded",
    "Machin.Precision.C250_denominator",
    "Machin.Precision.C250_denominator_error",
    "Machin.Precision.C250_order",
    "Machin.Precision.C250_sign",
    "Machin.Precision.C250_mean",
    "Machin.Precision.C250_shift",
    "Machin.Precision.C250_average",
    "Machin.Precision.C250_multiples_partial",
    "Machin.Precision.C250_whole_partial",
    "Machin.Precision.C250_pairwise_partial",
    "Machin.Precision.C250_thousand",
    "Machin.Precision.C250_exact"
   ],
   "note": "Violated: three advantages of 1999.3 (single precision) have a computed mean that differs by one unit in the last place, which is divided by 1e-6, so all three become about -122 (C250_violated, C250_violated_size); there is no bound on this (C250_violated_unbounded). Proved: zeros if the multiples are kept (C250_multiples_partial, C250_whole_partial) or a power of two is summed pairwise (C250_pairwise_partial); order, sign and error bounds hold for all batches and all orders of summation. The standard deviation is a parameter (0 for equal elements)."
  },
  {
   "property": "C251",
   "status": "partial",
   "theorems": [
    "Machin.Pool.C251_violated",
    "Machin.Pool.C251_violated_other",
    "Machin.Pool.C251_violated_key",
    "Machin.Pool.C251_isolated_partial",
    "Machin.Pool.C251_alive",
    "Machin.Pool.C251_quiet_partial",
    "Machin.Pool.C251_dead",
    "Machin.Pool.C251_answered"
   ],
   "note": "Violated: callbacks are called before the event is set and before the job leaves the cache. An exception other than KeyError ends the thread of _handle_results, so no job is answered any more and close cannot finish (C251_violated, C251_violated_other, C251_dead); a KeyError is swallowed and only this job waits for ever (C251_violated_key). Proved: the exact condition for apply_async (C251_answered); jobs whose callbacks return behave as in C28-C32 while the thread lives (C251_isolated_partial), which it does if callbacks raise nothing but KeyError (C251_alive); nothing is lost if no callback raises (C251_quiet_partial)."
  },
  {
   "property": "C252",
   "status": "partial",
   "theorems": [
    "Machin.Pool.C252_violated",
    "Machin.Pool.C252_violated_exit",
    "Machin.Pool.C252_violated_initializer",
    "Machin.Pool.C252_history",
    "Machin.Pool.C252_sound_partial",
    "Machin.Pool.C252_others",
    "Machin.Pool.C252_ended",
    "Machin.Pool.C252_limit",
    "Machin.Pool.C252_waits",
    "Machin.Pool.C252_read_partial",
    "Machin.Pool.C252_violated_read",
    "Machin.Pool.C252_read"
   ],
   "note": "Violated: put is outside the try block of the worker, so a result or exception that cannot be serialized ends the worker without a message (C252_violated), as does SystemExit (C252_violated_exit); an initializer that raises ends every worker again and again without notice (C252_violated_initializer); a message that cannot be rebuilt ends the thread that reads results (C252_violated_read). The job waits for ever and the pool cannot be closed (C252_waits). Proved: exact messages in every history (C252_history), all results for sound tasks (C252_sound_partial), other tasks are not harmed (C252_others), limit of tasks per worker (C252_limit), reading (C252_read, C252_read_partial)."
  },
  {
   "property": "C253",
   "status": "partial",
   "theorems": [
    "Machin.Precision.C253_calls",
    "Machin.Precision.C253_choice",
    "Machin.Precision.C253_exact",
    "Machin.Precision.C253_violated_always",
    "Machin.Precision.C253_violated",
    "Machin.Precision.C253_monotone",
    "Machin.Precision.C253_normal_partial",
    "Machin.Precision.C253_end",
    "Machin.Precision.C253_stops",
    "Machin.Precision.C253_end_default",
    "Machin.Precision.C253_zero",
    "Machin.Precision.C253_reaches",
    "Machin.Precision.C253_draws",
    "Machin.Precision.C253_error_partial",
    "Machin.Precision.C253_default"
   ],
   "note": "Violated in the range of gradual underflow: for every decay above one half and every starting rate the rate is positive for ever and from some call on constant (C253_violated_always, C253_violated); C253_end and C253_stops say where it stops, C253_end_default that 4999/2^1074 stays with the default decay 0.9999. C253_normal_partial: while the product is at least 2^-1022 every call makes the rate smaller by at least one part in 2^53; missing: the calls below. C253_monotone: never rises, never negative. C253_reaches: it becomes 0 exactly for decays of at most one half. C253_draws: after enough calls exactly the draw 0 still explores. C253_error_partial: relative error at most 51/25 n / 2^53 while the power is at least 2^-1021 and n <= 2^50; C253_default for 0.9999 and a million calls. Rounding to 53 digits with gradual underflow, without overflow."
  },
  {
   "property": "C254",
   "status": "partial",
   "theorems": [
    "Machin.World.Life.C254_violated_construct",
    "Machin.World.Life.C254_violated_stop",
    "Machin.World.Life.C254_violated_rank",
    "Machin.World.Life.C254_violated",
    "Machin.World.Life.C254_construct",
    "Machin.World.Life.C254_no_rpc",
    "Machin.World.Life.C254_once",
    "Machin.World.Life.C254_current",
    "Machin.World.Life.C254_retry",
    "Machin.World.Life.C254_keep_partial",
    "Machin.World.Life.C254_started",
    "Machin.World.Life.C254_stop_partial",
    "Machin.World.Life.C254_rank_partial",
    "Machin.World.Life.C254_relative",
    "Machin.World.Life.C254_names",
    "Machin.World.Life.C254_manager"
   ],
   "note": "Violated in three ways. C254_violated_construct: with init_rpc=False the constructor fails after the process group was initialized, and C254_retry: then no construction with init_dist succeeds any more. C254_violated_stop, C254_started: started is never reset, the check of stop never raises its error. C254_violated_rank, C254_relative: with the rank left to torch the world has rank -1 and is in no collective group. Holding: C254_once (at most one world), C254_construct (exact condition and result), C254_no_rpc, C254_keep_partial (exactly when a failed construction leaves nothing), C254_stop_partial (when stop succeeds; everything afterwards raises), C254_rank_partial (explicit rank), C254_names, C254_manager (agreement). Missing: the full statement, which is false. torch.distributed is modelled by its documentation."
  },
  {
   "property": "C255",
   "status": "partial",
   "theorems": [
    "Machin.Precision.C255_float",
    "Machin.Precision.C255_shrink_partial",
    "Machin.Precision.C255_grow_partial",
    "Machin.Precision.C255_order",
    "Machin.Precision.C255_violated_shrink",
    "Machin.Precision.C255_dead",
    "Machin.Precision.C255_violated_dead",
    "Machin.Precision.C255_default",
    "Machin.Precision.C255_violated",
    "Machin.Precision.C255_error_partial"
   ],
   "note": "Violated for tiny numbers. C255_violated_shrink: with a coefficient below 2 the deviation stops falling after enough distances above the desired one; C255_dead, C255_violated_dead: where one coefficient more changes it by less than half of the smallest number it stays for ever, with the coefficient 1.015 this is reached from above; C255_default: with 1.01 it is not. C255_shrink_partial, C255_grow_partial: strict changes while the numbers are at least 2^-1022, weak ones always; missing: the strict changes below. C255_float: in every history a nonnegative float. C255_error_partial: after any history of n <= 2^50 distances the relative error against the exact deviation is at most 51/25 n / 2^53 while that is at least 2^-1021. C255_order: shrinking and growing do not cancel exactly. Rounding to 53 digits with gradual underflow, without overflow."
  },
  {
   "property": "C256",
   "status": "partial",
   "theorems": [
    "Machin.Algo.C256_outermost_partial",
    "Machin.Algo.C256_names_partial",
    "Machin.Algo.C256_exact_partial",
    "Machin.Algo.C256_agreed_partial",
    "Machin.Algo.C256_violated_hidden",
    "Machin.Algo.C256_violated_underscores",
    "Machin.Algo.C256_violated",
    "Machin.Algo.C256_class_partial"
   ],
   "note": "Violated: the outermost frame that has the name decides, so another global further out hides the class, and names with two leading underscores are never found. Proved: the exact condition under which a name gives a model, and success if all frames that have the name agree on the kind."
  },
  {
   "property": "C257",
   "status": "partial",
   "theorems": [
    "Machin.Algo.C257_exact_partial",
    "Machin.Algo.C257_top_partial",
    "Machin.Algo.C257_violated_submodule",
    "Machin.Algo.C257_violated",
    "Machin.Algo.C257_violated_history",
    "Machin.Algo.C257_missing_partial",
    "Machin.Algo.C257_loads_partial",
    "Machin.Algo.C257_parts",
    "Machin.Algo.C257_unchecked_partial"
   ],
   "note": "Violated: only the first component is imported, so a class in a submodule that nobody has loaded raises AttributeError. Proved: the exact condition on the loaded modules, success for top level modules, the errors, and what is loaded."
  },
  {
   "property": "C258",
   "status": "partial",
   "theorems": [
    "Machin.Precision.C258_stuck",
    "Machin.Precision.C258_violated_near",
    "Machin.Precision.C258_violated_forgets",
    "Machin.Precision.C258_violated",
    "Machin.Precision.C258_closer_partial",
    "Machin.Precision.C258_bounded_partial",
    "Machin.Precision.C258_error_partial",
    "Machin.Precision.C258_usual_partial",
    "Machin.Precision.C258_usual_error_partial"
   ],
   "note": "Violated inside a narrow band around a mean other than 0, where the pull is rounded away and two starts never meet. Proved for every rounding: closer from outside the band, values in a band for bounded draws, and a bound of the distance from the exact process over all histories; instances for the usual parameters in single precision."
  },
  {
   "property": "C259",
   "status": "partial",
   "theorems": [
    "Machin.Noise.C259_violated",
    "Machin.Noise.C259_ended_partial",
    "Machin.Noise.C259_left_partial",
    "Machin.Noise.C259_restored_partial"
   ],
   "note": "Violated: the function only removes the hooks, so a model whose last pass was noisy keeps the noise and switching noise off afterwards has no effect. Proved: after the end passes do nothing and parameters move only with optimizer steps; exactly which noise is left, with and without a pass with noise off before the end; and the full claim when noise is drawn once and a pass with noise off precedes the end."
  },
  {
   "property": "C260",
   "status": "partial",
   "theorems": [
    "Machin.Algo.C260_violated",
    "Machin.Algo.C260_violated_maddpg",
    "Machin.Algo.C260_reported_partial",
    "Machin.Algo.C260_fits_partial",
    "Machin.Algo.C260_gail_partial",
    "Machin.Algo.C260_maddpg_partial"
   ],
   "note": "Violated by MADDPG (optimizers begin with the critics, schedulers with the actors) for all numbers of agents, and by GAIL with a scheduler of its own only. Proved: every algorithm reports each of its schedulers once, in order of creation, after any number of steps; position by position fit for all algorithms but these two, for GAIL with the schedulers of its policy optimisation, and the exact order for MADDPG without arguments."
  },
  {
   "property": "C261",
   "status": "partial",
   "theorems": [
    "Machin.Media.C261_violated",
    "Machin.Media.C261_colour_partial",
    "Machin.Media.C261_grey_partial",
    "Machin.Media.C261_exact_partial",
    "Machin.Media.C261_second_partial",
    "Machin.Media.C261_order_partial",
    "Machin.Media.C261_empty_partial"
   ],
   "note": "Violated for grey pictures: the panel of the original is scaled to the range of the picture (vmin and vmax are its own minimum and maximum), so dark and bright pictures look alike. Proved: pictures in colour are shown with their brightness; for grey pictures exactly what is shown, and that it is the brightness only if the picture is black or reaches from 0 to 1; the second panel lies in [0, 1), contains black, nearly reaches full brightness and keeps the order strictly. The behaviour of imshow of matplotlib is an assumption of the model."
  },
  {
   "property": "C262",
   "status": "partial",
   "theorems": [
    "Machin.Media.C262_violated",
    "Machin.Media.C262_violated_daemon",
    "Machin.Media.C262_wait_partial",
    "Machin.Media.C262_kept_partial",
    "Machin.Media.C262_calls_partial",
    "Machin.Media.C262_image_partial",
    "Machin.Media.C262_violated_daemonic"
   ],
   "note": "Violated: the returned function joins the child without looking at its exit code, so it returns normally after a failure; with the default daemon=True the child is terminated when the caller ends; in a daemonic process both functions raise also with daemon=False, against the documentation. Proved for all histories: when the returned function returns the child has written its file or failed, and if it has not failed and is alone on its path the file has the frames of the list at the time of the call; with daemon=False the file is written in the end; lists of the caller are unchanged."
  }
 ]
}