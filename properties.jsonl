{"id": "C01", "title": "SegmentTree read-after-write", "statement": "After any sequence of accepted assignments tree[index] = value (scalar or vectorised, duplicates in index allowed), reading tree[i] returns the value most recently assigned to slot i (the later element wins inside one vectorised assignment), and 0 if slot i was never assigned; an assignment with an out-of-range index is rejected and changes nothing.", "quantifier": "all tree sizes, all histories of scalar/vectorised assignments, all indices", "why_tests_cant": "the number of histories and sizes is unbounded; off-by-one errors between leaf offset and bound depend on the size relative to a power of two", "anchors": ["tianshou/data/utils/segtree.py:SegmentTree.__init__", "tianshou/data/utils/segtree.py:SegmentTree.__getitem__", "tianshou/data/utils/segtree.py:SegmentTree.__setitem__", "tianshou/data/utils/segtree.py:_setitem"]}
{"id": "C02", "title": "SegmentTree.reduce is the exact interval sum", "statement": "After any sequence of accepted assignments, reduce() equals the sum of all entries and reduce(start, end) equals the sum of value[start:end], where end=None means size and a negative end counts from the end as in a Python slice.", "quantifier": "all sizes, all assignment histories, all 0 <= start, all end in the documented range", "why_tests_cant": "quadratically many (start, end) pairs for every size and history; the iterative bottom-up walk has parity cases at each of log(n) levels", "anchors": ["tianshou/data/utils/segtree.py:SegmentTree.reduce", "tianshou/data/utils/segtree.py:_reduce", "tianshou/data/utils/segtree.py:_setitem"]}
{"id": "C03", "title": "get_prefix_sum_idx inverts the cumulative sum", "statement": "For a tree with non-negative entries and 0 <= v < total, get_prefix_sum_idx(v) returns the minimum index i with v <= arr[0]+...+arr[i]; the index is inside the array, and for v > 0 its entry is strictly positive. Hence the set of v > 0 mapped to i is exactly the half-open interval (S_i, S_{i+1}], whose length is arr[i]: sampling v uniformly selects i with probability proportional to arr[i]. Values outside [0, total) are rejected.", "quantifier": "all sizes, all non-negative contents reachable by assignments, all v", "why_tests_cant": "v is continuous and the result must be exact at every boundary; tests sample a handful of v", "anchors": ["tianshou/data/utils/segtree.py:SegmentTree.get_prefix_sum_idx", "tianshou/data/utils/segtree.py:_get_prefix_sum_idx"]}
{"id": "C04", "title": "Prefix-sum query leaves its argument alone", "statement": "Calling get_prefix_sum_idx with an array of values does not change the caller's array.", "quantifier": "all trees and all value arrays", "why_tests_cant": "aliasing effects only show when the caller reuses the array, which depends on tree contents and on the values", "anchors": ["tianshou/data/utils/segtree.py:_get_prefix_sum_idx"]}
{"id": "C05", "title": "ReplayBuffer is a FIFO of the last maxsize transitions", "statement": "After any sequence of add, update-from-another-buffer and reset calls, len(buffer) = min(number of transitions received since the last reset, maxsize) and the stored data, read in the order given by sample_indices(0), is exactly the last len(buffer) transitions received since the last reset, in order; nothing else is readable through those indices.", "quantifier": "all maxsize > 0, all operation histories", "why_tests_cant": "wrap-around interacts with resets and stale data left in slots; histories are unbounded", "anchors": ["tianshou/data/buffer/base.py:ReplayBuffer.add", "tianshou/data/buffer/base.py:ReplayBuffer._update_state_pre_add", "tianshou/data/buffer/base.py:ReplayBuffer.sample_indices", "tianshou/data/buffer/base.py:ReplayBuffer.reset", "tianshou/data/buffer/base.py:ReplayBuffer.update"]}
{"id": "C06", "title": "sample_indices(0) enumerates each live slot exactly once, oldest first", "statement": "sample_indices(0) (and buffer[:]) has length len(buffer), contains no duplicates, contains exactly the slots 0..len-1 and lists them from oldest to newest.", "quantifier": "all reachable buffers", "why_tests_cant": "depends on the insertion pointer at every wrap position", "anchors": ["tianshou/data/buffer/base.py:ReplayBuffer.sample_indices", "tianshou/data/buffer/base.py:ReplayBuffer.__getitem__"]}
{"id": "C07", "title": "Sampled indices are always live", "statement": "For every batch_size and every random outcome, sample_indices returns only slots holding live transitions; it returns batch_size of them for batch_size > 0 on a non-empty buffer, len(buffer) of them for None, and none for a negative batch_size.", "quantifier": "all reachable buffers, all batch sizes, all random outcomes, all stack_num/sample_avail options", "why_tests_cant": "random outcomes and histories cannot be enumerated", "anchors": ["tianshou/data/buffer/base.py:ReplayBuffer.sample_indices"]}
{"id": "C08", "title": "prev steps back within the episode", "statement": "For a live transition, prev returns the slot of the transition received immediately before it if that transition is still stored and did not end an episode; otherwise prev returns the same slot. In particular prev never crosses an episode boundary or the oldest/newest seam, whatever stale flags overwritten or reset data left behind.", "quantifier": "all reachable buffers, all live slots", "why_tests_cant": "the seam position, wrap-around and stale done flags combine in unboundedly many ways", "anchors": ["tianshou/data/buffer/base.py:ReplayBuffer.prev"]}
{"id": "C09", "title": "next steps forward within the episode", "statement": "For a live transition, next returns the slot of the transition received immediately after it unless it ended its episode or is the newest one, in which case next returns the same slot.", "quantifier": "all reachable buffers, all live slots", "why_tests_cant": "same as for prev", "anchors": ["tianshou/data/buffer/base.py:ReplayBuffer.next"]}
{"id": "C10", "title": "prev and next are mutually inverse inside an episode", "statement": "If next moves (next(i) != i) then prev(next(i)) = i, and if prev moves then next(prev(i)) = i; iterating next from a live slot stays inside its episode and reaches its last stored transition after finitely many (at most len-1) steps and stays there.", "quantifier": "all reachable buffers, all live slots, all iteration counts", "why_tests_cant": "requires reasoning about all positions simultaneously", "anchors": ["tianshou/data/buffer/base.py:ReplayBuffer.prev", "tianshou/data/buffer/base.py:ReplayBuffer.next"]}
{"id": "C11", "title": "unfinished_index identifies exactly the open episode", "statement": "unfinished_index returns the slot of the newest transition if the buffer is non-empty and that transition did not end an episode, and an empty array otherwise.", "quantifier": "all reachable buffers", "why_tests_cant": "depends on the pointer modulo size at every fill level", "anchors": ["tianshou/data/buffer/base.py:ReplayBuffer.unfinished_index"]}
{"id": "C12", "title": "add reports the true episode statistics", "statement": "When the added transition ends an episode, add returns as episode length and return the number of transitions and the reward sum of that episode since the previous end of episode (or since the last statistics-clearing reset), also when the episode is longer than the buffer or spans a statistics-keeping reset; otherwise it returns zero for both. It returns the slot written.", "quantifier": "all histories of add/reset with both reset modes", "why_tests_cant": "episodes may wrap, exceed the capacity and span resets", "anchors": ["tianshou/data/buffer/base.py:ReplayBuffer._update_state_pre_add", "tianshou/data/buffer/base.py:ReplayBuffer.add", "tianshou/data/buffer/base.py:ReplayBuffer.reset"]}
{"id": "C13", "title": "Episode retrieval by get_buffer_indices", "statement": "When add reports the end of an episode that fits in the buffer, get_buffer_indices(start, last + 1) with the reported start and slot returns exactly the slots of that episode's transitions in chronological order.", "quantifier": "all histories, all wrap positions", "why_tests_cant": "the wrap position, the episode length and the edge cases start = stop interact", "anchors": ["tianshou/data/buffer/base.py:ReplayBuffer.get_buffer_indices", "tianshou/data/buffer/base.py:ReplayBuffer._get_start_stop_tuples_for_edge_crossing_interval"]}
{"id": "C14", "title": "No spurious MalformedBufferError", "statement": "A buffer used only through its public add/update/reset operations never raises MalformedBufferError from add.", "quantifier": "all operation histories", "why_tests_cant": "needs an invariant over all histories", "anchors": ["tianshou/data/buffer/base.py:ReplayBuffer._update_state_pre_add"]}
{"id": "C15", "title": "update moves all data in order", "statement": "dst.update(src) appends to dst exactly the transitions stored in src, oldest first, as if they had been added one by one; it returns the slots written in that order, leaves src unchanged, and is a no-op returning an empty array when src is empty.", "quantifier": "all pairs of reachable buffers, including src larger than dst", "why_tests_cant": "two independent wrap positions and overwriting inside one vectorised assignment", "anchors": ["tianshou/data/buffer/base.py:ReplayBuffer.update"]}
{"id": "C16", "title": "Frame stacking never mixes episodes", "statement": "get(i, key, stack_num=k) returns the values at the k most recent steps t-k+1..t of the same episode ending at slot i, in chronological order, with missing earlier steps replaced by the first stored step of that episode.", "quantifier": "all reachable buffers, live slots, k >= 1", "why_tests_cant": "all combinations of episode boundaries, seam and k", "anchors": ["tianshou/data/buffer/base.py:ReplayBuffer.get"]}
{"id": "C17", "title": "sample_avail returns exactly the fully stackable slots", "statement": "With stack_num = k > 1 and sample_avail, sample_indices(0) lists exactly those live slots having at least k-1 predecessors of the same episode in the buffer, in chronological order; random sampling only returns such slots.", "quantifier": "all reachable buffers, all k > 1", "why_tests_cant": "as for frame stacking", "anchors": ["tianshou/data/buffer/base.py:ReplayBuffer.sample_indices"]}
{"id": "C18", "title": "obs_next reconstruction", "statement": "With ignore_obs_next=True, buffer[i].obs_next is the obs of the following transition of the same episode; so whenever consecutive transitions satisfy obs_{t+1} = obs_next_t, it equals the obs_next that was passed to add for every transition that is neither the end of an episode nor the newest one; for those it is the transition's own obs.", "quantifier": "all reachable buffers, all live slots", "why_tests_cant": "depends on next at every seam", "anchors": ["tianshou/data/buffer/base.py:ReplayBuffer.__getitem__", "tianshou/data/buffer/base.py:ReplayBuffer.next"]}
{"id": "C19", "title": "buffer_ids validation on a plain buffer", "statement": "ReplayBuffer.add with buffer_ids other than a single element equal to 0 raises ValueError.", "quantifier": "all buffer_ids", "why_tests_cant": "infinitely many id lists; the check mixes two conditions", "anchors": ["tianshou/data/buffer/base.py:ReplayBuffer.add"]}
{"id": "C20", "title": "Vector buffer = independent sub-buffers", "statement": "After any sequence of add(batch, buffer_ids) and reset on a vector buffer, the data readable in sub-buffer b is exactly what a separate ReplayBuffer of the same size would hold after receiving only the transitions routed to b, in order; adding to one sub-buffer never changes another. add returns the global slot (offset + local slot) and the episode statistics of that sub-buffer.", "quantifier": "all numbers and sizes of sub-buffers, all histories, all id lists including repeated ids", "why_tests_cant": "interleavings over many sub-buffers cannot be enumerated", "anchors": ["tianshou/data/buffer/manager.py:ReplayBufferManager.add", "tianshou/data/buffer/manager.py:ReplayBufferManager.reset", "tianshou/data/buffer/manager.py:ReplayBufferManager.__init__"]}
{"id": "C21", "title": "Vector prev/next stay in their sub-buffer", "statement": "For a live global slot of sub-buffer b, prev and next on the vector buffer return offset_b plus what prev/next of a separate buffer holding b's data would return; for every index (live or not, also negative ones) the result lies in the same sub-buffer as the normalised index.", "quantifier": "all reachable vector buffers, all integer indices", "why_tests_cant": "masks, offsets and lengths per sub-buffer; negative indices", "anchors": ["tianshou/data/buffer/manager.py:_prev_index", "tianshou/data/buffer/manager.py:_next_index", "tianshou/data/buffer/manager.py:ReplayBufferManager.prev", "tianshou/data/buffer/manager.py:ReplayBufferManager.next"]}
{"id": "C22", "title": "Vector len and unfinished_index", "statement": "len(vector buffer) is the sum of the lengths of the sub-buffers' contents, and unfinished_index lists exactly, in sub-buffer order, the newest slot of each sub-buffer whose newest transition did not end an episode.", "quantifier": "all reachable vector buffers", "why_tests_cant": "as above", "anchors": ["tianshou/data/buffer/manager.py:ReplayBufferManager.__len__", "tianshou/data/buffer/manager.py:ReplayBufferManager.unfinished_index"]}
{"id": "C23", "title": "Vector sampling returns batch_size live slots", "statement": "For batch_size > 0 on a non-empty vector buffer and every random outcome possible under the length-proportional draw, sample_indices returns exactly batch_size indices, all of them live; for 0 or None it returns every live slot exactly once; in particular a sub-buffer drawn zero times contributes nothing.", "quantifier": "all reachable vector buffers, batch sizes, random outcomes", "why_tests_cant": "random outcomes; the 0 -> -1 substitution matters only for rare draws", "anchors": ["tianshou/data/buffer/manager.py:ReplayBufferManager.sample_indices"]}
{"id": "C24", "title": "VectorReplayBuffer capacity", "statement": "VectorReplayBuffer(total_size, buffer_num) consists of buffer_num sub-buffers of equal size whose total capacity is at least total_size and less than total_size + buffer_num, with contiguous disjoint slot ranges covering [0, capacity).", "quantifier": "all total_size >= 0 and buffer_num > 0", "why_tests_cant": "unbounded arithmetic", "anchors": ["tianshou/data/buffer/vecbuf.py:VectorReplayBuffer.__init__", "tianshou/data/buffer/manager.py:ReplayBufferManager.__init__"]}
{"id": "C25", "title": "CachedReplayBuffer main part holds only whole episodes", "statement": "After any sequence of adds on a CachedReplayBuffer, the main buffer's content is the last maxsize transitions of the concatenation, in order of completion, of the finished episodes (each cut to its last max_episode_length transitions), and cached buffer b holds the last max_episode_length transitions of the currently open episode of b; transitions of different environments are never interleaved inside an episode of the main buffer.", "quantifier": "all histories with distinct ids per call", "why_tests_cant": "arbitrary interleavings of environments and episode ends", "anchors": ["tianshou/data/buffer/cached.py:CachedReplayBuffer.add"]}
{"id": "C26", "title": "Prioritised sampling returns live slots", "statement": "On a non-empty PrioritizedReplayBuffer that has not been reset, sample_indices(n) for n > 0 returns n live slots for every random outcome u in [0,1), each slot i being chosen exactly for u in an interval of length weight_i / total.", "quantifier": "all histories of add/update/update_weight, all random outcomes", "why_tests_cant": "continuous randomness and unbounded histories", "anchors": ["tianshou/data/buffer/prio.py:PrioritizedReplayBuffer.sample_indices", "tianshou/data/buffer/prio.py:PrioritizedReplayBuffer.add", "tianshou/data/buffer/prio.py:PrioritizedReplayBuffer.update_weight"]}
{"id": "C27", "title": "Prioritised sampling after reset", "statement": "After reset, sampling only returns transitions added after the reset.", "quantifier": "all histories containing a reset", "why_tests_cant": "stale state in a secondary structure", "anchors": ["tianshou/data/buffer/prio.py:PrioritizedReplayBuffer.sample_indices", "tianshou/data/buffer/base.py:ReplayBuffer.reset"]}
{"id": "C28", "title": "New transitions get maximal priority", "statement": "A transition just added is stored with priority at least that of every priority assigned before, so it is at least as likely to be sampled as any other transition.", "quantifier": "all histories of add/update_weight, all alpha > 0", "why_tests_cant": "unbounded histories over real numbers", "anchors": ["tianshou/data/buffer/prio.py:PrioritizedReplayBuffer.init_weight", "tianshou/data/buffer/prio.py:PrioritizedReplayBuffer.update_weight"]}
{"id": "C29", "title": "Importance weights are normalised correctly", "statement": "With weight normalisation, the weight returned for slot i in a batch equals (p_i / p_min)^(-beta) where p_i is the stored priority and p_min the smallest priority in the batch; all weights lie in (0, 1] and the least likely transition gets weight 1.", "quantifier": "all positive priorities, beta >= 0, all batches", "why_tests_cant": "real-valued formula, all batches", "anchors": ["tianshou/data/buffer/prio.py:PrioritizedReplayBuffer.get_weight", "tianshou/data/buffer/prio.py:PrioritizedReplayBuffer.__getitem__"]}
{"id": "C30", "title": "set_beta takes effect on a vector prioritised buffer", "statement": "After set_beta(b) on a PrioritizedVectorReplayBuffer, importance weights returned by the buffer use exponent b.", "quantifier": "all buffers and b", "why_tests_cant": "needs to follow two copies of the exponent through all operations", "anchors": ["tianshou/data/buffer/vecbuf.py:PrioritizedVectorReplayBuffer.set_beta", "tianshou/data/buffer/prio.py:PrioritizedReplayBuffer.get_weight"]}
{"id": "C31", "title": "HER relabelling is invisible to the stored data", "statement": "For any interleaving of sampling, add and reset on a HERReplayBuffer, after the temporary relabelling is undone (before every write or new sampling) the stored transitions are exactly the ones that were added; relabelling is never compounded.", "quantifier": "all operation sequences and all random outcomes", "why_tests_cant": "relabelling writes into the buffer; all interleavings must restore it", "anchors": ["tianshou/data/buffer/her.py:HERReplayBuffer._restore_cache", "tianshou/data/buffer/her.py:HERReplayBuffer.rewrite_transitions", "tianshou/data/buffer/her.py:HERReplayBuffer.sample_indices"]}
{"id": "C32", "title": "HER goals come from the future of the same episode", "statement": "The goal substituted for a sampled transition is a goal achieved at the same or a later step of the same stored episode, and only transitions of the sampled episodes from the sampled step on are altered.", "quantifier": "all reachable buffers, sampled indices, random outcomes, horizons at least the episode length", "why_tests_cant": "random offsets, wrap-around and episode boundaries", "anchors": ["tianshou/data/buffer/her.py:HERReplayBuffer.rewrite_transitions"]}
{"id": "C33", "title": "GAE closed form", "statement": "compute_episodic_return yields for every step t the advantage sum_{l=0}^{T-t} (gamma*lambda)^l delta_{t+l} with delta_k = r_k + gamma*V(s'_k)*[not terminated_k] - V(s_k) and T the first step at or after t that ends an episode or is the newest step of an unfinished one (or the end of the batch); no term from another episode enters.", "quantifier": "all batch lengths, rewards, values, flags, gamma, lambda", "why_tests_cant": "all lengths and flag patterns", "anchors": ["tianshou/policy/base.py:BasePolicy.compute_episodic_return", "tianshou/policy/base.py:_gae_return"]}
{"id": "C34", "title": "Returns satisfy the TD(lambda) recursion", "statement": "The returned returns equal advantage + V(s) and satisfy G_t = r_t + gamma*((1-lambda)*V' + lambda*G_{t+1}) inside an episode (V' = V(s_{t+1})), and G_T = r_T + gamma*V(s'_T)*[not terminated_T] at its last step.", "quantifier": "all batches whose next-state values agree with the following state's value inside episodes", "why_tests_cant": "all lengths and flag patterns", "anchors": ["tianshou/policy/base.py:BasePolicy.compute_episodic_return", "tianshou/policy/base.py:_gae_return"]}
{"id": "C35", "title": "lambda = 1 gives Monte-Carlo returns", "statement": "With gae_lambda = 1 and v_s not given (policy-gradient use) the return at t is sum_{k=t}^{T} gamma^{k-t} r_k plus gamma^{T-t+1} V(s'_T) if the episode was truncated or is unfinished, and exactly the Monte-Carlo sum when v_s_ is None or the episode terminated; the values used for the neighbouring steps cancel.", "quantifier": "all batches", "why_tests_cant": "telescoping over all lengths, with rolled values crossing episode boundaries", "anchors": ["tianshou/policy/base.py:BasePolicy.compute_episodic_return", "tianshou/policy/modelfree/pg.py:PGPolicy.process_fn"]}
{"id": "C36", "title": "n-step return", "statement": "compute_nstep_return yields sum_{k<m} gamma^k r_{t+k} + gamma^m * Q_target(obs_next of step t+m-1) * [step t+m-1 not terminated], where m = min(n, number of steps from t to the end of its stored episode), for every index, also across the wrap seam and for unfinished episodes.", "quantifier": "all reachable buffers, all live indices, all n >= 1, gamma, rewards, target functions", "why_tests_cant": "all positions relative to episode ends and the wrap seam", "anchors": ["tianshou/policy/base.py:BasePolicy.compute_nstep_return", "tianshou/policy/base.py:_nstep_return"]}
{"id": "C37", "title": "Monte-Carlo return-to-go hook", "statement": "episode_mc_return_to_go(r, gamma)[t] = sum_{k>=t} gamma^{k-t} r_k for every non-empty episode, and the MC-return hook assigns the full-episode return (the value at t = 0) to every step.", "quantifier": "all non-empty reward sequences, all gamma", "why_tests_cant": "all lengths", "anchors": ["tianshou/policy/base.py:episode_mc_return_to_go", "tianshou/data/collector.py:EpisodeRolloutHookMCReturn"]}
{"id": "C38", "title": "Mapped actions lie in the action space", "statement": "With action_bound_method clip or tanh and action_scaling, map_action sends every real raw action into [low, high] componentwise, monotonically; without bounding, raw actions outside [-1, 1] are rejected when scaling is on.", "quantifier": "all raw actions and all boxes low <= high", "why_tests_cant": "continuous inputs", "anchors": ["tianshou/policy/base.py:BasePolicy.map_action"]}
{"id": "C39", "title": "map_action_inverse is a right inverse", "statement": "For every action a of a (non-degenerate) box, map_action(map_action_inverse(a)) = a with scaling on (strictly inside the box for tanh).", "quantifier": "all boxes and all actions", "why_tests_cant": "continuous inputs, boundary and degenerate components", "anchors": ["tianshou/policy/base.py:BasePolicy.map_action_inverse", "tianshou/policy/base.py:BasePolicy.map_action"]}
{"id": "C40", "title": "Masked actions are never chosen", "statement": "With an action mask that allows at least one action, the greedy action of DQN-style policies is an allowed action of maximal Q-value among the allowed ones, for arbitrary Q-values; the random actions of epsilon-greedy exploration are allowed actions as well.", "quantifier": "all Q-value batches, masks, random outcomes", "why_tests_cant": "continuous Q-values; the offset trick depends on the min/max over the whole batch", "anchors": ["tianshou/policy/modelfree/dqn.py:DQNPolicy.compute_q_value", "tianshou/policy/modelfree/dqn.py:DQNPolicy.forward", "tianshou/policy/modelfree/dqn.py:DQNPolicy.exploration_noise"]}
{"id": "C41", "title": "Target network lags by the configured schedule", "statement": "In DQN-style policies with target_update_freq = f > 0, during the k-th learn call (k = 0, 1, ...) the target network's weights are the online weights at the start of learn call f*(k div f); with f = 0 no target network is used.", "quantifier": "all numbers of learn calls, all weight trajectories", "why_tests_cant": "unbounded histories", "anchors": ["tianshou/policy/modelfree/dqn.py:DQNPolicy.learn", "tianshou/policy/modelfree/dqn.py:DQNPolicy.sync_weight"]}
{"id": "C42", "title": "Polyak averaging", "statement": "n soft updates with constant source weights s and coefficient tau turn target weights t into (1-tau)^n t + (1-(1-tau)^n) s; for tau in [0,1] each update keeps every target weight between its old value and the source weight.", "quantifier": "all parameter lists, tau, n", "why_tests_cant": "unbounded iteration over reals", "anchors": ["tianshou/policy/base.py:BasePolicy.soft_update"]}
{"id": "C43", "title": "Multi-agent dispatch", "statement": "MultiAgentPolicyManager.forward gives row i of the result the action its agent's policy computed for exactly that row, for every assignment of known agent ids to rows; process_fn gives each agent exactly its rows, in order, with its own reward column, and leaves buffer.rew as it was.", "quantifier": "all batches and agent assignments", "why_tests_cant": "arbitrary interleavings of agents in a batch", "anchors": ["tianshou/policy/multiagent/mapolicy.py:MultiAgentPolicyManager.forward", "tianshou/policy/multiagent/mapolicy.py:MultiAgentPolicyManager.process_fn"]}
{"id": "C44", "title": "C51 projection conserves mass", "statement": "The projected target distribution of C51 has non-negative entries, total mass equal to that of the next-state distribution, and its mean equals the mean of the clamped target support under that distribution.", "quantifier": "all returns, supports (num_atoms > 1, v_min < v_max), distributions", "why_tests_cant": "continuous inputs; boundary atoms", "anchors": ["tianshou/policy/modelfree/c51.py:C51Policy._target_dist"]}
{"id": "C45", "title": "Mode flags are restored", "statement": "After any use of torch_train_mode / policy_within_training_step, nested arbitrarily and left normally or by an exception, the training mode and the within-training-step flag have their previous values; policy.update raises outside a training step, and after update the updating flag is False again.", "quantifier": "all nestings and exception points", "why_tests_cant": "exception points and nestings cannot be enumerated", "anchors": ["tianshou/utils/torch_utils.py:torch_train_mode", "tianshou/utils/torch_utils.py:policy_within_training_step", "tianshou/policy/base.py:BasePolicy.update"]}
{"id": "C46", "title": "Batch.split partitions the batch", "statement": "For every length and size >= 1 (or -1) and every permutation, the minibatches of split, concatenated, are exactly the (permuted) rows, each once; without merge_last every minibatch but the last has exactly size rows and the last between 1 and size; with merge_last and length >= size every minibatch has at least size and fewer than 2*size rows; an empty batch with size -1 is rejected.", "quantifier": "all lengths, sizes, permutations", "why_tests_cant": "unbounded lengths, boundary arithmetic at every remainder", "anchors": ["tianshou/data/batch.py:Batch.split"]}
{"id": "C47", "title": "Batch stack/index and cat/slice laws", "statement": "Stacking k batches of the same structure and indexing the result at i gives back the i-th batch; concatenating batches of the same structure and slicing out the i-th segment gives back the i-th batch; the length of the concatenation is the sum of the lengths.", "quantifier": "all nested structures, all lengths", "why_tests_cant": "arbitrarily nested trees", "anchors": ["tianshou/data/batch.py:Batch.stack_", "tianshou/data/batch.py:Batch.cat_", "tianshou/data/batch.py:Batch.__cat", "tianshou/data/batch.py:Batch.__getitem__"]}
{"id": "C48", "title": "Batch item assignment", "statement": "After b[i] = v for a batch v whose keys are a subset of b's, b[i] reads back v on v's keys and zero on the missing ones, all other rows are unchanged; assignment with an unknown key is rejected without effect at the top level.", "quantifier": "all nested structures, indices", "why_tests_cant": "arbitrarily nested trees", "anchors": ["tianshou/data/batch.py:Batch.__setitem__", "tianshou/data/batch.py:Batch.__getitem__"]}
{"id": "C49", "title": "HDF5 round trip", "statement": "Loading what save_hdf5 wrote gives back an equal nested structure of batches, dicts, arrays, tensors, numbers and pickled objects.", "quantifier": "all nested values", "why_tests_cant": "arbitrarily nested trees", "anchors": ["tianshou/data/utils/converter.py:to_hdf5", "tianshou/data/utils/converter.py:from_hdf5"]}
{"id": "C50", "title": "Asynchronous vector env: ready/stepping partition", "statement": "At every point of any call history with distinct ids per step call, every environment id is either ready or being stepped, never both and never lost; step(action, ids) is rejected for an id that is being stepped; every step call returns at least one result, each result carries the id of the environment it came from and answers the action last sent to that environment; no result is lost or delivered twice.", "quantifier": "all numbers of environments, wait_num, schedules of worker completion and call histories", "why_tests_cant": "schedules are unbounded and nondeterministic", "anchors": ["tianshou/env/venvs.py:BaseVectorEnv.step", "tianshou/env/venvs.py:BaseVectorEnv._assert_id"]}
{"id": "C51", "title": "Synchronous vector env routes actions and results by id", "statement": "In synchronous mode, step(actions, ids) applies actions[k] to environment ids[k] and row k of the result is that environment's response, also when ids is permuted or a subset; environments not listed are untouched.", "quantifier": "all id lists without repetition, all environments", "why_tests_cant": "all permutations and subsets", "anchors": ["tianshou/env/venvs.py:BaseVectorEnv.step", "tianshou/env/venvs.py:BaseVectorEnv.reset"]}
{"id": "C52", "title": "Subprocess workers pair replies with requests", "statement": "Every value returned by a SubprocEnvWorker-based vector env call (step, reset, get_env_attr, seed, render) is the worker's reply to that very request.", "quantifier": "all call histories of an asynchronous vector env", "why_tests_cant": "pipe contents depend on the interleaving", "anchors": ["tianshou/env/worker/subproc.py:_worker", "tianshou/env/worker/subproc.py:SubprocEnvWorker", "tianshou/env/venvs.py:BaseVectorEnv.seed"]}
{"id": "C53", "title": "Vector env seeding", "statement": "seed(s) with an integer gives environment i the seed s + i, so seeds are pairwise distinct; with a list of the right length it gives environment i the i-th entry; a list of wrong length is rejected.", "quantifier": "all env counts and seeds", "why_tests_cant": "unbounded", "anchors": ["tianshou/env/venvs.py:BaseVectorEnv.seed"]}
{"id": "C54", "title": "MultiDiscreteToDiscrete is a bijection", "statement": "The wrapper maps the discrete actions 0..prod(nvec)-1 one-to-one onto all multi-discrete actions, each component below its nvec.", "quantifier": "all nvec with positive entries", "why_tests_cant": "unbounded mixed-radix arithmetic", "anchors": ["tianshou/env/gym_wrappers.py:MultiDiscreteToDiscrete"]}
{"id": "C55", "title": "ContinuousToDiscrete stays in the box", "statement": "Every discrete action is mapped to a point of the continuous box; with at least two points per dimension the extreme actions map to low and high, and the mapping is strictly increasing in each non-degenerate dimension.", "quantifier": "all boxes and resolutions", "why_tests_cant": "continuous bounds", "anchors": ["tianshou/env/gym_wrappers.py:ContinuousToDiscrete"]}
{"id": "C56", "title": "RunningMeanStd equals pooled statistics", "statement": "After updates with any non-empty batches, mean and var equal the mean and population variance of all data seen, independent of how the data was split into batches; count is the number of items.", "quantifier": "all data streams and batch splits", "why_tests_cant": "all splits", "anchors": ["tianshou/utils/statistics.py:RunningMeanStd.update"]}
{"id": "C57", "title": "MovAvg averages the last size finite values", "statement": "After any adds, get() is the mean of the last size finite values added (all of them if size = 0, 0 if none); infinities and NaN are never averaged in.", "quantifier": "all add histories", "why_tests_cant": "all histories; NaN comparison semantics", "anchors": ["tianshou/utils/statistics.py:MovAvg"]}
{"id": "C58", "title": "collect(n_episode) collects exactly n_episode episodes", "statement": "If collect(n_episode=n) with n >= 1 returns, it collected exactly n finished episodes, for every environment behaviour.", "quantifier": "all env counts, n, environment behaviours", "why_tests_cant": "environment behaviours are unbounded", "anchors": ["tianshou/data/collector.py:Collector._collect"]}
{"id": "C59", "title": "collect(n_step) collects the least multiple of env_num", "statement": "collect(n_step=n) adds exactly the least multiple of env_num that is at least n transitions, the same number from each environment, for every environment behaviour, and always terminates.", "quantifier": "all env counts, n, behaviours", "why_tests_cant": "environment behaviours are unbounded", "anchors": ["tianshou/data/collector.py:Collector._collect"]}
{"id": "C60", "title": "Every environment contributes", "statement": "With n_episode >= env_num, every environment contributes at least one of the collected episodes, and an environment is only dropped right after finishing an episode, so no episode is collected partially.", "quantifier": "all env counts, n, behaviours", "why_tests_cant": "environment behaviours are unbounded", "anchors": ["tianshou/data/collector.py:Collector._collect"]}
{"id": "C61", "title": "Collected transitions form trajectories", "statement": "In each environment's stream of stored transitions, obs of a transition is obs_next of the preceding one if that did not end an episode and the observation returned by reset otherwise; action and reward stored belong to that environment's own step, also after environments were dropped and across collect calls.", "quantifier": "all env counts, behaviours, policies, sequences of collect calls", "why_tests_cant": "index juggling between local and global ids over arbitrary behaviours", "anchors": ["tianshou/data/collector.py:Collector._collect"]}
{"id": "C62", "title": "Asynchronous collector pairs observations, actions and results", "statement": "For every completion schedule, each transition stored by AsyncCollector consists of the observation on which the environment's pending action was computed, that action, and that environment's result.", "quantifier": "all schedules", "why_tests_cant": "schedules are unbounded", "anchors": ["tianshou/data/collector.py:AsyncCollector._collect"]}
{"id": "C63", "title": "Merged episode hooks detect overlaps", "statement": "EpisodeRolloutHookMerged with overlap checking raises KeyError exactly when two hooks return a common key, and otherwise returns the union of the outputs (None if there are none).", "quantifier": "all hook outputs", "why_tests_cant": "all key sets", "anchors": ["tianshou/data/collector.py:EpisodeRolloutHookMerged"]}
{"id": "C64", "title": "collect argument validation", "statement": "collect is rejected unless exactly one of n_step, n_episode is given and positive.", "quantifier": "all argument combinations", "why_tests_cant": "infinite domain including zero and negative values", "anchors": ["tianshou/data/collector.py:BaseCollector._validate_n_step_n_episode"]}
{"id": "C65", "title": "Trainer runs the configured number of epochs", "statement": "Iterating a trainer yields epochs start+1, start+2, ... and stops after max_epoch or after the epoch in which stop_fn first succeeded, whichever is earlier; run always terminates if every collect returns at least one step.", "quantifier": "all max_epoch, start epochs, stop_fn behaviours and collection results", "why_tests_cant": "unbounded runs", "anchors": ["tianshou/trainer/base.py:BaseTrainer.__next__", "tianshou/trainer/base.py:BaseTrainer.reset", "tianshou/trainer/base.py:BaseTrainer.run"]}
{"id": "C66", "title": "Best score is the maximum", "statement": "After every test step, best_score is the maximum score over the initial test and all epoch tests, best_epoch the first epoch attaining it, and save_best_fn was last called for that policy.", "quantifier": "all score sequences", "why_tests_cant": "unbounded sequences", "anchors": ["tianshou/trainer/base.py:BaseTrainer.test_step", "tianshou/trainer/base.py:BaseTrainer._update_best_reward_and_return_should_stop_training"]}
{"id": "C67", "title": "Off-policy update-to-data ratio", "statement": "Off-policy training performs round(update_per_step * collected steps) gradient steps per collection and raises if that is 0; an epoch performs at least step_per_epoch and fewer than step_per_epoch + (size of one collection) environment steps unless stopped.", "quantifier": "all step counts and ratios", "why_tests_cant": "rounding at ties and unbounded runs", "anchors": ["tianshou/trainer/base.py:OffpolicyTrainer.policy_update_fn", "tianshou/trainer/base.py:BaseTrainer.__next__"]}
{"id": "C68", "title": "On-policy gradient step counting", "statement": "The gradient-step counter of the on-policy trainer increases per update by the number of minibatches the policy processed.", "quantifier": "all buffer lengths, batch sizes and repeat counts", "why_tests_cant": "float floor-division trick", "anchors": ["tianshou/trainer/base.py:OnpolicyTrainer.policy_update_fn", "tianshou/data/batch.py:Batch.split"]}
{"id": "C69", "title": "run(reset_prior_to_run=False) does not reset", "statement": "Running a trainer with reset_prior_to_run=False does not reset collectors or counters.", "quantifier": "all trainer states", "why_tests_cant": "hidden reset inside iteration protocol", "anchors": ["tianshou/trainer/base.py:BaseTrainer.run", "tianshou/trainer/base.py:BaseTrainer.__iter__"]}
{"id": "C70", "title": "weight_norm=False is honoured by prioritized vector buffers", "statement": "Constructing a prioritized vector replay buffer with weight_norm=False makes the importance weights it returns un-normalised, exactly as for a single prioritized buffer constructed with weight_norm=False.", "quantifier": "all sizes, sub-buffer numbers, priorities, batches", "why_tests_cant": "tests never construct a vector buffer with weight_norm=False and compare numbers", "anchors": ["tianshou/data/buffer/vecbuf.py:PrioritizedVectorReplayBuffer.__init__", "tianshou/data/buffer/manager.py:PrioritizedReplayBufferManager.__init__"]}
{"id": "C71", "title": "Un-normalised importance weights lie in (0, 1]", "statement": "With weight_norm=False, every importance weight returned for stored transitions lies in (0, 1], and a transition whose priority is the smallest ever assigned has weight 1.", "quantifier": "all priorities, alpha > 0, beta >= 0, eps > 0, operation sequences", "why_tests_cant": "quantifies over all exponents and priority histories; default is weight_norm=True", "anchors": ["tianshou/data/buffer/prio.py:PrioritizedReplayBuffer.get_weight", "tianshou/data/buffer/prio.py:PrioritizedReplayBuffer.update_weight"]}
{"id": "C72", "title": "Hindsight relabelling ratio", "statement": "With future_k = k >= 1, each sampling from a hindsight buffer leaves enough sampled episodes unaltered: the number of relabelled episodes is at most k - 1 times the number of sampled episodes that keep their goal.", "quantifier": "all buffers, histories, samples, random outcomes", "why_tests_cant": "the ratio must hold for each number of sampled episodes and every random outcome", "anchors": ["tianshou/data/buffer/her.py:HERReplayBuffer.__init__", "tianshou/data/buffer/her.py:HERReplayBuffer.rewrite_transitions"]}
{"id": "C73", "title": "Rewards of relabelled transitions match their new goal", "statement": "After sampling from a hindsight buffer, the reward of every relabelled transition equals the user's reward function applied to the goal achieved by that transition and the transition's new desired goal, whether or not obs_next is stored.", "quantifier": "all buffers, histories, samples, with and without ignore_obs_next", "why_tests_cant": "tests check one configuration with obs_next stored", "anchors": ["tianshou/data/buffer/her.py:HERReplayBuffer.rewrite_transitions"]}
{"id": "C74", "title": "Copying a hindsight buffer copies the original transitions", "statement": "update(other) with another hindsight buffer appends the transitions that were added to `other`, not temporarily relabelled versions of them.", "quantifier": "all histories of both buffers, including sampling just before the update", "why_tests_cant": "requires a particular interleaving of sampling and copying", "anchors": ["tianshou/data/buffer/her.py:HERReplayBuffer.update", "tianshou/data/buffer/her.py:HERReplayBuffer._restore_cache"]}
{"id": "C75", "title": "Observation normalisation uses the statistics of everything seen so far", "statement": "A VectorEnvNormObs with update_obs_rms=True returns every observation shifted and scaled by the mean and variance of all observations received so far (including the current ones) together with the initial prior, clipped to the clip range; with update_obs_rms=False the statistics never change.", "quantifier": "all sequences of reset and step calls with any number of environments, all observation values", "why_tests_cant": "tests compare a few steps of one environment with tolerances", "anchors": ["tianshou/env/venv_wrappers.py:VectorEnvNormObs", "tianshou/utils/statistics.py:RunningMeanStd"]}
{"id": "C76", "title": "Summary statistics of a collection", "statement": "For a non-empty sequence the reported max and min are attained, min <= mean <= max, mean is the arithmetic mean and std the square root of the mean squared deviation; for an empty sequence all are zero.", "quantifier": "all finite sequences of real numbers", "why_tests_cant": "unbounded sequences of reals", "anchors": ["tianshou/data/stats.py:SequenceSummaryStats.from_sequence"]}
{"id": "C77", "title": "Recurrent state follows its environment and restarts with its episode", "statement": "While collecting with a recurrent policy, the state passed to the policy for an environment is the state the policy returned for that environment in the preceding decision, or zero if the environment's episode ended since; after all environments were reset, and at the very first decision, no state is passed.", "quantifier": "all environments, recurrent policies, array/Batch/tensor states, sequences of reset and collect calls", "why_tests_cant": "the state's row moves whenever environments are dropped; needs all interleavings of episode ends and drops", "anchors": ["tianshou/data/collector.py:Collector._collect", "tianshou/data/collector.py:Collector._reset_hidden_state_based_on_type", "tianshou/data/collector.py:Collector.reset_env"]}
{"id": "C78", "title": "The asynchronous collector accepts what the synchronous one accepts", "statement": "Every policy and mode with which Collector.collect works (policies without recurrent state, random=True, vector actions) also works with AsyncCollector.collect on an asynchronous vector environment, and collecting terminates for every completion schedule.", "quantifier": "all policies, environments, schedules, reachable collector states", "why_tests_cant": "the tests use a recurrent policy with scalar actions only; termination ranges over all schedules", "anchors": ["tianshou/data/collector.py:AsyncCollector._collect", "tianshou/data/collector.py:AsyncCollector.__init__"]}
{"id": "C79", "title": "Resetting an asynchronous collector between collections", "statement": "AsyncCollector.reset succeeds at any time between collections, after which no environment has a pending step and all environments are freshly reset.", "quantifier": "all reachable states and schedules", "why_tests_cant": "whether steps are still pending depends on timing", "anchors": ["tianshou/data/collector.py:AsyncCollector.reset_env", "tianshou/env/venvs.py:BaseVectorEnv.reset"]}
{"id": "C80", "title": "The reward metric applies to every test", "statement": "If a reward_metric is given, every statistic used to decide about stopping, about the best score and about the reported best reward is the one after the metric was applied to the returns.", "quantifier": "all metrics, stop functions and sequences of results", "why_tests_cant": "three call sites; which of them is reached depends on the training history", "anchors": ["tianshou/trainer/utils.py:test_episode", "tianshou/trainer/base.py:BaseTrainer._update_best_reward_and_return_should_stop_training", "tianshou/trainer/base.py:BaseTrainer._collect_training_data"]}
{"id": "C81", "title": "Training-step flag during training", "statement": "During a trainer's run, training collections and policy updates see policy.is_within_training_step as True, test collections see it as False (as before the run), and it has its old value afterwards, also if the run ends with an exception.", "quantifier": "all trainers, runs and exceptions", "why_tests_cant": "every exit path of every nested context", "anchors": ["tianshou/utils/torch_utils.py:policy_within_training_step", "tianshou/trainer/base.py:BaseTrainer.training_step"]}
{"id": "C82", "title": "Environment-step accounting", "statement": "The environment step given to train_fn, test_fn and save_checkpoint_fn is the start value plus the number of steps of all training collections so far; the episode counter and (off-policy) gradient-step counter count collected episodes and updates.", "quantifier": "all runs, any number of epochs", "why_tests_cant": "unbounded runs", "anchors": ["tianshou/trainer/base.py:BaseTrainer.__next__", "tianshou/trainer/base.py:BaseTrainer._collect_training_data", "tianshou/trainer/base.py:BaseTrainer.reset"]}
{"id": "C83", "title": "reset starts from zero", "statement": "Resetting a trainer sets all its counters back to zero, or to the values restored from the log.", "quantifier": "all trainer states", "why_tests_cant": "depends on what was done before the reset", "anchors": ["tianshou/trainer/base.py:BaseTrainer.reset"]}
{"id": "C84", "title": "One initial test", "statement": "run() evaluates the policy once before the first epoch.", "quantifier": "all trainers with a test collector", "why_tests_cant": "hidden reset inside iteration protocol", "anchors": ["tianshou/trainer/base.py:BaseTrainer.run", "tianshou/trainer/base.py:BaseTrainer.__iter__", "tianshou/trainer/base.py:BaseTrainer.reset"]}
{"id": "C85", "title": "Initial values of RunningMeanStd", "statement": "A RunningMeanStd built with mean m and standard deviation s normalises x to (x - m) / sqrt(s^2 + eps), clipped to [-clip_max, clip_max], as long as it has no data; once it has, m and s have no influence.", "quantifier": "all m, s, clip_max, eps and data", "why_tests_cant": "real-valued inputs", "anchors": ["tianshou/utils/statistics.py:RunningMeanStd"]}
{"id": "C86", "title": "TruncatedAsTerminated changes only the flag", "statement": "An environment wrapped in TruncatedAsTerminated yields the same observations, rewards, infos, truncated flags and episode boundaries; terminated becomes terminated or truncated.", "quantifier": "all environments and trajectories", "why_tests_cant": "all environment behaviours", "anchors": ["tianshou/env/gym_wrappers.py:TruncatedAsTerminated"]}
{"id": "C87", "title": "TRPO stays in the trust region", "statement": "After TRPOPolicy processed a minibatch, either its actor parameters are unchanged or the mean KL divergence between the actor before and after is below max_kl and the surrogate loss is lower; the reported step size is the one taken.", "quantifier": "all surrogate losses, divergences, gradients, curvature operators, minibatches, repetitions and line search parameters", "why_tests_cant": "arbitrary real functions as losses and divergences", "anchors": ["tianshou/policy/modelfree/trpo.py:TRPOPolicy.learn"]}
{"id": "C88", "title": "Natural gradient direction", "statement": "The search direction of NPG and TRPO is finite, a descent direction of the surrogate loss, and solves (H + damping I) d = -g up to the tolerance of the solver when there are no more parameters than solver steps.", "quantifier": "all gradients, positive semidefinite curvature operators, dampings and tolerances", "why_tests_cant": "real linear algebra in any dimension", "anchors": ["tianshou/policy/modelfree/npg.py:NPGPolicy._conjugate_gradients", "tianshou/policy/modelfree/npg.py:NPGPolicy.learn"]}
{"id": "C89", "title": "PPO clipped objective", "statement": "The contribution of a transition to PPO's policy objective never exceeds ratio * A (without dual clipping), equals it while the ratio is within eps_clip of 1, is flat beyond 1 + eps_clip for A >= 0 and below 1 - eps_clip for A <= 0, and with dual_clip = d is never below d * A for A < 0.", "quantifier": "all ratios, advantages, eps_clip and dual_clip", "why_tests_cant": "real-valued inputs", "anchors": ["tianshou/policy/modelfree/ppo.py:PPOPolicy.learn"]}
{"id": "C90", "title": "PPO value clipping", "statement": "With value_clip the critic is trained on the larger of the squared errors of the value and of the value moved by at most eps_clip away from the old value; it is the plain squared error if the value moved by at most eps_clip.", "quantifier": "all returns, values and eps_clip", "why_tests_cant": "real-valued inputs", "anchors": ["tianshou/policy/modelfree/ppo.py:PPOPolicy.learn"]}
{"id": "C91", "title": "Advantage normalisation", "statement": "PPO with advantage_normalization, NPG and TRPO replace the advantages of a (mini)batch by finite numbers with mean 0, standard deviation at most 1 and the same order.", "quantifier": "all batches of advantages", "why_tests_cant": "real-valued inputs, all batch sizes", "anchors": ["tianshou/policy/modelfree/ppo.py:PPOPolicy.learn", "tianshou/policy/modelfree/npg.py:NPGPolicy.process_fn"]}
{"id": "C92", "title": "is_double is honoured", "statement": "With is_double=True the bootstrap value of DQN and its descendants is what the target network assigns to the action the online network prefers; with is_double=False it is the one of the action the target network itself prefers.", "quantifier": "all networks, buffers, sampled indices, discount factors and estimation steps", "why_tests_cant": "arbitrary networks and replay contents", "anchors": ["tianshou/policy/modelfree/dqn.py:DQNPolicy._target_q", "tianshou/policy/modelfree/qrdqn.py:QRDQNPolicy._target_q", "tianshou/policy/modelfree/fqf.py:FQFPolicy._target_q"]}
{"id": "C93", "title": "Targets use legal actions only", "statement": "When observations carry action masks, the bootstrap value in DQN targets is that of a legal action of the next state.", "quantifier": "all networks, masks with a legal action, buffers and indices", "why_tests_cant": "arbitrary networks and masks", "anchors": ["tianshou/policy/modelfree/dqn.py:DQNPolicy._target_q"]}
{"id": "C94", "title": "Importance weights enter the loss", "statement": "With prioritised replay the loss of a batch is the mean over its rows of weight times the loss of the row alone, for all Q-learning policies and critics.", "quantifier": "all batches and weights", "why_tests_cant": "real-valued inputs, all batch sizes", "anchors": ["tianshou/policy/modelfree/dqn.py:DQNPolicy.learn", "tianshou/policy/modelfree/qrdqn.py:QRDQNPolicy.learn", "tianshou/policy/modelfree/c51.py:C51Policy.learn", "tianshou/policy/modelfree/bdq.py:BranchingDQNPolicy.learn", "tianshou/policy/modelfree/ddpg.py:DDPGPolicy._mse_optimizer"]}
{"id": "C95", "title": "C51 targets with several steps", "statement": "C51's target distribution is the projection of the n-step returns of all atoms weighted with the distribution of the state reached after these n steps.", "quantifier": "all networks, buffers, indices, atoms and estimation steps", "why_tests_cant": "arbitrary networks and replay contents", "anchors": ["tianshou/policy/modelfree/c51.py:C51Policy._target_dist"]}
{"id": "C96", "title": "BDQ targets", "statement": "The target of a transition for BranchingDQNPolicy is reward + discount_factor * mean over the branches of their (double) Q-learning values in the next state, without the second term after a termination.", "quantifier": "all networks, numbers of branches, buffers, indices and discount factors", "why_tests_cant": "arbitrary networks and batch sizes", "anchors": ["tianshou/policy/modelfree/bdq.py:BranchingDQNPolicy._compute_return", "tianshou/policy/modelfree/bdq.py:BranchingDQNPolicy.process_fn"]}
{"id": "C97", "title": "BDQ explores with existing actions", "statement": "After exploration_noise every action of BranchingDQNPolicy is one of the actions of its branch, and rows that do not explore are unchanged.", "quantifier": "all actions, masks and random numbers", "why_tests_cant": "all outcomes of the random generator", "anchors": ["tianshou/policy/modelfree/bdq.py:BranchingDQNPolicy.exploration_noise"]}
{"id": "C98", "title": "Quantile regression loss", "statement": "QRDQN's fractions are the midpoints (2i+1)/(2n); the quantile loss of a row is non-negative, zero exactly if all quantiles equal all targets, and charges an estimate below its target with weight tau, one above with 1 - tau.", "quantifier": "all quantiles, targets and fractions in (0, 1)", "why_tests_cant": "real-valued inputs", "anchors": ["tianshou/policy/modelfree/qrdqn.py:QRDQNPolicy.learn"]}
{"id": "C99", "title": "Discrete BCQ filters unlikely actions", "statement": "The action of DiscreteBCQPolicy has at least unlikely_action_threshold times the imitator's probability of the most likely action, and the largest Q-value among such actions.", "quantifier": "all Q-values, imitator outputs and thresholds", "why_tests_cant": "real-valued inputs", "anchors": ["tianshou/policy/imitation/discrete_bcq.py:DiscreteBCQPolicy.forward"]}
{"id": "C100", "title": "Actor and target networks are updated at the documented frequency", "statement": "TD3 updates its critics in every call of learn, and its actor and all target networks exactly in every update_actor_freq-th call, the first included; DDPG updates everything in every call; REDQ updates critics and targets in every call and its actor exactly when the number of calls reaches a multiple of actor_delay.", "quantifier": "all networks, optimizers, frequencies and numbers of calls", "why_tests_cant": "unbounded training runs", "anchors": ["tianshou/policy/modelfree/td3.py:TD3Policy.learn", "tianshou/policy/modelfree/ddpg.py:DDPGPolicy.learn", "tianshou/policy/modelfree/redq.py:REDQPolicy.learn"]}
{"id": "C101", "title": "TD3 bootstraps with the smaller critic at the smoothed target action", "statement": "The returns TD3 learns from are n-step returns bootstrapped with the smaller of the two target critics at the target actor's action plus noise, which is at most noise_clip in size and leaves the action a valid one.", "quantifier": "all networks, buffers, sampled indices, noises, discount factors and estimation steps", "why_tests_cant": "real-valued networks and noise, arbitrary replay contents", "anchors": ["tianshou/policy/modelfree/td3.py:TD3Policy._target_q"]}
{"id": "C102", "title": "Double critics give a pessimistic soft value", "statement": "The value SAC, discrete SAC and REDQ (target_mode=\"min\") bootstrap with does not exceed the soft value according to any of the target critics used; REDQ with target_mode=\"mean\" uses their average.", "quantifier": "all networks, ensembles, subsets, probabilities and entropy coefficients", "why_tests_cant": "real-valued networks", "anchors": ["tianshou/policy/modelfree/sac.py:SACPolicy._target_q", "tianshou/policy/modelfree/discrete_sac.py:DiscreteSACPolicy._target_q", "tianshou/policy/modelfree/redq.py:REDQPolicy._target_q"]}
{"id": "C103", "title": "The entropy coefficient is constant or tuned towards the target entropy", "statement": "A number given as alpha is used unchanged for ever; a tuned alpha is positive and is raised by a step exactly when the estimated entropy is below the target entropy; this holds for every policy accepting alpha.", "quantifier": "all coefficients, learning rates, batches and numbers of steps", "why_tests_cant": "real-valued batches, unbounded runs", "anchors": ["tianshou/policy/modelfree/sac.py:SACPolicy.learn", "tianshou/policy/modelfree/discrete_sac.py:DiscreteSACPolicy.learn", "tianshou/policy/modelfree/redq.py:REDQPolicy.learn"]}
{"id": "C104", "title": "A priority of zero means a perfect prediction", "statement": "The weight handed to a prioritized buffer after an update is zero only if all critics (quantiles, branches) agree with the target of the transition.", "quantifier": "all predictions and targets", "why_tests_cant": "real-valued predictions", "anchors": ["tianshou/policy/modelfree/td3.py:TD3Policy.learn", "tianshou/policy/modelfree/dqn.py:DQNPolicy.learn", "tianshou/policy/modelfree/qrdqn.py:QRDQNPolicy.learn", "tianshou/policy/modelfree/bdq.py:BranchingDQNPolicy.learn"]}
{"id": "C105", "title": "OUNoise is an Ornstein-Uhlenbeck process", "statement": "Successive calls of OUNoise with one size give the discretised Ornstein-Uhlenbeck process started at x0, and reset restarts it.", "quantifier": "all parameters, sizes, random numbers and numbers of calls", "why_tests_cant": "unbounded sequences of calls, real-valued parameters", "anchors": ["tianshou/exploration/random.py:OUNoise"]}
{"id": "C106", "title": "deterministic_eval does not affect training", "statement": "With deterministic_eval a policy uses the mode of its action distribution outside training steps only; during training steps it samples.", "quantifier": "all policies, also those wrapped in others", "why_tests_cant": "needs every nesting of policies", "anchors": ["tianshou/policy/modelfree/sac.py:SACPolicy.forward", "tianshou/utils/torch_utils.py:policy_within_training_step", "tianshou/policy/multiagent/mapolicy.py:MultiAgentPolicyManager.forward", "tianshou/policy/modelbased/icm.py:ICMPolicy.forward"]}
{"id": "C107", "title": "A sensibly configured trainer runs to the end", "statement": "With at least one step per epoch, a training collector that returns steps and gets at least one update per collection (or a non-empty buffer offline), and either no test collector or a synchronous one that returns episodes, run ends without an exception, also without a test collector while test_in_train=True.", "quantifier": "all configurations, user functions, collection and test results, and earlier runs of the same trainer", "why_tests_cant": "unbounded runs with arbitrary results of collections", "anchors": ["tianshou/trainer/base.py:BaseTrainer.run", "tianshou/trainer/base.py:BaseTrainer.reset", "tianshou/trainer/base.py:BaseTrainer.training_step"]}
{"id": "C108", "title": "On-policy updates see data of the current policy only", "statement": "If the buffer of an OnpolicyTrainer holds only data of the present policy at the start, no update ever sees a transition collected by an earlier version of the policy, and this holds again at the start of the next run.", "quantifier": "all collectors, policies, test results, user functions and numbers of runs", "why_tests_cant": "unbounded runs with arbitrary collections and updates", "anchors": ["tianshou/trainer/base.py:OnpolicyTrainer.policy_update_fn", "tianshou/trainer/base.py:BaseTrainer.training_step"]}
{"id": "C109", "title": "PSRL posterior counts and means", "statement": "After learning, the Dirichlet parameters of PSRL are the prior ones plus the numbers of observed transitions (plus self-loops in terminal states with add_done_loop), and the posterior mean of an observed reward is the mean of its observations; neither depends on the order of the data or their division into batches.", "quantifier": "all priors, batches, rewards and numbers of updates", "why_tests_cant": "unbounded data, real-valued rewards", "anchors": ["tianshou/policy/modelbased/psrl.py:PSRLModel.observe", "tianshou/policy/modelbased/psrl.py:PSRLPolicy.learn"]}
{"id": "C110", "title": "PSRL posterior standard deviations are real", "statement": "The posterior standard deviations of PSRL are positive real numbers not above those of the prior.", "quantifier": "all priors, batches and numbers of updates", "why_tests_cant": "real-valued inputs, unbounded data", "anchors": ["tianshou/policy/modelbased/psrl.py:PSRLModel.observe"]}
{"id": "C111", "title": "Value iteration ends with a near-optimal policy", "statement": "value_iteration ends for every discount factor in [0, 1], and the values it returns are those of the optimal policy up to a bound given by eps and the discount factor; its policy is greedy with respect to them.", "quantifier": "all transition probabilities, rewards, initial values and sizes", "why_tests_cant": "real-valued problems of any size, unbounded iteration", "anchors": ["tianshou/policy/modelbased/psrl.py:PSRLModel.value_iteration"]}
{"id": "C112", "title": "PSRL samples one policy per batch of data", "statement": "A new policy is sampled at the first request for actions after construction or after learning, and used until the next learning.", "quantifier": "all sequences of requests and updates", "why_tests_cant": "unbounded sequences", "anchors": ["tianshou/policy/modelbased/psrl.py:PSRLModel.__call__", "tianshou/policy/modelbased/psrl.py:PSRLModel.observe"]}
{"id": "C113", "title": "PSRL leaves the prior arrays of the user alone", "statement": "Learning does not change the arrays given as priors, so policies built from the same arrays learn independently.", "quantifier": "all priors and batches", "why_tests_cant": "aliasing over unbounded histories", "anchors": ["tianshou/policy/modelbased/psrl.py:PSRLModel.observe", "tianshou/policy/modelbased/psrl.py:PSRLModel.__init__"]}
{"id": "C114", "title": "CRR weights each action by its own advantage", "statement": "The actor loss of discrete CRR is the mean over the batch of the negative log-likelihood of the logged action times the weight of that action's own advantage.", "quantifier": "all batches, modes and parameters", "why_tests_cant": "real-valued batches of any size", "anchors": ["tianshou/policy/imitation/discrete_crr.py:DiscreteCRRPolicy.learn"]}
{"id": "C115", "title": "CRR conservative regulariser", "statement": "The conservative regulariser of discrete CRR is the mean over the batch of logsumexp of the values minus the value of the logged action, and is never negative.", "quantifier": "all batches", "why_tests_cant": "real-valued batches of any size", "anchors": ["tianshou/policy/imitation/discrete_crr.py:DiscreteCRRPolicy.learn"]}
{"id": "C116", "title": "Offline targets bootstrap unless terminated", "statement": "The one-step targets of discrete CRR, CQL and BCQ are the reward after a termination and otherwise, also after a truncation, the reward plus the discounted value of the next state.", "quantifier": "all transitions and values", "why_tests_cant": "real-valued inputs", "anchors": ["tianshou/policy/imitation/discrete_crr.py:DiscreteCRRPolicy.learn", "tianshou/policy/imitation/cql.py:CQLPolicy.learn", "tianshou/policy/imitation/bcq.py:BCQPolicy.learn"]}
{"id": "C117", "title": "CQL random actions", "statement": "The random actions of CQL are uniformly distributed between min_action and max_action, and their values are corrected by the logarithm of their density.", "quantifier": "all bounds, random numbers and action dimensions", "why_tests_cant": "real-valued inputs", "anchors": ["tianshou/policy/imitation/cql.py:CQLPolicy.learn", "tianshou/policy/imitation/cql.py:CQLPolicy.calc_random_values"]}
{"id": "C118", "title": "CQL penalty over all sampled actions", "statement": "The penalty of CQL is, averaged over the batch, the temperature-scaled logsumexp over all 3 * num_repeat_actions sampled values of the transition minus the value of the logged action; with calibration the values are bounded below by the return of the transition itself.", "quantifier": "all values, batch sizes and numbers of repetitions", "why_tests_cant": "real-valued batches of any size", "anchors": ["tianshou/policy/imitation/cql.py:CQLPolicy.learn"]}
{"id": "C119", "title": "CQL calibration returns belong to their transitions", "statement": "After process_buffer the calibration return sampled with a transition is its own discounted return to the end of its stored episode.", "quantifier": "all buffer histories", "why_tests_cant": "unbounded histories", "anchors": ["tianshou/policy/imitation/cql.py:CQLPolicy.process_buffer", "tianshou/data/buffer/base.py:ReplayBuffer.__getitem__"]}
{"id": "C120", "title": "BCQ actions and targets", "statement": "BCQ acts with the perturbed candidate the first critic values most; the target for a transition uses the largest mixture of the two target critics over the candidates of its own next observation.", "quantifier": "all networks, batches and numbers of candidates", "why_tests_cant": "arbitrary networks, any sizes", "anchors": ["tianshou/policy/imitation/bcq.py:BCQPolicy.forward", "tianshou/policy/imitation/bcq.py:BCQPolicy.learn"]}
{"id": "C121", "title": "BCQ evaluates the policy it acts with", "statement": "The candidates in the targets of BCQ are perturbed by the (target) perturbation network, like those it acts with.", "quantifier": "all networks", "why_tests_cant": "arbitrary networks", "anchors": ["tianshou/policy/imitation/bcq.py:BCQPolicy.learn"]}
{"id": "C122", "title": "GAIL rewards", "statement": "GAIL learns from positive rewards that grow strictly with the output of the discriminator and do not depend on the environment's rewards; the discriminator is trained towards positive outputs for the expert and negative ones for the policy.", "quantifier": "all discriminator outputs, batches and episode structures", "why_tests_cant": "real-valued batches of any size", "anchors": ["tianshou/policy/imitation/gail.py:GAILPolicy.process_fn", "tianshou/policy/imitation/gail.py:GAILPolicy.learn"]}
{"id": "C123", "title": "GAIL discriminator updates", "statement": "learn performs disc_update_num updates of the discriminator, which together use every transition of the batch once.", "quantifier": "all batch sizes and numbers of updates", "why_tests_cant": "unbounded sizes", "anchors": ["tianshou/policy/imitation/gail.py:GAILPolicy.learn"]}
{"id": "C124", "title": "The curiosity bonus is learned from", "statement": "With ICM the wrapped policy learns from the environment's rewards plus reward_scale times the prediction error of the curiosity module.", "quantifier": "all wrapped policies, batches and scales", "why_tests_cant": "real-valued batches of any size", "anchors": ["tianshou/policy/modelbased/icm.py:ICMPolicy.process_fn", "tianshou/policy/base.py:BasePolicy.compute_nstep_return"]}
{"id": "C125", "title": "ICM restores the rewards", "statement": "After post_process_fn the batch holds the original rewards.", "quantifier": "all batches", "why_tests_cant": "aliasing", "anchors": ["tianshou/policy/modelbased/icm.py:ICMPolicy.post_process_fn"]}
{"id": "C126", "title": "The random policy plays legal actions", "statement": "MARLRandomPolicy takes only actions its mask allows if there is one, and every allowed action is possible.", "quantifier": "all masks and random numbers", "why_tests_cant": "unbounded numbers of actions", "anchors": ["tianshou/policy/random.py:MARLRandomPolicy.forward"]}
{"id": "C127", "title": "TD3+BC normalises the critic", "statement": "The critic's part of the actor loss of TD3+BC is at most alpha in size and does not change when the critic is scaled by a positive factor.", "quantifier": "all values", "why_tests_cant": "real-valued batches of any size", "anchors": ["tianshou/policy/imitation/td3_bc.py:TD3BCPolicy.learn"]}
{"id": "C128", "title": "Logging intervals", "statement": "A call of log_train_data, log_test_data, log_update_data or log_info_data is written exactly if its step is at least the interval of its kind after the last step written of this kind; entries of a kind are at least the interval apart and the kinds do not influence each other.", "quantifier": "all intervals and sequences of calls", "why_tests_cant": "unbounded sequences", "anchors": ["tianshou/utils/logger/base.py:BaseLogger.log_train_data", "tianshou/utils/logger/base.py:BaseLogger.log_test_data", "tianshou/utils/logger/base.py:BaseLogger.log_update_data", "tianshou/utils/logger/base.py:BaseLogger.log_info_data"]}
{"id": "C129", "title": "Checkpoints are restored", "statement": "restore_data of a TensorboardLogger opened on the same directory returns epoch, environment step and gradient step of the last checkpoint that was saved, whatever was logged before, between and after; zeros if there is none. A checkpoint is saved exactly if the epoch is at least save_interval after the last one.", "quantifier": "all sequences of calls", "why_tests_cant": "unbounded sequences", "anchors": ["tianshou/utils/logger/tensorboard.py:TensorboardLogger.save_data", "tianshou/utils/logger/tensorboard.py:TensorboardLogger.restore_data"]}
{"id": "C130", "title": "Intervals survive a restart", "statement": "If training stops after a checkpoint and is resumed with a new logger, the entries of each kind written by both runs are at least the interval apart.", "quantifier": "all sequences of calls before and after", "why_tests_cant": "unbounded sequences", "anchors": ["tianshou/utils/logger/tensorboard.py:TensorboardLogger.restore_data"]}
{"id": "C131", "title": "Logged data are read back", "statement": "restore_logged_data returns nested dictionaries that hold at each path exactly the numbers that were logged at this path of the nested dictionaries, in order; other values leave no trace.", "quantifier": "all sequences of nested dictionaries whose keys are not empty and contain no slash and in which no path of a number is the beginning of another", "why_tests_cant": "unbounded nesting and sequences", "anchors": ["tianshou/utils/logger/tensorboard.py:TensorboardLogger.prepare_dict_for_logging", "tianshou/utils/logger/tensorboard.py:TensorboardLogger.write", "tianshou/utils/logger/tensorboard.py:TensorboardLogger.restore_logged_data"]}
{"id": "C132", "title": "WandbLogger writes as configured", "statement": "A WandbLogger writes and flushes like a TensorboardLogger constructed with the same arguments.", "quantifier": "all arguments and data", "why_tests_cant": "all data", "anchors": ["tianshou/utils/logger/wandb.py:WandbLogger.load"]}
{"id": "C133", "title": "Layers of an MLP", "statement": "An MLP consists, for each hidden size, of a linear layer from the size before, the normalisation and the activation given for this layer with their arguments, and of a last linear layer without activation if an output size is given. It takes rows of input_dim and returns rows of size output_dim. Construction fails exactly if a list of classes or of arguments has the wrong length.", "quantifier": "all sizes, numbers of layers, classes and arguments", "why_tests_cant": "unbounded numbers of layers", "anchors": ["tianshou/utils/net/common.py:miniblock", "tianshou/utils/net/common.py:MLP.__init__"]}
{"id": "C134", "title": "Sizes of a Net", "statement": "A Net takes flattened observations, followed by flattened actions if concat is set, and returns a number for each action and atom; the value stream of a dueling network returns a number for each atom.", "quantifier": "all shapes, hidden sizes and numbers of atoms", "why_tests_cant": "all shapes", "anchors": ["tianshou/utils/net/common.py:Net.__init__"]}
{"id": "C135", "title": "Dueling networks", "statement": "With dueling streams, and in each branch of a BranchingNet, the outputs average over the actions to the value, for each observation and atom, and two actions differ by exactly what the advantage stream says.", "quantifier": "all outputs of the streams, numbers of actions and atoms", "why_tests_cant": "all numbers and sizes", "anchors": ["tianshou/utils/net/common.py:Net.forward", "tianshou/utils/net/common.py:BranchingNet.forward"]}
{"id": "C136", "title": "Sequences and single steps agree", "statement": "Feeding a Recurrent network one observation after the other, each time with the state returned before, gives the output and state of feeding the whole sequence. Rows of a batch do not influence each other.", "quantifier": "all cells, sequences, batches and initial states", "why_tests_cant": "unbounded sequences", "anchors": ["tianshou/utils/net/common.py:Recurrent.forward"]}
{"id": "C137", "title": "Actors return the state of their network", "statement": "Acting step by step with an actor, passing back the state it returns, the network inside is given the state it returned before.", "quantifier": "all networks and sequences of observations", "why_tests_cant": "unbounded sequences, all networks", "anchors": ["tianshou/utils/net/continuous.py:Actor.forward", "tianshou/utils/net/continuous.py:ActorProb.forward", "tianshou/utils/net/discrete.py:Actor.forward"]}
{"id": "C138", "title": "Output dimension of a network", "statement": "The output dimension of a module is its attribute output_dim, or, if it has none, the number given by the user; an error is raised if both are there and differ or neither is there.", "quantifier": "all modules and numbers", "why_tests_cant": "all modules", "anchors": ["tianshou/utils/net/common.py:getattr_with_matching_alt_value", "tianshou/utils/net/common.py:get_output_dim"]}
{"id": "C139", "title": "Critics of observation and action", "statement": "A critic computes its value from the output of its network on observation and action, or, if the network is applied to the observation only, from the output of the network and the action.", "quantifier": "all networks, observations and actions", "why_tests_cant": "all networks and sizes", "anchors": ["tianshou/utils/net/continuous.py:Critic.__init__", "tianshou/utils/net/continuous.py:Critic.forward"]}
{"id": "C140", "title": "Members of an ensemble", "statement": "Member e of an EnsembleLinear is a linear layer with its own weights and bias, applied to the common input or to its own input.", "quantifier": "all ensembles, weights and inputs", "why_tests_cant": "unbounded sizes", "anchors": ["tianshou/utils/net/common.py:EnsembleLinear.forward"]}
{"id": "C141", "title": "Dictionaries as observations", "statement": "A network decorated for dictionaries gets, for each observation, the flattened arrays of all keys in order, for a batch as well as for a single observation; their size is the one announced to the network.", "quantifier": "all dictionaries of arrays, shapes and batch sizes", "why_tests_cant": "unbounded shapes and batches", "anchors": ["tianshou/utils/net/common.py:get_dict_state_decorator"]}
{"id": "C142", "title": "Bounded outputs of actors", "statement": "Whatever the networks inside return: actions of Actor, means of ActorProb and RecurrentActorProb (unless unbounded) and actions reconstructed or generated by a VAE are strictly within max_action; scales are between exp(-20) and exp(2), or positive and independent of the observation; a perturbed action is within max_action and at most phi*max_action away; softmax outputs are positive probabilities with sum 1 in the order of the logits.", "quantifier": "all networks and inputs", "why_tests_cant": "all real numbers", "anchors": ["tianshou/utils/net/continuous.py:Actor.forward", "tianshou/utils/net/continuous.py:ActorProb.forward", "tianshou/utils/net/continuous.py:RecurrentActorProb.forward", "tianshou/utils/net/continuous.py:Perturbation.forward", "tianshou/utils/net/continuous.py:VAE.forward", "tianshou/utils/net/continuous.py:VAE.decode", "tianshou/utils/net/discrete.py:Actor.forward"]}
{"id": "C143", "title": "Quantile networks", "statement": "The output of ImplicitQuantileNetwork and FullQuantileFunction for observation b, action a and fraction n depends on observation b and its n-th fraction only. Proposed fractions increase strictly from 0 to 1; quantiles are evaluated half way between neighbours, those given or else those proposed, and in training also at the inner fractions.", "quantifier": "all networks, batches and numbers of fractions", "why_tests_cant": "unbounded sizes, all real numbers", "anchors": ["tianshou/utils/net/discrete.py:CosineEmbeddingNetwork.forward", "tianshou/utils/net/discrete.py:ImplicitQuantileNetwork.forward", "tianshou/utils/net/discrete.py:FractionProposalNetwork.forward", "tianshou/utils/net/discrete.py:FullQuantileFunction.forward"]}
{"id": "C144", "title": "Noisy layers", "statement": "A NoisyLinear layer in evaluation is the linear layer with its means and does not depend on the noise; in training the noise adds eps_q[j] * (sum_i sigma_W[j,i] eps_p[i] x[i] + sigma_bias[j]) to output j. Sampling changes only the noise, to signed square roots of normal numbers.", "quantifier": "all parameters, noise and inputs", "why_tests_cant": "all numbers and sizes", "anchors": ["tianshou/utils/net/discrete.py:NoisyLinear.forward", "tianshou/utils/net/discrete.py:NoisyLinear.sample", "tianshou/utils/net/discrete.py:NoisyLinear.f"]}
{"id": "C145", "title": "Spaces and random actions", "statement": "min_action and max_action of ActionSpaceInfo bound all numbers in all actions of the space and both occur. RandomActor acts within the space, with equal probabilities; create_uniform_action_dist returns a distribution that has the space as support.", "quantifier": "all box and discrete spaces", "why_tests_cant": "all spaces", "anchors": ["tianshou/utils/space_info.py:ActionSpaceInfo.from_space", "tianshou/utils/net/common.py:RandomActor", "tianshou/utils/torch_utils.py:create_uniform_action_dist"]}
{"id": "C146", "title": "torch_train_mode is temporary", "statement": "Within torch_train_mode the module and all modules in it are in the mode asked for; afterwards, also after an error, all are in the mode they had before. Target networks of policies are not touched.", "quantifier": "all trees of modules and bodies", "why_tests_cant": "unbounded trees, all bodies", "anchors": ["tianshou/utils/torch_utils.py:torch_train_mode"]}
{"id": "C147", "title": "Optimizer steps with clipped gradients", "statement": "optim_step makes the step of the optimizer with the derivatives of this loss only, whatever gradients were left over before. With max_grad_norm and a module the gradients of the module are scaled by one common factor in (0, 1] such that their norm is at most max_grad_norm, and not scaled if it was below already. Without a module and with max_grad_norm a ValueError is raised and no parameter changes.", "quantifier": "all losses, optimizers, parameters and bounds", "why_tests_cant": "all real numbers, all sets of parameters, all earlier gradients", "anchors": ["tianshou/utils/optim.py:optim_step"]}
{"id": "C148", "title": "Several learning rate schedulers", "statement": "A step of MultipleLRSchedulers is a step of each scheduler. Loading the saved states into an equal wrapper continues as the saved one would have; a list of states of another length is refused.", "quantifier": "all schedulers and numbers of steps", "why_tests_cant": "unbounded lists and executions", "anchors": ["tianshou/utils/lr_scheduler.py:MultipleLRSchedulers.step", "tianshou/utils/lr_scheduler.py:MultipleLRSchedulers.state_dict", "tianshou/utils/lr_scheduler.py:MultipleLRSchedulers.load_state_dict"]}
{"id": "C149", "title": "Cloned optimizers", "statement": "clone_optimizer returns an optimizer of the same class and with the same options for the new parameters, without state; unknown classes are refused.", "quantifier": "all optimizers", "why_tests_cant": "all options", "anchors": ["tianshou/utils/optim.py:clone_optimizer"]}
{"id": "C150", "title": "Twin critics", "statement": "TD3, SAC and the policies derived from them train two critics whose roles are the same, and the minimum of the two limits overestimation. A critic that is not given is provided for.", "quantifier": "all critics, optimizers, data and numbers of steps", "why_tests_cant": "unbounded executions", "anchors": ["tianshou/policy/modelfree/td3.py:TD3Policy.__init__", "tianshou/policy/modelfree/sac.py:SACPolicy.__init__", "tianshou/policy/modelfree/sac.py:SACPolicy.learn", "tianshou/policy/modelfree/td3.py:TD3Policy.learn"]}
{"id": "C151", "title": "Number of training steps", "statement": "If every collection makes step_per_collect environment steps and training is not stopped early, every epoch has ceil(step_per_epoch / step_per_collect) training steps, so that training takes max_epoch * ceil(step_per_epoch / step_per_collect) * step_per_collect environment steps.", "quantifier": "all environments, policies, step counts and numbers of epochs", "why_tests_cant": "unbounded runs", "anchors": ["tianshou/trainer/base.py:BaseTrainer.__next__", "tianshou/trainer/base.py:BaseTrainer.run", "tianshou/highlevel/config.py:SamplingConfig"]}
{"id": "C152", "title": "Linear learning rate", "statement": "With LRSchedulerFactoryLinear the learning rate falls linearly from the given value to zero over the training run, without going below zero.", "quantifier": "all sampling configurations and training runs", "why_tests_cant": "all step counts, unbounded runs", "anchors": ["tianshou/highlevel/params/lr_scheduler.py:LRSchedulerFactoryLinear.create_scheduler"]}
{"id": "C153", "title": "Schedulers advance with the updates", "statement": "The learning rate scheduler of every policy advances by one step with each update of the policy.", "quantifier": "all policies, nested to any depth, and all numbers of updates", "why_tests_cant": "policies nested to any depth, unbounded numbers of updates", "anchors": ["tianshou/policy/base.py:BasePolicy.update", "tianshou/policy/modelbased/icm.py:ICMPolicy.learn", "tianshou/policy/multiagent/mapolicy.py:MultiAgentPolicyManager.learn"]}
{"id": "C154", "title": "Decay of epsilon", "statement": "EpochTrainCallbackDQNEpsLinearDecay lets epsilon fall linearly from eps_train to eps_train_final during the first decay_steps environment steps and keeps it there; it is called at the beginning of each epoch.", "quantifier": "all values and step counts", "why_tests_cant": "all numbers, unbounded runs", "anchors": ["tianshou/highlevel/trainer.py:EpochTrainCallbackDQNEpsLinearDecay"]}
{"id": "C155", "title": "Reward threshold", "statement": "EpochStopCallbackRewardThreshold stops training after the first epoch whose best mean reward reaches the given threshold, or that of the environment if none is given.", "quantifier": "all thresholds and training runs", "why_tests_cant": "unbounded runs", "anchors": ["tianshou/highlevel/trainer.py:EpochStopCallbackRewardThreshold"]}
{"id": "C156", "title": "Seeds of experiments", "statement": "The training and test environments of an experiment all get different seeds; the experiments of a collection made by build_seeded_collection have different names and seeds, keep every other setting, and no two of them use the same seed for an environment.", "quantifier": "all sampling configurations, seeds and numbers of experiments", "why_tests_cant": "all numbers of environments and experiments", "anchors": ["tianshou/highlevel/config.py:SamplingConfig", "tianshou/highlevel/experiment.py:ExperimentBuilder.build_seeded_collection", "tianshou/highlevel/env.py:EnvFactory.create_venv"]}
{"id": "C157", "title": "Running an experiment", "statement": "Experiment.run collects the requested start data, trains, saves and watches, each only if configured and in this order, and returns the result of the trainer.", "quantifier": "all experiments, trainers and configurations", "why_tests_cant": "arbitrary trainers and environments", "anchors": ["tianshou/highlevel/experiment.py:Experiment.run"]}
{"id": "C158", "title": "Launching experiments", "statement": "A launcher returns exactly the results of those experiments that did not fail, in order, whichever launcher is used, and raises an error if all have failed; the error of a single experiment is passed on.", "quantifier": "all lists of experiments and all outcomes", "why_tests_cant": "lists of any length, any pattern of failures", "anchors": ["tianshou/evaluation/launcher.py:ExpLauncher.launch", "tianshou/evaluation/launcher.py:SequentialExpLauncher", "tianshou/evaluation/launcher.py:JoblibExpLauncher"]}
{"id": "C159", "title": "Saving and restoring", "statement": "An experiment restored from a directory continues with the last best policy saved in it and with the additional data (such as observation statistics) saved with that policy; checkpoints can be found under their numbers; nothing is written if persistence is disabled.", "quantifier": "all policies, data and sequences of saves", "why_tests_cant": "unbounded sequences of saves", "anchors": ["tianshou/highlevel/persistence.py:PolicyPersistence", "tianshou/highlevel/persistence.py:PersistenceGroup"]}
{"id": "C160", "title": "Networks of the default factories", "statement": "The default factories make actors and critics with the hidden sizes and the activation function the user has asked for, of the type the algorithm needs, and a distribution function that fits the output of the actor.", "quantifier": "all sizes, activations, options and both types of environments", "why_tests_cant": "all lists of sizes", "anchors": ["tianshou/highlevel/module/actor.py:ActorFactoryDefault", "tianshou/highlevel/module/critic.py:CriticFactoryDefault", "tianshou/highlevel/params/dist_fn.py"]}
{"id": "C161", "title": "Probabilities of discrete actions", "statement": "In experiments with discrete actions and the default actor the probability of an action is the softmax of the outputs of the last layer of the actor, in every algorithm with a stochastic policy.", "quantifier": "all outputs of the network, all numbers of actions", "why_tests_cant": "all real numbers", "anchors": ["tianshou/highlevel/experiment.py:DiscreteSACExperimentBuilder", "tianshou/policy/modelfree/discrete_sac.py:DiscreteSACPolicy.forward", "tianshou/highlevel/module/actor.py:ActorFactoryDiscreteNet", "tianshou/highlevel/params/dist_fn.py:DistributionFunctionFactoryCategorical"]}
{"id": "C162", "title": "Critics that reuse the actor", "statement": "In an experiment built with with_critic_factory_use_actor the critic is built on the network of the actor made with it, also for copies of the builder and after the experiment has been stored and restored.", "quantifier": "all sequences of building, copying, storing and running experiments", "why_tests_cant": "unbounded sequences of operations", "anchors": ["tianshou/highlevel/module/actor.py:ActorFactoryTransientStorageDecorator", "tianshou/highlevel/module/critic.py:CriticFactoryReuseActor", "tianshou/highlevel/experiment.py:Experiment.from_directory"]}
{"id": "C163", "title": "Sampling configuration reaches the trainer", "statement": "Every setting in SamplingConfig and every callback arrives at the trainer, the collectors and the buffer.", "quantifier": "all configurations", "why_tests_cant": "all values", "anchors": ["tianshou/highlevel/agent.py:OnPolicyAgentFactory.create_trainer", "tianshou/highlevel/agent.py:OffPolicyAgentFactory.create_trainer", "tianshou/highlevel/agent.py:AgentFactory.create_train_test_collector"]}
{"id": "C164", "title": "Logger factory", "statement": "LoggerFactoryDefault makes a logger of each documented type, with the given interval between saves.", "quantifier": "all types, projects and intervals", "why_tests_cant": "all intervals", "anchors": ["tianshou/highlevel/logger.py:LoggerFactoryDefault"]}
{"id": "C165", "title": "Parameters reach the policy", "statement": "For every algorithm the parameter object and the arguments added by the agent factory fit the constructor of the policy; every parameter arrives with the value given, factories replaced by what they make; learning rate schedulers are made for the right optimizers.", "quantifier": "all algorithms and all values of the parameters", "why_tests_cant": "all combinations of values", "anchors": ["tianshou/highlevel/params/policy_params.py:Params.create_kwargs", "tianshou/highlevel/params/policy_params.py:ParamTransformerMultiLRScheduler", "tianshou/highlevel/agent.py:ActorCriticAgentFactory"]}
{"id": "C166", "title": "Automatic tuning of alpha", "statement": "The target entropy chosen by AutoAlphaFactoryDefault can be reached by policies for the action space, so that tuning does not always push the coefficient in one direction.", "quantifier": "all action spaces, policies and numbers of updates", "why_tests_cant": "all policies, unbounded numbers of updates", "anchors": ["tianshou/highlevel/params/alpha.py:AutoAlphaFactoryDefault", "tianshou/policy/modelfree/discrete_sac.py:DiscreteSACPolicy.learn"]}
{"id": "C167", "title": "Noise as a fraction of the maximum action", "statement": "With MaxActionScaledGaussian the exploration noise has, in each component of the action the environment gets, the given fraction of the maximum action value as standard deviation.", "quantifier": "all boxes, fractions, actions and random numbers", "why_tests_cant": "all real numbers, boxes of any dimension", "anchors": ["tianshou/highlevel/params/noise.py:NoiseFactoryMaxActionScaledGaussian", "tianshou/highlevel/params/env_param.py:FloatEnvValueFactoryMaxActionScaled", "tianshou/highlevel/env.py:ContinuousEnvironments"]}
{"id": "C168", "title": "Dual clipping of PPO as documented", "statement": "PPOParams.dual_clip can be set to the documented values (below 1 - eps_clip) and then replaces the lower bound of the probability ratio.", "quantifier": "all values, ratios and advantages", "why_tests_cant": "all real numbers", "anchors": ["tianshou/highlevel/params/policy_params.py:PPOParams", "tianshou/policy/modelfree/ppo.py:PPOPolicy"]}
{"id": "C169", "title": "Table of returns of several runs", "statement": "RLiableExperimentResult.load_from_disk gives a table with a row for each run; each entry is the mean return which this run logged at the environment step in the head of the column, up to the length of the shortest run.", "quantifier": "all directories, numbers of runs and logs", "why_tests_cant": "unbounded numbers of runs and points", "anchors": ["tianshou/evaluation/rliable_evaluation_hl.py:RLiableExperimentResult.load_from_disk"]}
{"id": "C170", "title": "Maximum number of environment steps", "statement": "With max_env_step the table holds the data up to this number of environment steps.", "quantifier": "all directories and maxima", "why_tests_cant": "unbounded logs", "anchors": ["tianshou/evaluation/rliable_evaluation_hl.py:RLiableExperimentResult.load_from_disk"]}
{"id": "C171", "title": "Logged runs can be evaluated", "statement": "The logs of every run with test episodes can be read by load_from_disk; entries that are not needed are ignored.", "quantifier": "all logs of training runs", "why_tests_cant": "all combinations of logged entries", "anchors": ["tianshou/evaluation/rliable_evaluation_hl.py:LoggedCollectStats.from_data_dict", "tianshou/evaluation/rliable_evaluation_hl.py:RLiableExperimentResult.load_from_disk", "tianshou/data/collector.py:CollectStats", "tianshou/highlevel/trainer.py:EpochTrainCallbackDQNEpsLinearDecay"]}
{"id": "C172", "title": "Arithmetic on batches", "statement": "batch + other, batch + number, batch * number and batch / number act on every value of the batch: each value of the result is the sum, product or quotient of the values at the same path, and the same keys are there.", "quantifier": "all nested batches of integer and float arrays, all numbers", "why_tests_cant": "unbounded nesting and key sets", "anchors": ["tianshou/data/batch.py:Batch.__iadd__", "tianshou/data/batch.py:Batch.__add__", "tianshou/data/batch.py:Batch.__imul__", "tianshou/data/batch.py:Batch.__mul__", "tianshou/data/batch.py:Batch.__itruediv__", "tianshou/data/batch.py:Batch.__truediv__"]}
{"id": "C173", "title": "cat_ and stack_ agree with Batch.cat and Batch.stack", "statement": "x.cat_(ys) makes x the concatenation Batch.cat([x] + ys) and x.stack_(ys) makes it the stack Batch.stack([x] + ys), missing keys being padded in the same way.", "quantifier": "all nested batches, all numbers of batches", "why_tests_cant": "unbounded nesting, key sets and batches", "anchors": ["tianshou/data/batch.py:Batch.cat_", "tianshou/data/batch.py:Batch.stack_", "tianshou/data/batch.py:Batch.cat", "tianshou/data/batch.py:Batch.stack"]}
{"id": "C174", "title": "Iterating over a batch", "statement": "Iterating over a batch gives its rows in order, as many as its length; row i has the i-th entry of every value at the same path; stacking the rows gives back the batch, and selecting rows from a selection of rows is one selection.", "quantifier": "all nested batches, all lengths, all index lists", "why_tests_cant": "unbounded nesting and lengths", "anchors": ["tianshou/data/batch.py:Batch.__iter__", "tianshou/data/batch.py:Batch.__len__", "tianshou/data/batch.py:Batch.__getitem__", "tianshou/data/batch.py:Batch.stack"]}
{"id": "C175", "title": "dropnull keeps exactly the complete rows", "statement": "dropnull gives the rows without None or NaN, in order and unchanged, with the same keys.", "quantifier": "all nested batches, all lengths", "why_tests_cant": "all patterns of missing values in nested batches of any size", "anchors": ["tianshou/data/batch.py:Batch.dropnull", "tianshou/data/batch.py:Batch.hasnull", "tianshou/data/batch.py:Batch.isnull"]}
{"id": "C176", "title": "empty_ clears exactly the selected rows", "statement": "empty_(index) sets the selected rows of every value to zero (None for arrays of objects) and leaves the other rows, the keys and the lengths as they are; without an index everything is cleared.", "quantifier": "all nested batches, lengths and indices", "why_tests_cant": "unbounded nesting, lengths and index lists", "anchors": ["tianshou/data/batch.py:Batch.empty_"]}
{"id": "C177", "title": "set_array_at_key", "statement": "set_array_at_key with an index puts the given rows at the given positions of the key, with the default value (new key) or the old rows (existing key) elsewhere; without an index it makes the array the value of the key if the lengths agree; other keys are never changed, and a call that fails changes nothing.", "quantifier": "all batches, keys, arrays and indices", "why_tests_cant": "all combinations of keys, indices and lengths", "anchors": ["tianshou/data/batch.py:Batch.set_array_at_key"]}
{"id": "C178", "title": "Batches survive pickling and copying", "statement": "Restoring a pickled or copied batch from its state gives the same batch, whatever the names of its keys.", "quantifier": "all nested batches, all key names", "why_tests_cant": "arbitrary key names", "anchors": ["tianshou/data/batch.py:Batch.__getstate__", "tianshou/data/batch.py:Batch.__setstate__", "tianshou/data/batch.py:Batch.__init__"]}
{"id": "C179", "title": "to_torch converts every value", "statement": "to_torch(dtype, device) makes every value a tensor of the given type on the given device with the same data; to_numpy takes it back.", "quantifier": "all nested batches of arrays, tensors and numbers; all types and devices", "why_tests_cant": "unbounded nesting, all combinations of types and devices", "anchors": ["tianshou/data/batch.py:Batch.to_torch_", "tianshou/data/batch.py:Batch.to_numpy_", "tianshou/data/utils/converter.py:to_torch"]}
{"id": "C180", "title": "Transitions with new or missing keys can be stored", "statement": "Adding a transition to a replay buffer succeeds whatever keys it has in comparison with the stored ones (as long as no array meets a nested batch): the written slots read back the transition, with zeros at keys it lacks; all other slots keep their data and are zero at the new keys.", "quantifier": "all storage contents, transitions, sizes and slots", "why_tests_cant": "unbounded nesting, sequences of key sets", "anchors": ["tianshou/data/buffer/base.py:ReplayBuffer.add", "tianshou/data/buffer/manager.py:ReplayBufferManager.add", "tianshou/data/batch.py:alloc_by_keys_diff", "tianshou/data/batch.py:create_value", "tianshou/data/batch.py:Batch.__setitem__"]}
{"id": "C181", "title": "Buffers made from datasets", "statement": "In a buffer made by from_data, sample_indices(0) gives the rows in order, and prev and next move to the neighbouring row within an episode and stay at its ends.", "quantifier": "all datasets, all rows", "why_tests_cant": "unbounded datasets and episode structures", "anchors": ["tianshou/data/buffer/base.py:ReplayBuffer.from_data", "tianshou/data/buffer/base.py:ReplayBuffer.set_batch", "tianshou/data/buffer/base.py:ReplayBuffer.prev", "tianshou/data/buffer/base.py:ReplayBuffer.next"]}
{"id": "C182", "title": "max_batchsize does not change the result", "statement": "For networks that treat rows independently, the values, returns, advantages and old log-probabilities that A2C, PPO, NPG and TRPO compute for a batch do not depend on max_batchsize: they are the outputs of the critic, the generalised advantage estimates for it, their sum, and the log-probabilities of the rows.", "quantifier": "all batches, episode structures, critics, sizes (at least 1, or -1)", "why_tests_cant": "all batches and chunk sizes", "anchors": ["tianshou/policy/modelfree/a2c.py:A2CPolicy._compute_returns", "tianshou/policy/modelfree/ppo.py:PPOPolicy.process_fn"]}
{"id": "C183", "title": "Normalisation of returns", "statement": "With reward_normalization, each update uses the standard deviation of all returns of the updates before it (1 at first): outputs of the critic are multiplied and returns divided by it; afterwards the statistics are those of all returns, each counted once.", "quantifier": "all sequences of updates, batches and critics", "why_tests_cant": "unbounded sequences of updates", "anchors": ["tianshou/policy/modelfree/a2c.py:A2CPolicy._compute_returns", "tianshou/policy/modelfree/pg.py:PGPolicy.process_fn", "tianshou/policy/modelfree/ppo.py:PPOPolicy.learn"]}
{"id": "C184", "title": "Repetitions of PPO", "statement": "In every repetition of a PPO update each row of the batch is used exactly once, in minibatches that each make one optimizer step; its values, returns and advantages are those for the critic at the start of the update (with recompute_advantage: at the start of the repetition), and its old log-probability is that for the parameters at the start of the update.", "quantifier": "all batches, permutations, numbers of repetitions, minibatch sizes, networks and optimizers", "why_tests_cant": "unbounded repetitions, interleaving of optimizer steps and recomputation", "anchors": ["tianshou/policy/modelfree/ppo.py:PPOPolicy.learn", "tianshou/policy/modelfree/ppo.py:PPOPolicy.process_fn"]}
{"id": "C185", "title": "Log-ratios of PPO compare the same action", "statement": "The ratio that PPO clips compares, for each row (and each component of the action, if the distribution has one log-probability per component), the new and the old log-probability of that same row and component.", "quantifier": "all batches, minibatches and distributions", "why_tests_cant": "broadcasting silently gives a result of another shape", "anchors": ["tianshou/policy/modelfree/ppo.py:PPOPolicy.learn", "tianshou/policy/modelfree/ppo.py:PPOPolicy.process_fn"]}
{"id": "C186", "title": "Squashed actions of SAC and REDQ", "statement": "forward returns tanh of a sample (of the mode, for deterministic evaluation outside training) and as log_prob the log-density of the squashed action up to the small constant of the code; the error due to the constant is at most the sum of eps/(1-a^2) over the components, and log_prob is finite also for components equal to 1 or -1.", "quantifier": "all dimensions, densities, batches and samples", "why_tests_cant": "statement about a density: probabilities of all measurable sets of actions", "anchors": ["tianshou/policy/modelfree/sac.py:SACPolicy.forward", "tianshou/policy/modelfree/sac.py:correct_log_prob_gaussian_tanh", "tianshou/policy/modelfree/redq.py:REDQPolicy.forward"]}
{"id": "C187", "title": "Losses of imitation", "statement": "The loss of discrete imitation learning is minus the mean log-probability of the dataset actions under the softmax of the network outputs, and the policy acts by the most probable action; for continuous actions it is the mean squared error, 0 exactly for perfect agreement. The penalty of discrete CQL is the same log-likelihood loss and is added with its weight; the loss of discrete BCQ is the Huber loss of the Q-values plus the log-likelihood loss of the imitator plus the weighted mean of the squared outputs. Actions outside of the range of outputs are errors.", "quantifier": "all batches, numbers of actions and outputs", "why_tests_cant": "all real outputs", "anchors": ["tianshou/policy/imitation/base.py:ImitationPolicy.learn", "tianshou/policy/imitation/discrete_cql.py:DiscreteCQLPolicy.learn", "tianshou/policy/imitation/discrete_bcq.py:DiscreteBCQPolicy.learn"]}
{"id": "C188", "title": "Updates set the priorities", "statement": "After an update of a policy based on Q-functions with a prioritised buffer, each transition of the batch has the priority (e + eps)^alpha, with e the absolute error of the update on it (mean over critics, sum over branches; cross entropy or quantile distance for distributional methods), and all other priorities are unchanged.", "quantifier": "all algorithms, histories of the buffer, batches (with repeated indices too) and errors", "why_tests_cant": "all algorithms and errors; the effect shows only in later sampling", "anchors": ["tianshou/policy/base.py:BasePolicy.post_process_fn", "tianshou/policy/base.py:BasePolicy.update", "tianshou/policy/modelfree/dqn.py:DQNPolicy.learn", "tianshou/policy/modelfree/td3.py:TD3Policy.learn", "tianshou/policy/imitation/cql.py:CQLPolicy.learn"]}
{"id": "C189", "title": "The curiosity bonus", "statement": "The bonus of the intrinsic curiosity module for a transition is half the squared distance between the predicted and the actual features of the next observation, for its own action; it is 0 exactly when the prediction is right. The loss is the weighted sum of the mean bonus and the log-likelihood loss of the inverse model.", "quantifier": "all networks, batches and actions", "why_tests_cant": "all networks", "anchors": ["tianshou/utils/net/discrete.py:IntrinsicCuriosityModule.forward", "tianshou/policy/modelbased/icm.py:ICMPolicy.learn"]}
{"id": "C190", "title": "Training and evaluation mode", "statement": "After policy.train(mode) or policy.eval(), and after any updates that follow, the policy and all its networks are in this mode, except for target networks, which are in evaluation mode (noisy target networks of Rainbow apart).", "quantifier": "all policies, modes of the networks given, sequences of train, eval and update", "why_tests_cant": "unbounded sequences of calls, all classes", "anchors": ["tianshou/policy/modelfree/dqn.py:DQNPolicy.train", "tianshou/policy/modelfree/fqf.py:FQFPolicy", "tianshou/policy/imitation/bcq.py:BCQPolicy.train", "tianshou/policy/imitation/discrete_crr.py:DiscreteCRRPolicy", "tianshou/policy/multiagent/mapolicy.py:MultiAgentPolicyManager.train", "tianshou/policy/modelbased/icm.py:ICMPolicy.train"]}
{"id": "C191", "title": "State dictionaries", "statement": "Loading the state dictionary of a policy into another policy made in the same way succeeds and gives all its networks, also target networks and those of wrapped policies, the parameters of the first; dictionaries with missing or unknown keys are refused.", "quantifier": "all policies, nested wrappers, parameters, and any training before", "why_tests_cant": "all policies and nestings", "anchors": ["tianshou/policy/base.py:BasePolicy", "tianshou/policy/multiagent/mapolicy.py:MultiAgentPolicyManager.__init__", "tianshou/policy/modelfree/sac.py:SACPolicy.__init__"]}
{"id": "C192", "title": "Importance weights", "statement": "With beta = 1 and without normalisation the importance weights undo the prioritised sampling: the weighted mean over prioritised draws is proportional to the plain mean over the buffer. They multiply the squared errors in the critic losses.", "quantifier": "all histories of the buffer and all functions of the transitions", "why_tests_cant": "statement about expectations", "anchors": ["tianshou/data/buffer/prio.py:PrioritizedReplayBuffer.get_weight", "tianshou/policy/modelfree/dqn.py:DQNPolicy.learn", "tianshou/policy/modelfree/ddpg.py:DDPGPolicy._mse_optimizer"]}
{"id": "C193", "title": "Learning targets follow the environment", "statement": "After any use of a Collector with a VectorReplayBuffer that does not break off episodes (observations not shared with the environment's memory), sub-buffer e holds the latest transitions of environment e in order; for any sampled batch the n-step target of a transition is the discounted sum of the rewards its environment gave from that step on within the episode, bootstrapped from the last of these steps; and the advantages of all data are the generalised advantage estimates along the trajectory of each environment.", "quantifier": "all environments, policies, numbers of environments, sequences of reset and collect, sizes of sub-buffers (wrapped around too), random choices, networks, gamma, lambda and n", "why_tests_cant": "the property spans collector, buffer and policy; interleavings of environments and wrap positions are unbounded", "anchors": ["tianshou/data/collector.py:Collector._collect", "tianshou/data/buffer/manager.py:ReplayBufferManager.add", "tianshou/policy/base.py:BasePolicy.compute_nstep_return", "tianshou/policy/base.py:BasePolicy.compute_episodic_return"]}
{"id": "C194", "title": "Returns and lengths in the statistics of a collection", "statement": "CollectStats.returns and CollectStats.lens of a collection are the reward sums and lengths of the episodes that ended in it, in the order in which they ended, including steps made in earlier collections.", "quantifier": "all environments, policies, sequences of reset and collect without broken off episodes, sizes of sub-buffers", "why_tests_cant": "episode lengths, wrap positions and interleavings are unbounded", "anchors": ["tianshou/data/collector.py:Collector._collect", "tianshou/data/collector.py:CollectStats.update_at_episode_done", "tianshou/data/buffer/base.py:ReplayBuffer.get_buffer_indices"]}
{"id": "C195", "title": "PettingZooEnv reports what belongs to the agent to move", "statement": "A PettingZooEnv can be made exactly if there is an agent and all agents have the same spaces. Every reset and step then returns the name, observation, action mask, termination and truncation flags and info of the agent that moves next in the wrapped environment; the mask is the given one, or allows every action of that agent if none is given and the actions are discrete.", "quantifier": "all wrapped AEC environments, numbers of agents, sequences of calls", "why_tests_cant": "agent orders, masks and environments are unbounded", "anchors": ["tianshou/env/pettingzoo_env.py:PettingZooEnv.__init__", "tianshou/env/pettingzoo_env.py:PettingZooEnv.reset", "tianshou/env/pettingzoo_env.py:PettingZooEnv.step"]}
{"id": "C196", "title": "Rewards of PettingZooEnv", "statement": "The rewards returned by a step are, agent by agent in the order of possible_agents, those of the wrapped environment for this step, and 0 for an agent that gets none.", "quantifier": "all wrapped AEC environments, sequences of calls, sets of agents alive", "why_tests_cant": "which agents drop out and when is unbounded", "anchors": ["tianshou/env/pettingzoo_env.py:PettingZooEnv.step"]}
{"id": "C197", "title": "Returned rewards of PettingZooEnv stay", "statement": "The list of rewards returned by a step of PettingZooEnv is not changed by later calls.", "quantifier": "all environments and sequences of calls", "why_tests_cant": "tests read the rewards before the next step", "anchors": ["tianshou/env/pettingzoo_env.py:PettingZooEnv.step"]}
{"id": "C198", "title": "Times and counts of the training result", "statement": "In the InfoStats of a trainer the total time is the time since the start of the run and the sum of training time and test time; the collection, update and test times are the times spent collecting training data, updating and testing in this run; the numbers of steps and episodes are those collected in this run; and gathering them does not fail.", "quantifier": "all sequences of collections, updates and other work with any durations; synchronous and asynchronous collectors; trainers that are reset", "why_tests_cant": "run lengths and clock values are unbounded and not reproducible", "anchors": ["tianshou/trainer/utils.py:gather_info", "tianshou/data/collector.py:Collector._collect", "tianshou/data/collector.py:AsyncCollector._collect", "tianshou/data/collector.py:BaseCollector.reset_stat", "tianshou/trainer/base.py:BaseTrainer.reset"]}
{"id": "C199", "title": "Standard deviations of the action distributions in CollectStats", "statement": "After a collection with distributions, CollectStats.pred_dist_std_array has one row per environment step, in order, with the standard deviation of each dimension of the action distribution of that step, and pred_dist_std_array_stat has the summary of each dimension.", "quantifier": "all numbers of steps and of ready environments, categorical, normal and independent normal distributions", "why_tests_cant": "numbers of steps and ready environments are unbounded", "anchors": ["tianshou/data/collector.py:get_stddev_from_dist", "tianshou/data/collector.py:CollectStats.update_at_step_batch", "tianshou/data/collector.py:CollectStats.refresh_std_array_stats", "tianshou/data/stats.py:compute_dim_to_summary_stats"]}
{"id": "C200", "title": "Slicing a distribution", "statement": "Row i of a batch of distributions is the distribution of row i, a list of rows gives the distributions of these rows in order with its length, and a row that does not exist raises IndexError.", "quantifier": "all categorical, normal and independent distributions of any batch size, all indices (negative too) and lists of indices", "why_tests_cant": "sizes and indices are unbounded", "anchors": ["tianshou/data/batch.py:get_sliced_dist", "tianshou/data/batch.py:get_len_of_dist"]}
{"id": "C201", "title": "Distributions with a batch dimension", "statement": "dist_to_atleast_2d leaves a batch of distributions as it is and turns a single distribution into a batch of length 1 with that distribution.", "quantifier": "all categorical, normal and independent distributions", "why_tests_cant": "parameters and dimensions are unbounded", "anchors": ["tianshou/data/batch.py:dist_to_atleast_2d"]}
{"id": "C202", "title": "Infos the policy sees", "statement": "When the collector hands infos to the policy, row i of the batch has exactly the data of the info of environment i, and zeros or None where that info has none; in particular an environment with an empty info shows nothing of the other environments. If all infos are empty the policy gets an empty batch; infos that are empty or of one structure can always be combined.", "quantifier": "all numbers of environments and nested infos, any subset of them empty", "why_tests_cant": "structures and subsets are unbounded", "anchors": ["tianshou/data/collector.py:_HACKY_create_info_batch", "tianshou/data/batch.py:Batch.__setitem__", "tianshou/data/batch.py:Batch.stack_"]}
{"id": "C203", "title": "Hindsight vector buffer = hindsight sub-buffers", "statement": "Every sub-buffer of a HERVectorReplayBuffer behaves as a HERReplayBuffer that got exactly the transitions of its environment: relabelling in one sub-buffer does not touch the others, undoing it gives the plain vector buffer of everything added, adding acts as on that plain vector buffer, and sampling relabels each sub-buffer separately starting from the original transitions, with the indices a vector buffer without hindsight would sample.", "quantifier": "all numbers and sizes of sub-buffers, sequences of add, sample_indices and reset, random choices, reward functions, horizons and future_k", "why_tests_cant": "interleavings of adding and sampling and wrap positions are unbounded", "anchors": ["tianshou/data/buffer/manager.py:HERReplayBufferManager.add", "tianshou/data/buffer/manager.py:HERReplayBufferManager._restore_cache", "tianshou/data/buffer/manager.py:ReplayBufferManager.sample_indices", "tianshou/data/buffer/vecbuf.py:HERVectorReplayBuffer.__init__", "tianshou/data/buffer/her.py:HERReplayBuffer.sample_indices"]}
{"id": "C204", "title": "Targets after broken off episodes", "statement": "Whatever is done with a collector and its vector buffer, e.g. filling the buffer with collect(n_step) before trainer.run() (which resets the environments and keeps the buffer), the n-step target of a stored transition uses only rewards and states of its own episode.", "quantifier": "all environments, policies, numbers of environments, sequences of reset and collect with any arguments, sizes of sub-buffers, gamma and n", "why_tests_cant": "when an episode is broken off, wrap positions and interleavings are unbounded", "anchors": ["tianshou/data/collector.py:Collector.reset", "tianshou/data/collector.py:Collector._collect", "tianshou/trainer/base.py:BaseTrainer.reset", "tianshou/policy/base.py:BasePolicy.compute_nstep_return"]}
{"id": "C205", "title": "Statistics after a reset that keeps the buffer", "statement": "After a reset of the collector that keeps the buffer, the returns and lens of later statistics are the reward sums and lengths of the episodes made since the reset.", "quantifier": "all environments, policies, sequences of calls before and after the reset, sizes of sub-buffers", "why_tests_cant": "when the reset happens and episode lengths are unbounded", "anchors": ["tianshou/data/collector.py:Collector.reset", "tianshou/data/collector.py:Collector._collect", "tianshou/data/buffer/manager.py:ReplayBufferManager.add", "tianshou/trainer/base.py:BaseTrainer.reset"]}
{"id": "C206", "title": "From asynchronous environments to the targets", "statement": "With an AsyncCollector on a vector buffer, whatever the order in which the environments answer: adding never fails; sub-buffer e holds the latest transitions of environment e in order; n-step targets and advantages computed from the buffer are those of the stream of the environment of the transition; and returns and lens of the statistics are the reward sums and lengths of the episodes finished, also of those longer than their sub-buffer.", "quantifier": "all environments, policies, numbers of environments, completion orders, sequences of collects, sizes of sub-buffers, draws, gamma, lambda and n", "why_tests_cant": "completion orders, collects and wrap positions are unbounded", "anchors": ["tianshou/data/collector.py:AsyncCollector._collect", "tianshou/data/buffer/manager.py:ReplayBufferManager.add", "tianshou/policy/base.py:BasePolicy.compute_nstep_return", "tianshou/policy/base.py:BasePolicy.compute_episodic_return"]}
{"id": "C207", "title": "From the environments to the targets, with a CachedReplayBuffer", "statement": "With a Collector or an AsyncCollector on a CachedReplayBuffer, from a reset of the buffer on: the main part holds the latest transitions of the finished episodes in the order in which the episodes ended (each episode cut to its last max_episode_length steps), the cache of an environment the steps of its unfinished episode; n-step targets and advantages computed from the buffer are those of the stream of the environment the transition comes from, although the episodes of all environments share the main part.", "quantifier": "all environments, policies, numbers of environments, completion orders, sequences of collects, sizes of the parts, draws, gamma, lambda and n", "why_tests_cant": "interleavings of episodes, collects and wrap positions are unbounded", "anchors": ["tianshou/data/buffer/cached.py:CachedReplayBuffer.add", "tianshou/data/collector.py:Collector._collect", "tianshou/data/collector.py:AsyncCollector._collect", "tianshou/policy/base.py:BasePolicy.compute_nstep_return", "tianshou/policy/base.py:BasePolicy.compute_episodic_return"]}
{"id": "C208", "title": "Statistics of collections into a CachedReplayBuffer", "statement": "With a Collector or an AsyncCollector on a CachedReplayBuffer, the collections return and returns and lens of their statistics are the reward sums and lengths of the episodes that ended, in the order in which they ended.", "quantifier": "all environments, policies, numbers of environments, sequences of collects and sizes of the parts", "why_tests_cant": "interleavings of episodes, collects and wrap positions are unbounded", "anchors": ["tianshou/data/buffer/cached.py:CachedReplayBuffer.add", "tianshou/data/collector.py:Collector._collect", "tianshou/data/collector.py:AsyncCollector._collect", "tianshou/data/collector.py:CollectStats"]}
{"id": "C209", "title": "Sharing memory does not change results", "statement": "ShmemVectorEnv returns for every sequence of resets and steps the same observations, rewards, flags and infos as SubprocVectorEnv on the same environments, for observations that are members of the observation space.", "quantifier": "all environments, observation spaces (nested dictionaries included), numbers of environments, and sequences of calls for subsets of the environments", "why_tests_cant": "the sequences of calls and the shapes of spaces are unbounded; tests compare a few environments with one kind of space", "anchors": ["tianshou/env/worker/subproc.py:ShArray", "tianshou/env/worker/subproc.py:_setup_buf", "tianshou/env/worker/subproc.py:_worker", "tianshou/env/worker/subproc.py:SubprocEnvWorker", "tianshou/env/venvs.py:BaseVectorEnv.reset", "tianshou/env/venvs.py:BaseVectorEnv.step", "tianshou/env/venvs.py:ShmemVectorEnv"]}
{"id": "C210", "title": "Returned observations keep their values", "statement": "The observations that reset and step of a vector environment returned are not changed by later calls.", "quantifier": "all environments, observation spaces, and later sequences of calls", "why_tests_cant": "which later call could change an earlier result depends on the whole future of the program", "anchors": ["tianshou/env/worker/subproc.py:ShArray.get", "tianshou/env/worker/subproc.py:SubprocEnvWorker._decode_obs", "tianshou/env/venvs.py:BaseVectorEnv.reset", "tianshou/env/venvs.py:BaseVectorEnv.step"]}
{"id": "C211", "title": "The loss dictionary contains all losses", "statement": "get_loss_stats_dict returns every loss exactly once under its name: without train_time, smoothed_loss and fields that are None, with sequence summaries replaced by their means; for the statistics of a policy wrapper its own losses and those of the wrapped policy; for several agents those of every agent under \"agent/name\".", "quantifier": "all statistics: any fields, any depth of wrappers and of multi-agent statistics", "why_tests_cant": "wrappers and multi-agent policies can be nested arbitrarily, and names can clash in any pair of them", "anchors": ["tianshou/policy/base.py:TrainingStats.get_loss_stats_dict", "tianshou/policy/base.py:TrainingStatsWrapper", "tianshou/policy/modelbased/icm.py:ICMTrainingStats", "tianshou/policy/multiagent/mapolicy.py:MapTrainingStats"]}
{"id": "C212", "title": "Setting an attribute of wrapped statistics", "statement": "After setting an attribute of the statistics of a wrapper, reading it gives the new value and all other attributes are unchanged; train_time and smoothed_loss are the same on the wrapper and on what it wraps; setting a name that is not an attribute raises.", "quantifier": "all statistics, names and values", "why_tests_cant": "nesting, names and orders of assignments are unbounded", "anchors": ["tianshou/policy/base.py:TrainingStatsWrapper.__setattr__", "tianshou/policy/base.py:TrainingStatsWrapper.__getattr__"]}
{"id": "C213", "title": "Smoothed losses", "statement": "The smoothed_loss that the trainer stores in the statistics of an update has an entry for every loss of the update, the average of the last 100 finite values of this loss since the trainer was made or reset.", "quantifier": "all sequences of updates (with changing sets of losses) and resets", "why_tests_cant": "the averages depend on the whole history of updates", "anchors": ["tianshou/trainer/base.py:BaseTrainer._update_moving_avg_stats_and_log_update_data", "tianshou/trainer/base.py:BaseTrainer._update_moving_avg_stats_and_get_averaged_data", "tianshou/trainer/base.py:BaseTrainer.reset"]}
{"id": "C214", "title": "Losses reach the logger", "statement": "For every update the trainer hands all losses of the update to the logger, under their names.", "quantifier": "all statistics of updates", "why_tests_cant": "the fields of the statistics depend on the policy, its wrappers and the agents", "anchors": ["tianshou/trainer/base.py:BaseTrainer._update_moving_avg_stats_and_log_update_data", "tianshou/policy/base.py:TrainingStatsWrapper", "tianshou/policy/multiagent/mapolicy.py:MapTrainingStats"]}
{"id": "C215", "title": "Attributes set in environments are read back", "statement": "After set_env_attr(key, value, id) of a vector environment, get_env_attr(key, id) returns this value for the named environments; other attributes and other environments read as before.", "quantifier": "all kinds of workers, stacks of wrappers around the environments, names, values and sets of environments", "why_tests_cant": "stacks of wrappers and names are unbounded; tests use environments without wrappers", "anchors": ["tianshou/env/venvs.py:BaseVectorEnv.get_env_attr", "tianshou/env/venvs.py:BaseVectorEnv.set_env_attr", "tianshou/env/worker/dummy.py:DummyEnvWorker", "tianshou/env/worker/subproc.py:_worker", "tianshou/env/worker/ray.py:_SetAttrWrapper"]}
{"id": "C216", "title": "Reading attributes is the same for all vector environments", "statement": "get_env_attr returns the same values, or raises, whichever kind of vector environment holds the environments.", "quantifier": "all environments, names and kinds of workers", "why_tests_cant": "environments and names are unbounded", "anchors": ["tianshou/env/venvs.py:BaseVectorEnv.get_env_attr", "tianshou/env/worker/dummy.py:DummyEnvWorker.get_env_attr", "tianshou/env/worker/subproc.py:_worker", "tianshou/env/worker/ray.py:RayEnvWorker.get_env_attr"]}
{"id": "C217", "title": "Seeding fixes the random actions", "statement": "After seed(s) of a vector environment (or reset with a seed), the actions that collecting with random=True plays are determined by s and the number of the environment.", "quantifier": "all kinds of workers, seeds, numbers of environments, orders in which environments act, and collectors made before or after seeding", "why_tests_cant": "the order in which environments act and the number of actions are unbounded", "anchors": ["tianshou/env/venvs.py:BaseVectorEnv.seed", "tianshou/env/venvs.py:BaseVectorEnv.__getattribute__", "tianshou/env/worker/base.py:EnvWorker.seed", "tianshou/env/worker/dummy.py:DummyEnvWorker.seed", "tianshou/env/worker/subproc.py:_worker", "tianshou/env/worker/ray.py:RayEnvWorker.seed", "tianshou/data/collector.py:Collector._compute_action_policy_hidden"]}
{"id": "C218", "title": "Environments of a factory", "statement": "create_envs returns as many training and test environments as asked for, made for their mode, run as the chosen type says and seeded with train_seed + i and test_seed + i; a watch environment, if asked for, is a single environment in the process itself; the kind of environments and the shapes are those of the spaces. It returns for all environments with discrete or box actions.", "quantifier": "all factories, numbers of environments, modes and spaces", "why_tests_cant": "factories, numbers and spaces are unbounded", "anchors": ["tianshou/highlevel/env.py:EnvFactory.create_envs", "tianshou/highlevel/env.py:EnvFactory.create_venv", "tianshou/highlevel/env.py:EnvFactoryRegistered.create_venv", "tianshou/highlevel/env.py:VectorEnvType.create_venv", "tianshou/highlevel/env.py:ContinuousEnvironments._get_continuous_env_info", "tianshou/highlevel/env.py:DiscreteEnvironments"]}
{"id": "C219", "title": "Closing a vector environment", "statement": "close() of a vector environment returns and closes each environment exactly once, after it has served all requests it had been handed, also if it is still being stepped; afterwards every call of the vector environment raises an AssertionError, reaches no environment and closes none again; before, no environment is closed.", "quantifier": "all kinds of workers, numbers of environments, histories of calls before and after, and interleavings of the workers", "why_tests_cant": "histories and interleavings are unbounded", "anchors": ["tianshou/env/venvs.py:BaseVectorEnv.close", "tianshou/env/venvs.py:BaseVectorEnv._assert_is_not_closed", "tianshou/env/worker/base.py:EnvWorker.close", "tianshou/env/worker/dummy.py:DummyEnvWorker.close_env", "tianshou/env/worker/subproc.py:SubprocEnvWorker.close_env"]}
{"id": "C220", "title": "Values stored by episode hooks", "statement": "With a hook for finished episodes that returns arrays, every transition of a finished episode that is still in the buffer carries, under each name, the value the hook returned for it, and its own data; collections by episodes do not raise and leave no NaN behind if the hook always returns the same names; with the hook for Monte Carlo returns the values are the discounted sums of the rewards to the end of, and over, the episode.", "quantifier": "all collectors in ordinary use, hooks, environments, buffers and histories of collections", "why_tests_cant": "histories, episode lengths and wrap-arounds of the ring buffers are unbounded", "anchors": ["tianshou/data/collector.py:Collector._collect", "tianshou/data/collector.py:EpisodeRolloutHook", "tianshou/data/collector.py:EpisodeRolloutHookMCReturn", "tianshou/data/batch.py:Batch.set_array_at_key", "tianshou/data/buffer/base.py:ReplayBuffer.set_array_at_key"]}
{"id": "C221", "title": "Missing values in the buffer", "statement": "A collection raises MalformedBufferError exactly if raise_on_nan_in_buffer is set and a transition that is still in the buffer was given a missing value (NaN or None), in its data or anywhere in its information.", "quantifier": "all collectors in ordinary use, both kinds; all environments, buffers and histories of collections", "why_tests_cant": "histories, wrap-arounds of the ring buffers and the sets of keys that environments return are unbounded", "anchors": ["tianshou/data/collector.py:BaseCollector.collect", "tianshou/data/collector.py:Collector._collect", "tianshou/data/batch.py:Batch.hasnull", "tianshou/data/buffer/base.py:ReplayBuffer.hasnull", "tianshou/data/buffer/manager.py:ReplayBufferManager.add", "tianshou/data/batch.py:create_value", "tianshou/data/batch.py:alloc_by_keys_diff", "tianshou/data/batch.py:Batch.__setitem__", "tianshou/data/batch.py:Batch.stack_"]}
{"id": "C222", "title": "Information is stored as returned", "statement": "What an environment returns in the information of a step is read back from the buffer with that transition, under every key and unchanged, as long as the transition is in the buffer; keys that come with some of the steps only are 0, False or None for the others.", "quantifier": "all collectors in ordinary use, both kinds; all environments, keys, buffers and histories of collections", "why_tests_cant": "the type of an array is fixed by the first value ever stored; which value that is depends on the whole history and on the environments that are ready together", "anchors": ["tianshou/data/buffer/manager.py:ReplayBufferManager.add", "tianshou/data/batch.py:create_value", "tianshou/data/batch.py:alloc_by_keys_diff", "tianshou/data/batch.py:Batch.__setitem__", "tianshou/data/batch.py:Batch.stack_", "tianshou/data/buffer/base.py:ReplayBuffer.get"]}
{"id": "C223", "title": "Settings of experiment builders", "statement": "Every call on an experiment builder changes the setting it names, in that builder only; a copy starts with the settings of the original; an experiment is built with the settings its builder has at that time and keeps them, whatever is done with builders afterwards; the experiments of a seeded collection have the settings of the builder apart from seeds and names.", "quantifier": "all sequences of creating, configuring, copying and building, numbers of builders, critics and experiments", "why_tests_cant": "sequences of calls are unbounded; that settings stay has to hold for everything done later", "anchors": ["tianshou/highlevel/experiment.py:ExperimentBuilder.build", "tianshou/highlevel/experiment.py:ExperimentBuilder.copy", "tianshou/highlevel/experiment.py:ExperimentBuilder.build_seeded_collection", "tianshou/highlevel/experiment.py:_BuilderMixinDualCriticFactory.with_common_critic_factory", "tianshou/highlevel/agent.py:AgentFactory.set_trainer_callbacks"]}
{"id": "C224", "title": "Copies of vector and cached buffers", "statement": "A deep copy or pickle of a vector buffer or a cached buffer behaves, under the same later calls, as the original: same slots and statistics returned, same rows, length, prev, next, unfinished_index and samples; finished episodes of a cached buffer arrive in its main part.", "quantifier": "all buffers, times of copying and later sequences of add and reset", "why_tests_cant": "needs all histories before and after the copy; the arrays of the sub-buffers agree with those of the buffer until the first add after the copy", "anchors": ["tianshou/data/buffer/manager.py:70-193", "tianshou/data/buffer/cached.py:46-85", "tianshou/data/buffer/base.py:233-252", "tianshou/data/buffer/base.py:302-346"]}
{"id": "C225", "title": "Multi-agent n-step targets", "statement": "With several agents in one buffer, the n-step target of a move of an agent sums the rewards that agent received in the following n transitions of the same episode (whoever moved in them), discounted per transition, and adds the value, by the agent's own network, of a state in which that agent is to move.", "quantifier": "all vector buffers, numbers of agents and environments, lengths of games, n", "why_tests_cant": "needs all interleavings of moves and all buffer histories; a test has one game of fixed length", "anchors": ["tianshou/policy/multiagent/mapolicy.py:120-161", "tianshou/policy/base.py:629-721", "tianshou/policy/base.py:843-889"]}
{"id": "C226", "title": "Multi-agent advantages", "statement": "With several agents in one buffer, the advantage of a move of an agent is the generalised advantage estimate over that agent's moves from this one to the end of the same episode, in the same environment; the rewards the agent receives until its next move count.", "quantifier": "all vector buffers, orders of moves, lengths of games, numbers of environments", "why_tests_cant": "needs games of all lengths and all agents, in particular those who do not make the last move", "anchors": ["tianshou/policy/multiagent/mapolicy.py:120-161", "tianshou/policy/base.py:576-626", "tianshou/policy/base.py:811-840"]}
{"id": "C227", "title": "Every transition is equally likely", "statement": "On average over the random numbers, a sample of n transitions from a ReplayBuffer or a vector buffer contains each transition that can be sampled equally often, n / k times if there are k of them, however full the sub-buffers are.", "quantifier": "all buffers reached by adding and resetting, sample sizes, random number generators with the documented distributions", "why_tests_cant": "an average over all random outcomes; a test sees a few draws and could only estimate frequencies", "anchors": ["tianshou/data/buffer/manager.py:195-229", "tianshou/data/buffer/base.py:488-524"]}
{"id": "C228", "title": "Prioritised sampling is proportional", "statement": "On average over the random numbers, a sample of n transitions from a prioritised buffer (single or vector) that was never reset contains slot i n * w_i / S times, where w are the stored priorities and S is their sum.", "quantifier": "all histories of adding and updating priorities, sample sizes, random number generators", "why_tests_cant": "an average over all random outcomes and all priorities", "anchors": ["tianshou/data/buffer/prio.py:63-67", "tianshou/data/utils/segtree.py:63-135"]}
{"id": "C229", "title": "Probabilities of exploration", "statement": "After exploration_noise of a DQN policy (with eps in [0, 1] that does not count as 0) each action allowed by the mask is taken with probability eps / k, where k is the number of allowed actions, the greedy action with an additional probability 1 - eps, and other actions never. MARLRandomPolicy takes each allowed action with the same probability.", "quantifier": "all batches, numbers of actions, masks with an allowed action, eps, random number generators with the documented distribution", "why_tests_cant": "probabilities over all random outcomes; a test could only estimate frequencies", "anchors": ["tianshou/policy/modelfree/dqn.py:238-254", "tianshou/policy/random.py:46-49"]}
{"id": "C230", "title": "Which future step provides the hindsight goal", "statement": "The goal that HERReplayBuffer substitutes in a sampled episode is that of each step from the latest sampled one to the end of the episode with the same probability, with independent choices for different episodes.", "quantifier": "all reachable buffers, sampled indices, random numbers, horizons at least the episode length", "why_tests_cant": "probabilities over all random outcomes; the goals drawn are admissible in any case, so a test sees nothing wrong", "anchors": ["tianshou/data/buffer/her.py:119-142"]}
{"id": "C231", "title": "Independent noise of the target network of Rainbow", "statement": "In every update of RainbowPolicy the noisy layers of the online and of the target network use independently drawn noise, and noise that was not used in an earlier update.", "quantifier": "all numbers of noisy layers, target update frequencies, gradient steps, distributions of independent noise, updates", "why_tests_cant": "independence is a statement about all random outcomes", "anchors": ["tianshou/policy/modelfree/rainbow.py:50-59", "tianshou/policy/modelfree/c51.py:119-121", "tianshou/policy/modelfree/dqn.py:117-119", "tianshou/utils/net/discrete.py:343-368"]}
{"id": "C232", "title": "No environment of an asynchronous vector environment is starved", "statement": "The result of an action handed to an environment of an asynchronous vector environment is returned by a later call of step: with subprocess workers by the first call made after the process has finished, with dummy workers by one of the next k calls that return, where 2^k exceeds the number of environments.", "quantifier": "all environments, numbers of environments, wait_num, timeouts, schedules and sequences of calls", "why_tests_cant": "that something always happens eventually is a statement about all sequences of calls and all schedules", "anchors": ["tianshou/env/venvs.py:237-322", "tianshou/env/worker/dummy.py:29-36", "tianshou/env/worker/subproc.py:195-212"]}
{"id": "C233", "title": "Environments receive the actions that the random policy sampled", "statement": "A RandomActionPolicy (the agent of RandomActionAgentFactory) for a Box makes a collector send to the environments the actions that sample() of the action space returned.", "quantifier": "all boxes, numbers of environments and samples", "why_tests_cant": "the claim is about all boxes and about the distribution of the actions; the test in the repository uses one box only", "anchors": ["tianshou/policy/base.py:735-753", "tianshou/policy/base.py:367-400", "tianshou/utils/net/common.py:636-676", "tianshou/data/collector.py:706-711"]}
{"id": "C234", "title": "compute_action returns an action of the environment", "statement": "For an observation of an environment, compute_action returns the action that the policy chooses, with bounds and scaling applied: an int for discrete actions, otherwise an array of the shape of the action space.", "quantifier": "all action spaces, shapes of observations, bounding methods, policies, with and without scaling", "why_tests_cant": "shapes and policies are unbounded in number", "anchors": ["tianshou/policy/base.py:292-315", "tianshou/policy/base.py:367-400"]}
{"id": "C235", "title": "Policy gradient", "statement": "In expectation over the collected episodes, the gradient of the loss of PGPolicy is a negative multiple of the gradient of the expected (discounted) return of an episode, so that a step of gradient descent improves the policy.", "quantifier": "all finite environments, time limits, differentiable families of policies, discount factors, numbers of episodes", "why_tests_cant": "the claim is about an expectation over all episodes and holds or fails for all environments and policies at once; a test sees one sample", "anchors": ["tianshou/policy/modelfree/pg.py:128-176", "tianshou/policy/modelfree/pg.py:202-230", "tianshou/policy/base.py:599-697"]}
{"id": "C236", "title": "Policy gradients of A2C, PPO and TRPO", "statement": "With gamma and gae_lambda 1 and without normalisation, the expected gradient of actor_loss of A2CPolicy, weighted by the number of transitions, is minus the gradient of the expected sum of rewards times the number of episodes, where the value of the last state counts as a last reward if the episode is truncated; this holds for every critic. For the policy that has collected the data, the gradients of clip_loss of PPOPolicy and of the actor loss of TRPOPolicy equal that of A2CPolicy and NPGPolicy for the same advantages.", "quantifier": "all finite environments, time limits, differentiable families of policies, critics, numbers of episodes; all batches, advantages and clipping parameters", "why_tests_cant": "the claim is about an expectation over all episodes, and about all critics and clipping parameters", "anchors": ["tianshou/policy/modelfree/a2c.py:115-176", "tianshou/policy/modelfree/ppo.py:191-200", "tianshou/policy/modelfree/npg.py:146", "tianshou/policy/modelfree/trpo.py:119-121"]}
{"id": "C237", "title": "Fixed point of Q-learning", "statement": "The optimal action values (the solution of Bellman's optimality equation, which exists and is unique for discount factors below 1) are what DQNPolicy leaves unchanged: if the network and the target network give them, the expected gradient of the loss over random transitions is zero, and a table of values for which it is zero satisfies the equation.", "quantifier": "all finite environments, discount factors, distributions of batches, weights, parametrisations of the network, with and without double Q-learning, target network, gradient clipping and n-step returns", "why_tests_cant": "the claim is about an expectation over transitions of arbitrary environments and about all networks", "anchors": ["tianshou/policy/modelfree/dqn.py:121-156", "tianshou/policy/modelfree/dqn.py:212-234", "tianshou/policy/base.py:629-721", "tianshou/policy/base.py:827-888"]}
{"id": "C238", "title": "Fitted Q-learning converges", "statement": "If between two synchronisations of the target network DQNPolicy (without double Q-learning and gradient clipping, n_step 1) is trained until its table of values minimises the expected loss, and every pair of state and action occurs in the batches, then the distance from the optimal values is multiplied by at most the discount factor each time; and as soon as it is less than half of the advantage of the best action in a state, the policy chooses this action.", "quantifier": "all finite environments, discount factors, distributions of batches, initial values, numbers of synchronisations", "why_tests_cant": "environments, initial values and numbers of steps are unbounded", "anchors": ["tianshou/policy/modelfree/dqn.py:117-156", "tianshou/policy/modelfree/dqn.py:166-234"]}
{"id": "C239", "title": "Minibatches are independent draws", "statement": "The entries of a sampled minibatch are independent: all minibatches of n transitions of a replay buffer are equally likely, and the probability of a minibatch from a prioritised buffer (single or vector) is the product of the shares of the priorities of its entries in the sum of all priorities.", "quantifier": "all histories of the buffer, sizes and contents of the minibatch", "why_tests_cant": "probabilities of all minibatches; sampling cannot settle an equality of probabilities", "anchors": ["tianshou/data/buffer/base.py:488-524", "tianshou/data/buffer/prio.py:63-67", "tianshou/data/utils/segtree.py:84-134"]}
{"id": "C240", "title": "Importance weights correct whole minibatches", "statement": "With beta = 1 the expected weighted mean of a function over a sampled minibatch of a prioritised buffer is proportional to its plain mean over the stored transitions, with a constant that does not depend on the function.", "quantifier": "all histories of the buffer, functions, sizes of the minibatch, with and without weight_norm", "why_tests_cant": "a statement about expectations for all functions and priorities", "anchors": ["tianshou/data/buffer/prio.py:63-107", "tianshou/data/buffer/vecbuf.py:58-62"]}
{"id": "C241", "title": "Advantages with an exact critic are unbiased", "statement": "If the critic gives the values of the policy (in the unit of the normalised returns if reward normalisation is on), the expected sum of any function of observation and action times the computed advantages equals that function times the true advantages, for every discount factor and lambda and also for episodes broken off by a time limit. Hence the expected actor gradient of A2C does not depend on lambda, the computed returns are unbiased targets of the critic, and the exact critic is a stationary point of its loss.", "quantifier": "all finite environments, policies, discount factors, lambdas, numbers and lengths of episodes, sizes of the parts in which the critic is evaluated, orders of rows, weighting functions", "why_tests_cant": "expectations over all episodes for all environments and policies", "anchors": ["tianshou/policy/modelfree/a2c.py:115-156", "tianshou/policy/modelfree/a2c.py:167-179", "tianshou/policy/base.py:517-577"]}
{"id": "C242", "title": "Discrete SAC learns the soft optimal values", "statement": "For a fixed temperature the loss of the actor is least for exactly the action probabilities proportional to exp(q/alpha) of the smaller critic; with one-step returns, the soft optimal values with this actor are left alone by the expected critic gradients and nothing else is; they are unique, at least the optimal values, and exceed them by at most gamma*alpha*log(number of actions)/(1-gamma); if in every round actor and critics are trained to the minimum of their losses and the targets synchronised, both critics converge to them geometrically with the discount factor.", "quantifier": "all finite environments, numbers of actions, discount factors, temperatures, batches, weights, networks, numbers of rounds", "why_tests_cant": "expectations, minima over all networks and limits for all environments", "anchors": ["tianshou/policy/modelfree/discrete_sac.py:117-164", "tianshou/policy/modelfree/ddpg.py:143-156"]}
{"id": "C243", "title": "C51 learns the optimal values as means", "statement": "If all targets computed from values between v_min and v_max lie between v_min and v_max, and returns are one-step, the expected target distribution of C51 has as mean what Q-learning would have as target; if in every round the network is trained to the minimum of the expected loss over all tables of distributions and the target network is synchronised, the means of the learned distributions converge to the optimal action values geometrically with the discount factor, up to num_atoms * 1e-8 * (v_max - v_min) / (1 - gamma). The means always lie between v_min and v_max.", "quantifier": "all finite environments, numbers of actions and atoms, ranges, discount factors, batches, weights, first tables, numbers of rounds", "why_tests_cant": "minima over all distributions, expectations and limits for all environments", "anchors": ["tianshou/policy/modelfree/c51.py:95-130", "tianshou/policy/base.py:629-721"]}
{"id": "C244", "title": "What the discriminator of GAIL learns", "statement": "Let the policy's and the expert's minibatches be random, with the same observation-action pairs having positive share in both. The expected loss of GAIL's discriminator is least exactly if its output is the logarithm of the ratio of the expert's share to the policy's. The reward then is log(1 + expert's share / policy's share); the expected reward of a step is at most log 2, and log 2 exactly for a policy with the expert's shares. If one does what the other never does, no discriminator has the least loss.", "quantifier": "all finite sets of observations and actions, distributions of minibatches, batch sizes, discriminators", "why_tests_cant": "minima over all discriminators, expectations", "anchors": ["tianshou/policy/imitation/gail.py:149-153", "tianshou/policy/imitation/gail.py:162-182"]}
{"id": "C245", "title": "What imitation learns", "statement": "Let minibatches of the expert's observations and actions be random. With discrete actions the expected loss of ImitationPolicy is at least the mean uncertainty (entropy) of the expert's action, with equality exactly if the probabilities of the policy are the expert's in every observation in the data; this is reached if the expert takes every action, and the policy then takes an action the expert takes most often. With continuous actions the expected loss is least exactly if the policy's action is the mean of the expert's actions in every observation in the data.", "quantifier": "all finite sets of observations and expert actions, distributions of minibatches, batch sizes, networks", "why_tests_cant": "minima over all policies, expectations", "anchors": ["tianshou/policy/imitation/base.py:69-113"]}
{"id": "C246", "title": "Quantile regression learns quantiles", "statement": "If a table of quantiles minimises the expected loss of QRDQN, IQN or FQF for random minibatches, then for every observation and action in the data the number learned for a fraction tau is a tau-quantile of the numbers of the target distributions: at most tau of them are smaller, at least tau are smaller or equal. What is learned does not cross: a larger fraction never gets a smaller number. Such a table exists.", "quantifier": "all finite sets of observations, actions and target distributions, fractions in (0, 1), distributions of minibatches", "why_tests_cant": "minima over all tables, expectations", "anchors": ["tianshou/policy/modelfree/qrdqn.py:107-131", "tianshou/policy/modelfree/iqn.py:133-153", "tianshou/policy/modelfree/fqf.py:156-175"]}
{"id": "C247", "title": "The posterior of PSRL concentrates at the environment", "statement": "If an action is taken in a state again and again, then with probability 1, whatever the agent does and however the data are divided into batches, PSRL's posterior means of its reward and of its transition probabilities tend to those of the environment, and the standard deviation of the sampled reward becomes a real number and tends to 0.", "quantifier": "all priors with positive standard deviations, all stationary environments with square-integrable rewards, all runs", "why_tests_cant": "limits of random sequences", "anchors": ["tianshou/policy/modelbased/psrl.py:61-94", "tianshou/policy/modelbased/psrl.py:230-253"]}
{"id": "C248", "title": "The critics of DDPG and TD3 learn the values of the policy", "statement": "With estimation_step=1, critics that are tables and trained to the smallest expected loss in each call of learn, and an actor that does not change: the target critic of DDPG approaches the expected discounted returns of the actor, its distance shrinking by the factor 1 - tau (1 - gamma) in each call, and the critic is closer still. Both critics of TD3 approach those of the policy that perturbs the actor's actions by the clipped noise, at the same rate per update of the targets, which takes place in the first call and then in every update_actor_freq-th.", "quantifier": "all finite environments, discount factors, values of tau, update frequencies, noises with finitely many values, initial critics and numbers of calls", "why_tests_cant": "limits of infinitely many calls; expectations", "anchors": ["tianshou/policy/modelfree/ddpg.py:131-156", "tianshou/policy/modelfree/ddpg.py:181-210", "tianshou/policy/modelfree/td3.py:123-163", "tianshou/policy/base.py:287-290"]}
{"id": "C249", "title": "Exploration goes on", "statement": "While eps stays above some positive number, every action allowed with an observation that is seen infinitely often is taken with it infinitely often, with probability one, whatever the network says; the same if eps decreases but its values in these calls add up to infinity. In an environment with finitely many states, each reachable from each by allowed actions, every allowed action is therefore taken in every state infinitely often. If the values of eps have a finite sum, all but finitely many actions are those of the network.", "quantifier": "all networks (changing in any way), masks, sequences of eps, rows, environments with finitely many states, random number generators with the documented distribution", "why_tests_cant": "an almost sure statement about infinitely many calls", "anchors": ["tianshou/policy/modelfree/dqn.py:238-254", "tianshou/policy/modelfree/dqn.py:102-104"]}
{"id": "C250", "title": "The Lagrange multiplier of CQL follows the penalties", "statement": "With with_lagrange the multiplier of the penalty starts at 1 and stays between alpha_min and alpha_max; its gradient is that of minus the mean of the weighted excesses of the two penalties over lagrange_threshold. It rises with each call of learn as long as the mean penalty has been above the threshold, and falls as long as it has been below, on every device and also after it has reached a bound.", "quantifier": "all sequences of calls of learn, penalties, bounds, thresholds, constants of Adam", "why_tests_cant": "all sequences of penalties; a multiplier that has stopped moving looks like one that has converged", "anchors": ["tianshou/policy/imitation/cql.py:141-143", "tianshou/policy/imitation/cql.py:359-377"]}
{"id": "C251", "title": "The autoencoder of BCQ maximises a bound of the likelihood of the actions", "statement": "The loss of the autoencoder in BCQ is the mean squared error of the reconstructed actions plus half the mean Kullback-Leibler divergence of the latent variables from the standard normal law. Its expectation is, up to constants, the mean negative log-density of the actions in the batch for the generative model (latent vector standard normal, action normal around the decoded one with variance A/(4L)) plus the divergence of the encoder from the true law of the latent vector given the action; it is therefore an upper bound of the negative log-likelihood.", "quantifier": "all networks, batches, latent dimensions L, action dimensions A", "why_tests_cant": "integrals over the latent vector; a wrong sign or factor still gives a loss that goes down", "anchors": ["tianshou/policy/imitation/bcq.py:163-168", "tianshou/utils/net/continuous.py:495-529"]}
{"id": "C252", "title": "Runs logged to W&B can be resumed", "statement": "A WandbLogger with a writer logs the same entries and saves the same checkpoints as a TensorboardLogger with the same intervals; a new logger on the same run resumes from the last checkpoint, or from the start if there is none, with the path of the checkpoint file, and its intervals continue.", "quantifier": "all sequences of calls, intervals, checkpoint functions", "why_tests_cant": "all sequences of calls; needs the service; an interrupted run has to be continued", "anchors": ["tianshou/utils/logger/wandb.py:98-190"]}
{"id": "C253", "title": "Observation statistics converge", "statement": "With VectorEnvNormObs on training environments the mean and the variance of the statistics converge to the long-run mean and variance of the observations, and the normalised value of an observation converges to the observation standardised with these and clipped, however the observations are distributed over the calls; for independent observations with the same law this holds almost surely with the expectation and the variance of the law.", "quantifier": "all sequences of observations with converging averages, all batch sizes, all square-integrable laws", "why_tests_cant": "a limit over infinitely many calls; almost-sure statement over random observations", "anchors": ["tianshou/utils/statistics.py:69-115", "tianshou/env/venv_wrappers.py:73-131"]}
{"id": "C254", "title": "REDQ targets interpolate between mean and minimum", "statement": "On average over the random subsets of the ensemble, the target of REDQ with target_mode=\"mean\" is the mean of the whole ensemble for every subset_size; with target_mode=\"min\" it is the mean for subset_size=1, does not rise with the subset size, and is the minimum of the ensemble if the subset is the whole ensemble.", "quantifier": "all ensemble sizes, subset sizes and values of the critics", "why_tests_cant": "an average over all random draws, for all values of the critics", "anchors": ["tianshou/policy/modelfree/redq.py:178-194"]}
{"id": "C255", "title": "NPG and TRPO use the Fisher information, and their steps improve the policy", "statement": "For actors with discrete actions (logits) and with independent normal actions (mean, standard deviation) that are twice continuously differentiable in their parameters, the curvature that NPGPolicy and TRPOPolicy use is the Fisher information of the policy, averaged over the minibatch. Unless the gradient is zero, an NPG update with a small enough actor_step_size raises the weighted log-likelihood, and the line search of TRPO succeeds with a positive step inside the trust region if max_backtracks is large enough. While the policy is the one that gave the old log-probabilities, NPG and TRPO search in the same direction.", "quantifier": "all such actors, parameters, minibatches, damping, tolerance and max_kl", "why_tests_cant": "a statement about derivatives of arbitrary differentiable networks and about sufficiently small steps", "anchors": ["tianshou/policy/modelfree/npg.py:141-162", "tianshou/policy/modelfree/npg.py:186-219", "tianshou/policy/modelfree/trpo.py:117-173"]}
{"id": "C256", "title": "The fractions of FQF minimise the distance to the learned law", "statement": "For every continuous, non-decreasing quantile function and all fractions, the gradient that FQFPolicy gives its fraction proposal network is that of the 1-Wasserstein distance between the law of the returns and its approximation with the proposed fractions, minus ent_coef times the gradient of the entropy, on average over the minibatch. The Q-value of FQF differs from the mean of the law by at most this distance.", "quantifier": "all quantile functions, numbers of fractions, fractions, minibatches and networks", "why_tests_cant": "an identity between derivatives and integrals of arbitrary functions", "anchors": ["tianshou/policy/modelfree/fqf.py:179-209", "tianshou/utils/net/discrete.py:238-252"]}
{"id": "C257", "title": "In learn each optimizer follows its own loss, whatever gradients are around", "statement": "In a call of learn of any policy each optimizer makes its steps with the derivatives of its own loss alone (clipped where there is a norm bound), in a fixed order and at fixed values of the networks, and nothing but its own parameters moves in a step; target networks move where the policy says. Gradients left over from earlier calls, from the loss of the actor reaching the critics, or from backward passes of the user have no effect on values of parameters or states of optimizers. Where gradients are clipped, the optimizer is to hold all parameters of the clipped network; in BCQ the critics are to be separate.", "quantifier": "all policies, losses, optimizers, shared networks, left-over gradients and sequences of calls", "why_tests_cant": "hidden state (.grad) that carries over between calls of all policies, in all interleavings", "anchors": ["tianshou/policy/modelfree/*.py:learn", "tianshou/policy/imitation/*.py:learn", "tianshou/policy/modelbased/icm.py:learn", "tianshou/policy/modelfree/ddpg.py:_mse_optimizer"]}
{"id": "C258", "title": "The loss of the CRR actor does not train the critic", "statement": "In discrete CRR the loss of the actor does not change when the outputs of the critic for the observations of the batch change a little: the critic is trained by its own loss and the conservative term only, and a critic that agrees with its targets stays where it is (without the conservative term).", "quantifier": "all batches, directions and modes", "why_tests_cant": "a statement about derivatives in all directions", "anchors": ["tianshou/policy/imitation/discrete_crr.py:129-145"]}
{"id": "C259", "title": "What the conservative term of discrete CRR does to the critic", "statement": "Once the loss of DiscreteCRRPolicy (modes \"binary\" and \"all\", a critic with one value per state and action) has settled on a dataset, the value of every logged action is the mean of its targets minus min_q_weight times the relative excess of its softmax probability under the critic over its frequency in the data. In states where every action was logged the critic falls short of the targets, on average under its softmax policy, by min_q_weight times the chi-squared divergence of that policy from the data, so with a weight of at least zero it is never too optimistic about it; on average over the logged actions the values agree with the targets.", "quantifier": "all datasets, tables, targets, numbers of states and actions, weights", "why_tests_cant": "a statement on stationary points of a loss over all datasets", "anchors": ["tianshou/policy/imitation/discrete_crr.py:112-150"]}
{"id": "C260", "title": "The law of OUNoise", "statement": "With independent standard normal random numbers, the noise of every call of OUNoise (sizes given as tuples) is normal with the mean and variance of the discretised Ornstein-Uhlenbeck process, the covariance of two calls is the variance at the earlier one times (1 - theta dt) to the power of the calls between them, different components are independent, and for 0 < theta dt < 2 mean and variance tend to mu and sigma^2 / (theta (2 - theta dt)).", "quantifier": "all parameters, starting values, sizes, numbers of calls and probability spaces", "why_tests_cant": "laws of random variables and limits", "anchors": ["tianshou/exploration/random.py:52-82"]}
{"id": "C261", "title": "Transforming the values of a batch in place", "statement": "apply_values_transform(f, inplace=True), and so to_numpy_ and to_torch_, transform every value of the batch in place, nested batches included, whichever reference one reads it through; with inplace=False the result is a new batch and all existing ones stay as they are.", "quantifier": "all batches, nestings, functions and other batches in memory", "why_tests_cant": "sharing of objects between arbitrary nested batches", "anchors": ["tianshou/data/batch.py:603-614", "tianshou/data/batch.py:868-914", "tianshou/data/batch.py:1367-1384"]}
{"id": "C262", "title": "to_at_least_2d", "statement": "Batch.to_at_least_2d gives every array and every distribution of the batch, nested ones included, at least two dimensions (a batch dimension) and keeps their content.", "quantifier": "all batches, nestings, shapes and contents", "why_tests_cant": "arbitrary nesting and shapes", "anchors": ["tianshou/data/batch.py:1354-1364"]}
{"id": "C263", "title": "The critic of A2C learns the values of the policy", "statement": "If the critic of A2C (and so of PPO, NPG and TRPO) is fitted to the returns that process_fn computes with the previous critic, its distance to the values of the policy shrinks in every round by the factor gamma, in every state that is visited and for every lambda and time limit; for gamma < 1 the critics tend to the values of the policy.", "quantifier": "all finite environments, policies, critics, lambdas in [0,1], discount factors, time limits, numbers of episodes, orders of the rows", "why_tests_cant": "limits and expectations over all episodes", "anchors": ["tianshou/policy/modelfree/a2c.py:115-156", "tianshou/policy/modelfree/a2c.py:178-179", "tianshou/policy/base.py:421-508"]}
{"id": "C264", "title": "What the actor of SAC aims at", "statement": "The expected actor_loss of SAC, CQL and REDQ is, up to a number that does not depend on the actor, alpha times the mean over the batch of the divergence of the law of the action from the law whose density is proportional to exp(q / alpha), where q is the smaller critic (the mean of the ensemble for REDQ). So exactly the actors with that law have the least loss. If the critics are the soft values under the old actor, an actor whose expected loss is in no state larger has in no state smaller soft values.", "quantifier": "all critics, batches, laws of actions with a density, dimensions of actions, alpha > 0, finite sets of states, discount factors", "why_tests_cant": "expectations over continuous actions and a minimum over all laws", "anchors": ["tianshou/policy/modelfree/sac.py:24-38", "tianshou/policy/modelfree/sac.py:186-209", "tianshou/policy/modelfree/sac.py:233-239", "tianshou/policy/modelfree/redq.py:211-214", "tianshou/policy/imitation/cql.py:177-185"]}
{"id": "C265", "title": "The critics of SAC learn the soft values of the actor", "statement": "Let the actor of SAC stay as it is, and let in every call of learn both critics (linear in their parameters and able to represent rewards plus discounted values) become the ones with the smallest expected loss. Then the target critics approach the soft values of the actor (expected discounted sum of rewards and of -alpha * log_prob) by the factor 1 - tau (1 - gamma) in every call, for almost all actions in the batches and almost all actions of the actor; the critics are closer by the factor gamma. The soft values exist and are unique for gamma < 1.", "quantifier": "all environments with finitely many states and continuous actions, actors, batches that cover the actions of the actor, weights, alpha, tau, gamma, initial critics, numbers of calls", "why_tests_cant": "limits, expectations over continuous actions", "anchors": ["tianshou/policy/modelfree/sac.py:181-183", "tianshou/policy/modelfree/sac.py:186-224", "tianshou/policy/modelfree/sac.py:226-254", "tianshou/policy/modelfree/ddpg.py:143-197", "tianshou/policy/base.py:287-290"]}
{"id": "C266", "title": "Alternating critics and actors reach the optimal values", "statement": "Alternate between critics that are exact for the current actor and an actor with the smallest actor_loss for those critics (DDPG, TD3: on a batch that contains every state; SAC: in expectation). Then the values of the actors never fall and approach the optimal values (SAC: the soft optimal values) by the factor gamma each time. If the critics are right only up to an error eps, the values come as close to the optimal ones as 2 eps / (1 - gamma)^2. Such sequences exist from every first actor, for environments that depend continuously on the action (SAC: measurably, with bounded rewards).", "quantifier": "all environments with finitely many states and continuous actions, first actors, batches with every state, alpha, gamma < 1, numbers of rounds", "why_tests_cant": "limits over all rounds, all actions of a continuum", "anchors": ["tianshou/policy/modelfree/ddpg.py:204", "tianshou/policy/modelfree/td3.py:151", "tianshou/policy/modelfree/sac.py:233-239"]}
{"id": "C267", "title": "The actor of DDPG and TD3 follows the gradient of the expected return", "statement": "Let the critic give the exact values of actions under the current actor and let the batches be drawn from data of the current actor. Then the gradient of the expected actor_loss is a negative multiple of the gradient of the expected discounted return, along every smooth path of actors.", "quantifier": "all environments with finitely many states and continuous actions whose rewards and probabilities have derivatives, all smooth paths of actors, batch sizes, gamma < 1", "why_tests_cant": "derivatives of infinite sums; all paths and environments", "anchors": ["tianshou/policy/modelfree/ddpg.py:204-207", "tianshou/policy/modelfree/td3.py:151-155", "tianshou/data/buffer/base.py:488-524"]}
{"id": "C268", "title": "create_uniform_action_dist is uniform on the action space", "statement": "Sampling from create_uniform_action_dist(space, n) gives n independent actions that are uniformly distributed on the space, as n calls of space.sample() would for a bounded Box and for Discrete. Other spaces are refused.", "quantifier": "all Box and Discrete spaces, batch sizes", "why_tests_cant": "laws of continuous random variables; all shapes and bounds", "anchors": ["tianshou/utils/torch_utils.py:58-79"]}
{"id": "C269", "title": "Hindsight relabelling does not change what is learned", "statement": "The transitions that a hindsight buffer gives out are transitions of the environment for the goal that they carry: the reward is that of the goal, the next observation is that of the action, and the end of the episode is that of the environment under this goal. The best values for every goal are consistent with all of them.", "quantifier": "all goal environments, histories of the buffer, samplings", "why_tests_cant": "quantifies over environments and over the random choices of the relabelling; the bias is a statement about averages", "anchors": ["tianshou/data/buffer/her.py:100-188"]}
{"id": "C270", "title": "Discrete BCQ learns the best policy within the data", "statement": "Trained on a fixed dataset until its losses are as small as possible, discrete BCQ considers in each observation exactly the actions that are at least unlikely_action_threshold times as frequent in the data as any other; its values are the discounted returns of its own policy (no overestimation through actions outside of the data), and no policy that takes only such actions has larger returns. They are determined by the dataset.", "quantifier": "all environments, datasets, thresholds, discount factors, weights of the logits penalty, networks", "why_tests_cant": "quantifies over environments and datasets and is about minima of losses", "anchors": ["tianshou/policy/imitation/discrete_bcq.py:120-180"]}
{"id": "C271", "title": "What an accepted TRPO update can cost", "statement": "If the advantages are those of the policy that made the batch and every pair of state and action occurs in it as often as expected, updates of TRPO that are not rejected (reported step size not 0) lower the expected return by at most 2 * M * (n - 1) * L * k * sqrt(max_kl) after k updates with the whole batch, where M bounds the advantages, n is the time limit and L the expected number of steps of an episode. With episodes of one step they do not lower it at all. Normalising the advantages does not matter.", "quantifier": "all finite environments with discrete actions, actors, batches, numbers of updates, parameters of TRPO", "why_tests_cant": "a bound on an expectation over all episodes, for all environments and networks", "anchors": ["tianshou/policy/modelfree/trpo.py:108-200", "tianshou/policy/modelfree/npg.py:110-127"]}
{"id": "C272", "title": "What BDQ learns from a dataset", "statement": "Training with the whole dataset settles exactly in the values that are, for each branch and action, the mean over the rows with this action of the reward plus 0.99 times the mean over the branches of the best value in the next state; such values always exist and are unique if each action of each branch occurs in each state. Acting greedily with them in each branch gives the best joint action.", "quantifier": "all finite sets of states, numbers of branches and actions, datasets, with and without target network and double learning", "why_tests_cant": "a fixed point of training with all datasets of all environments", "anchors": ["tianshou/policy/modelfree/bdq.py:116-182"]}
{"id": "C273", "title": "The actor of TD3+BC improves on the data and stays near it", "statement": "When the actor of TD3+BC has settled on a dataset, the critic values its actions at least as high as those of the dataset, and their mean squared distance from the actions of the dataset is at most alpha. Compared with any other parameters, it is further away from the dataset by at most alpha times the gain in value relative to the mean absolute value. Neither the unit nor the zero of the rewards matters.", "quantifier": "all datasets, critics, actors, alpha > 0", "why_tests_cant": "minima over all actors for all critics and datasets", "anchors": ["tianshou/policy/imitation/td3_bc.py:107-125"]}
{"id": "C274", "title": "What DQN learns with n-step returns from recorded episodes", "statement": "In an environment without chance, with each action recorded in each state, training with n-step returns settles in values that are at most the optimal ones and at least those of the policy that chose the recorded actions, whatever n; such values exist. They are the optimal values.", "quantifier": "all finite environments without chance, recorded episodes (also broken off), numbers of steps, discount factors below 1, with and without target network and double Q-learning", "why_tests_cant": "a fixed point of training for all environments and recorded episodes", "anchors": ["tianshou/policy/base.py:629-721", "tianshou/policy/base.py:827-888", "tianshou/policy/modelfree/dqn.py:117-156", "tianshou/policy/modelfree/dqn.py:212-234"]}
{"id": "C275", "title": "How errors of the networks bias the targets", "statement": "If the values of the networks are random with some expectations, then without double Q-learning (and with it as long as there is no target network, or right after it was copied) the expected targets of DQN are at least the targets computed with the expected values; with double Q-learning and a target network whose errors are independent of those of the network they are at most these; with the twin critics of TD3 they are at most the targets computed with the expected values of any one critic. They are unbiased.", "quantifier": "all finite laws of the values, environments, buffers, numbers of steps, non-negative discount factors", "why_tests_cant": "expectations over the errors of networks, for all laws of the errors", "anchors": ["tianshou/policy/modelfree/dqn.py:117-156", "tianshou/policy/modelfree/td3.py:128-141", "tianshou/policy/base.py:629-721"]}
{"id": "C276", "title": "What minimising the loss of PPO does", "statement": "For a batch without errors (every pair of state and action as often as expected under the policy that made it, exact advantages, normalised or not), a policy that minimises the loss of PPOPolicy with ent_coef 0 has an expected return that is not lower than before; the return of any policy is bounded from below by the decrease of the loss minus a penalty for the change of the policy, and falls in no case with a lower loss. The probabilities of a policy that minimises the loss are within eps_clip of the old ones.", "quantifier": "all finite environments, policies with positive probabilities, batches, clipping ranges, value losses; all tables of probabilities as new policies", "why_tests_cant": "optimality over all policies and expectations over all episodes", "anchors": ["tianshou/policy/modelfree/ppo.py:186-220", "tianshou/policy/modelfree/a2c.py:90-157"]}
{"id": "C277", "title": "What discrete CQL learns from a dataset", "statement": "When the loss of DiscreteCQLPolicy has settled (no table of quantiles has a smaller loss for the targets), the learned quantiles of an action of the data are quantiles of its targets, and of two actions that were both taken in an observation the one with the better targets has the larger value. Such values exist, also for actions that are not in the data.", "quantifier": "all datasets of any size, numbers of actions and quantiles, targets and weights min_q_weight; all tables of quantiles", "why_tests_cant": "optimality over all tables; the penalty and the quantile loss interact in every sample", "anchors": ["tianshou/policy/imitation/discrete_cql.py:86-120", "tianshou/policy/modelfree/qrdqn.py:83-131"]}
{"id": "C278", "title": "What the actor of discrete CRR learns from a dataset", "statement": "When the loss of the actor of DiscreteCRRPolicy has settled (no policy has a smaller loss, the critic being given), the policy has in every observation an expected value that is not lower than the mean value of the actions of the data, in all policy improvement modes; in mode \"all\" it has the frequencies of the data, and in the other modes it prefers actions with a higher advantage.", "quantifier": "all datasets of any size in which every action was taken in every observation, all critics, modes, betas and bounds; all policies", "why_tests_cant": "optimality over all policies; the effect of weights over a whole batch on each observation", "anchors": ["tianshou/policy/imitation/discrete_crr.py:129-140"]}
{"id": "C279", "title": "From the environments to the learned values", "statement": "A Collector steps environments that behave like a deterministic decision process and fills a VectorReplayBuffer; a batch is sampled and DQNPolicy computes its targets and loss. With one-step returns, training has settled (no table of values has a smaller loss) exactly if the values satisfy the optimality equation of the process for all sampled pairs of observation and action; if all pairs are sampled, exactly at the optimal values. With returns of several steps the values never exceed the optimal ones.", "quantifier": "all deterministic processes with finitely many observations and actions, time limits, policies, exploration, numbers of environments, sequences of collections, buffer sizes (with old data overwritten), draws of the sampler, batch sizes, discounts, kinds of DQN", "why_tests_cant": "the statement spans collector, buffer, sampling, return computation and loss, for all processes and histories", "anchors": ["tianshou/data/collector.py:790-1060", "tianshou/data/buffer/manager.py:85-220", "tianshou/policy/base.py:629-700", "tianshou/policy/modelfree/dqn.py:121-227"]}
{"id": "C280", "title": "What the curiosity module learns", "statement": "When the forward model of ICM has settled on a batch (no forward model has a smaller loss), the bonus of each transition is half the squared distance between the features of its next observation and their mean over the transitions from the same features with the same action. So the bonus vanishes exactly where the outcome is certain and remains where it is random. The settled inverse model gives each action its frequency among the transitions between the same features. If actions cannot be told from transitions, or forward_loss_weight is 1, a module whose features ignore the observations has the least loss of all and gives no bonus at all.", "quantifier": "all batches, feature networks, feature dimensions, numbers of actions, weights, scales, forward and inverse models", "why_tests_cant": "a statement about minimisers over all models, for all data", "anchors": ["tianshou/policy/modelbased/icm.py:120-176", "tianshou/utils/net/discrete.py:380-427"]}
{"id": "C281", "title": "What the critic learns with value clipping", "statement": "With value_clip the critic of PPO learns the returns, and no value moves by more than eps_clip in an update. (The loss is the squared error, but at least the square of the distance of the return from the interval around the old value; a critic has settled exactly if every value is at least as near to its return as that interval; so repeated updates reach the returns, moving by at least eps_clip each; but nothing keeps the values in the interval.)", "quantifier": "all batches, returns determined by the observations, old values, clipping ranges, critics, numbers of updates", "why_tests_cant": "a statement about minimisers over all critics, for all batches", "anchors": ["tianshou/policy/modelfree/ppo.py:202-215"]}
{"id": "C282", "title": "From asynchronous environments and cached buffers to the learned values", "statement": "What DQN learns is about the environment also if the environments answer asynchronously and if episodes are kept in a CachedReplayBuffer: with one-step returns and a tabular network training has settled exactly if the values satisfy the Bellman optimality equation of the environment for the sampled pairs, so they are the optimal values if all pairs are in the batch; with returns of several steps the values are never above the optimal ones.", "quantifier": "all deterministic environments with finitely many observations, orders in which environments answer, policies, numbers of environments, buffer and cache sizes, collections, batches, discounts", "why_tests_cant": "a statement about minimisers, composed through collector, buffer, sampling and targets, for all schedules", "anchors": ["tianshou/data/collector.py:1079-1357", "tianshou/data/buffer/cached.py:12-137", "tianshou/policy/base.py:552-640", "tianshou/policy/modelfree/dqn.py:108-226"]}
{"id": "C283", "title": "What repeated updates with one batch lead to", "statement": "With repeat > 1 Reinforce and A2C move towards a policy that prefers the actions with the higher returns. (For a discrete policy updates settle exactly if for every observation of the batch the returns of each action add up to a positive number and the probabilities are in proportion to these sums, so the number of times an action was taken counts as much as its return; if some sum is negative, as it is for advantages, the loss has no lower bound, with or without entropy bonus, and the probability of the action goes to 0.)", "quantifier": "all batches, returns and advantages, discrete policies, entropy coefficients", "why_tests_cant": "a statement about minimisers over all policies, for all batches", "anchors": ["tianshou/policy/modelfree/pg.py:128-230", "tianshou/policy/modelfree/a2c.py:108-200"]}
{"id": "C284", "title": "What the ensemble of REDQ learns", "statement": "Once the critics of REDQ have settled with a batch, all members of the ensemble say the same about the observations and actions of the batch; if the actions drawn for the next observations are among those of the data, they say the soft values: the average, over the transitions with this observation and action, of the reward plus the discounted soft value of what follows. This is so for both target modes, whichever and however many members are sampled for the targets, and for all ensemble sizes and importance weights.", "quantifier": "all batches, ensembles, subsets, target modes, entropy coefficients, discounts below 1, positive weights", "why_tests_cant": "a statement about minimisers over all ensembles, for all batches and subsets", "anchors": ["tianshou/policy/modelfree/redq.py:173-202", "tianshou/policy/modelfree/ddpg.py:143-156", "tianshou/policy/base.py:552-640"]}
{"id": "C285", "title": "Testing a settled policy shows optimal behaviour", "statement": "A training collector fills a buffer, a batch with all pairs of observation and action is sampled, and DQN has settled with it. A test (the test collector is reset and collects episodes with the policy, without exploration noise) then obtains, from every step of every episode on, exactly the optimal value of the observation: discounted rewards plus, unless the episode has terminated, the discounted optimal value of what was reached. No collector with whatever policy and exploration obtains more from the same observation; in particular no terminated episode has a larger discounted return than a terminated test episode from the same observation.", "quantifier": "all deterministic finite worlds, environments behaving like them, training runs, buffers, batches, test runs, other collectors, discounts below 1", "why_tests_cant": "a statement about all policies and all runs of collectors in all environments", "anchors": ["tianshou/trainer/utils.py:17-38", "tianshou/data/collector.py:433-496", "tianshou/data/collector.py:703-1045", "tianshou/policy/modelfree/dqn.py:118-210", "tianshou/policy/base.py:552-640"]}
{"id": "C286", "title": "Prioritised replay does not change what is learned", "statement": "A collector fills a prioritised vector replay buffer; between its rounds minibatches are sampled, their priorities updated with whatever TD errors and beta is set. Afterwards a minibatch is sampled and learned from with the importance weights the buffer returns for it. Training has settled with it if and only if the values satisfy the Bellman optimality equation of the environment for all pairs of observation and action in the batch; if these are all pairs, if and only if the values are the optimal ones. So neither the priorities nor the importance weights change the result.", "quantifier": "all deterministic finite worlds, environments behaving like them, runs of the collector, buffer sizes, alpha, beta, weight normalisation, interleaved priority updates, samples, discounts below 1", "why_tests_cant": "needs all histories of adding, sampling and updating priorities; a test follows one", "anchors": ["tianshou/data/buffer/prio.py:25-113", "tianshou/data/buffer/manager.py:131-193", "tianshou/data/buffer/manager.py:245-262", "tianshou/data/buffer/vecbuf.py:44-66", "tianshou/policy/modelfree/dqn.py:118-210", "tianshou/policy/base.py:552-640", "tianshou/data/collector.py:703-1045"]}
{"id": "C287", "title": "Normalising observations changes nothing but the observations", "statement": "A collector on environments wrapped in VectorEnvNormObs does what it would do without the wrapper with a policy that picks the same actions: the same rounds, environments, actions, rewards, ends of episodes and infos are stored and the same counters kept. Each stored observation is the one the environment returned, normalised with the statistics of everything returned up to and including that call, and the final statistics are those of exactly the observations returned. With updates switched off (a test environment) the statistics never change, and collecting is the same as collecting from environments whose observations are normalised by one fixed function.", "quantifier": "all environments, policies, numbers of environments, initial statistics, sequences of resets and collect calls, synchronous or not", "why_tests_cant": "needs all interleavings of stepping, resetting and collecting; a test compares one run", "anchors": ["tianshou/env/venv_wrappers.py:69-121", "tianshou/utils/statistics.py:69-115", "tianshou/data/collector.py:433-496", "tianshou/data/collector.py:664-1076"]}
{"id": "C288", "title": "Collecting from environments that depend on each other", "statement": "What a collector promises does not need the environments to be independent: with any vector environment, for instance one whose wrapper normalises with statistics shared by all, collect(n_step) stores the least sufficient multiple of the number of environments, collect(n_episode) exactly that many episodes, the observation of each stored transition is the stored next observation of the preceding one of its environment unless an episode ended, and n-step targets computed from the buffer are those of the streams of the environments.", "quantifier": "all vector environments that return one result per environment, policies, sequences of calls, buffer sizes, step counts, discounts", "why_tests_cant": "needs all vector environments, including ones with memory across environments; a test uses a few", "anchors": ["tianshou/data/collector.py:433-496", "tianshou/data/collector.py:664-1076", "tianshou/env/venv_wrappers.py:10-121", "tianshou/policy/base.py:552-640"]}
{"id": "C289", "title": "The returns that tests report are the largest once training has settled", "statement": "When DQN has been trained on collected data that contain all pairs of observation and action until the values no longer change, the return that a terminated test episode reports is at least that of every terminated episode of any other policy from the same first observation.", "quantifier": "all deterministic environments, rewards, discounts in (0,1), training runs, test runs, other policies", "why_tests_cant": "needs all environments and all competing policies; a test sees one environment and one policy", "anchors": ["tianshou/trainer/utils.py:17-38", "tianshou/data/collector.py:433-496", "tianshou/data/collector.py:703-1045", "tianshou/policy/modelfree/dqn.py:118-210", "tianshou/policy/base.py:552-640"]}
{"id": "C290", "title": "How good tests are during training", "statement": "When DQN is trained in rounds, each of which fits the network to the one-step targets of newly collected data that contain all pairs of observation and action, a test after k rounds falls short of the optimal discounted return by at most 2 * gamma^k * B / (1 - gamma), where B bounds the error of the initial values, and after finitely many rounds, a number that depends on the environment, the discount and B only, tests are exactly optimal although the values are not.", "quantifier": "all deterministic environments, discounts in [0,1), numbers of rounds, initial values, collected data, exploration, test runs, competing policies", "why_tests_cant": "needs all training histories and a limit; a test sees one history", "anchors": ["tianshou/trainer/utils.py:17-38", "tianshou/data/collector.py:433-496", "tianshou/data/collector.py:703-1045", "tianshou/policy/modelfree/dqn.py:118-210", "tianshou/policy/modelfree/dqn.py:213-229", "tianshou/policy/base.py:552-640"]}
{"id": "C291", "title": "The last episodes of a collection come evenly from all environments", "statement": "As documented, collect(n_episode=n) with n >= env_num collects the last env_num episodes evenly from the environments, one from each.", "quantifier": "all environment behaviours, policies, numbers of environments and episodes", "why_tests_cant": "needs all patterns of episode lengths, including episodes that end in the same step; a test sees a few", "anchors": ["tianshou/data/collector.py:449-451", "tianshou/data/collector.py:1000-1027"]}
{"id": "C292", "title": "Episodes are collected without looking into them", "statement": "Run collect(n_episode=n) twice from the same state, except that one environment behaves differently from its (k+1)-th episode on. If both calls return, that episode is in the buffer in both cases or in neither. So short or successful episodes are not preferred.", "quantifier": "all environment behaviours, policies (also with recurrent state or noise), numbers of environments and episodes, and all k", "why_tests_cant": "a statement about pairs of runs for all behaviours of all environments; a test compares statistics of a few runs", "anchors": ["tianshou/data/collector.py:784-795", "tianshou/data/collector.py:1000-1032"]}
{"id": "C293", "title": "An asynchronous collector takes episodes without looking into them", "statement": "As for the synchronous collector (C292): run AsyncCollector.collect(n_episode=n) twice from the same state, except that one environment behaves differently from its (k+1)-th episode on. If both calls return, that episode is collected in both cases or in neither, so that short episodes are not preferred.", "quantifier": "all environment behaviours, policies, completion schedules, numbers of environments and episodes, and all k", "why_tests_cant": "a statement about pairs of runs for all behaviours of all environments; a test compares statistics of a few runs", "anchors": ["tianshou/data/collector.py:1079-1083", "tianshou/data/collector.py:1200-1342"]}
{"id": "C294", "title": "The mean return of collected episodes is unbiased", "statement": "Let the episodes of the environments be random, independent and identically distributed, and let the policy choose actions from the observations. Then the expectation of the mean return (and of the mean length) over the n episodes of collect(n_episode=n) is the expected return (length) of an episode, although environments with short episodes contribute more of them.", "quantifier": "all numbers of environments and episodes, all distributions over finitely many episode seeds, all episode lengths and rewards", "why_tests_cant": "an expectation over all outcomes; a test sees samples, and the bias of a wrong rule (for example taking the first n episodes that end) may be small", "anchors": ["tianshou/data/collector.py:784-795", "tianshou/data/collector.py:1000-1061"]}
{"id": "C295", "title": "The mean return reported by an asynchronous collector is unbiased", "statement": "As for the synchronous collector (C294): if the episodes of the environments are random, independent and identically distributed, the expectation of the mean return reported by AsyncCollector.collect(n_episode=n) is the expected return of an episode.", "quantifier": "all numbers of environments and episodes, all distributions, episode lengths, rewards and completion schedules", "why_tests_cant": "an expectation over all outcomes; a test sees samples and has no exact value to compare them with", "anchors": ["tianshou/data/collector.py:1200-1357"]}
{"id": "C296", "title": "The best reward is an estimate of what the best policy is worth", "statement": "The expectation of the best reward reported by training is the expected test return of one of the tested policies, so that it can be quoted as the performance of the saved policy.", "quantifier": "all trainers, distributions of test results and numbers of epochs", "why_tests_cant": "a statement about expectations over all runs; a single run has no value to compare with", "anchors": ["tianshou/trainer/base.py:286-303", "tianshou/trainer/base.py:417-440"]}
