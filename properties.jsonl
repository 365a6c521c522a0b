{"id": "C01", "title": "Ring storage keeps exactly the newest capacity-many transitions", "statement": "After any sequence of episodes stored into a replay buffer of capacity N (every episode at most N long, no clear), size() equals min(N, number of transitions ever stored), and the slots hold exactly the newest min(N, total) transitions: the k-th transition ever stored sits at position k mod N until N newer ones have been stored.", "quantifier": "every capacity >= 1, every finite sequence of episodes of every length <= capacity", "why_tests_cant": "Unit tests store a handful of episodes in a buffer of fixed size; wrap-around errors depend on the combination of capacity, episode lengths and number of wraps.", "anchors": ["machin/frame/buffers/storage.py:TransitionStorageBasic.store_episode", "machin/frame/buffers/storage.py:TransitionStorageBasic.__len__", "machin/frame/buffers/buffer.py:Buffer.size"]}
{"id": "C02", "title": "Episodes are evicted whole, and every live episode reads back unchanged", "statement": "After any history of successful store_episode calls, an episode is available for sampling if and only if none of its transitions has been overwritten by a later store; each available episode, read through its handles, is exactly the list of transitions that was stored, in order; no handle belongs to two available episodes.", "quantifier": "every capacity, every history of successful stores", "why_tests_cant": "The bookkeeping consists of two dictionaries that must stay mutually inverse across every overlap pattern of old and new episodes in the ring; a test can only show a few overlaps.", "anchors": ["machin/frame/buffers/buffer.py:Buffer.store_episode", "machin/frame/buffers/storage.py:TransitionStorageBasic.store_episode"]}
{"id": "C03", "title": "Sampling returns only transitions of live episodes, with the promised multiplicities", "statement": "From every state reachable by successful stores, for every outcome of the random generator: 'random_unique' returns min(batch_size, number of live transitions) transitions from pairwise different positions; 'random' returns that many transitions with repetition; 'all' returns every live transition exactly once. No returned transition belongs to an evicted episode and no lookup fails.", "quantifier": "every reachable buffer state, every batch size, every random draw", "why_tests_cant": "Random sampling hides rare stale reads; a test sees only a few draws from a few states.", "anchors": ["machin/frame/buffers/buffer.py:Buffer.sample_method_random_unique", "machin/frame/buffers/buffer.py:Buffer.sample_method_random", "machin/frame/buffers/buffer.py:Buffer.sample_method_all"]}
{"id": "C04", "title": "A rejected store leaves the buffer unchanged", "statement": "When store_episode raises (empty episode, missing attributes, or an episode longer than the buffer can hold), the transitions that can later be sampled are exactly those that could be sampled before the call.", "quantifier": "every reachable buffer state and every rejected episode", "why_tests_cant": "Tests check that the exception is raised, not what the buffer returns afterwards for every prior content.", "anchors": ["machin/frame/buffers/buffer.py:Buffer.store_episode", "machin/frame/buffers/storage.py:TransitionStorageBasic.store_episode"]}
{"id": "C05", "title": "clear() leaves an empty buffer that behaves like a new one", "statement": "After clear(), size() is 0, every sampling method returns no transition, and any later history of stores and samples gives the same results as on a newly created buffer.", "quantifier": "every history of stores before clear and every history after it", "why_tests_cant": "Tests clear a buffer once and check its size; stale bookkeeping only shows up for particular pairs of histories before and after the clear.", "anchors": ["machin/frame/buffers/buffer.py:Buffer.clear", "machin/frame/buffers/storage.py:TransitionStorageBasic.clear", "machin/frame/algorithms/a2c.py:A2C.update"]}
{"id": "C06", "title": "Priority tree: every inner node is the sum of its children, the root is the sum of all leaves", "statement": "After any history of single-leaf updates, batched updates (with repeated indexes) and full rebuilds with legal indexes on a tree of at least two leaves, the weight sum reported by the tree equals the sum of the current leaf weights and the same holds at every inner node.", "quantifier": "every tree size >= 2, every history of updates, all weights (exact arithmetic)", "why_tests_cant": "A wrong sibling or level offset corrupts only some nodes for some sizes and indexes; tests compare a few small trees.", "anchors": ["machin/frame/buffers/prioritized_buffer.py:WeightTree.update_leaf", "machin/frame/buffers/prioritized_buffer.py:WeightTree.update_leaf_batch", "machin/frame/buffers/prioritized_buffer.py:WeightTree.update_all_leaves", "machin/frame/buffers/prioritized_buffer.py:WeightTree._build"]}
{"id": "C07", "title": "Priority tree: a leaf reads back the last weight written to it", "statement": "After any history of updates, get_leaf_weight(i) is the weight most recently written to leaf i (in a batched update with a repeated index, the last occurrence), and 0 if it was never written; other leaves are untouched by an update.", "quantifier": "every tree size >= 2, every history of updates, every leaf", "why_tests_cant": "Cross-talk between leaves and inner nodes depends on tree size and index parity.", "anchors": ["machin/frame/buffers/prioritized_buffer.py:WeightTree.get_leaf_weight", "machin/frame/buffers/prioritized_buffer.py:WeightTree.get_leaf_all_weights", "machin/frame/buffers/prioritized_buffer.py:WeightTree.update_leaf_batch"]}
{"id": "C08", "title": "Priority lookup returns the leaf whose cumulative interval contains the query", "statement": "For a tree with non-negative leaf weights and every query w with 0 < w <= total, find_leaf_index(w) is the leaf i with sum(leaves before i) < w <= sum(leaves up to i); in particular the leaf has positive weight and leaf i is selected by exactly a w-range of length weight(i).", "quantifier": "every tree size, all non-negative weights, every real query in (0, total]", "why_tests_cant": "Proportional sampling is a statement about all queries; a test samples a few points of the line.", "anchors": ["machin/frame/buffers/prioritized_buffer.py:WeightTree.find_leaf_index"]}
{"id": "C09", "title": "An out-of-range leaf index is rejected without changing the tree", "statement": "update_leaf and update_leaf_batch raise ValueError for every index outside [0, size-1] and leave the tree as it was.", "quantifier": "every tree, every integer index", "why_tests_cant": "The boundary index equal to size is one value out of many and its effect depends on whether size is a power of two.", "anchors": ["machin/frame/buffers/prioritized_buffer.py:WeightTree.update_leaf", "machin/frame/buffers/prioritized_buffer.py:WeightTree.update_leaf_batch"]}
{"id": "C10", "title": "get_leaf_max is the current maximum leaf weight", "statement": "get_leaf_max() equals the maximum of the current leaf weights after any history of updates.", "quantifier": "every history of updates", "why_tests_cant": "The cached maximum differs from the true one only after a weight has been lowered.", "anchors": ["machin/frame/buffers/prioritized_buffer.py:WeightTree.get_leaf_max", "machin/frame/buffers/prioritized_buffer.py:WeightTree.update_leaf", "machin/frame/buffers/prioritized_buffer.py:WeightTree.update_leaf_batch"]}
{"id": "C11", "title": "Prioritized sampling draws one stored, positively weighted index per stratum", "statement": "For every reachable prioritized buffer holding at least one transition and every batch of random draws in (0,1) of size at least 2, the sampled indexes are non-decreasing, each lies inside the stored range (no lookup fails) and has positive priority, and the i-th index is the leaf whose cumulative interval contains the i-th stratified query.", "quantifier": "every reachable prioritized buffer, every batch size, every random draw", "why_tests_cant": "An index past the stored range needs a rare coincidence of tree padding and rounding; tests draw few samples.", "anchors": ["machin/frame/buffers/prioritized_buffer.py:PrioritizedBuffer.sample_index_and_weight", "machin/frame/buffers/prioritized_buffer.py:PrioritizedBuffer.sample_batch"]}
{"id": "C12", "title": "Every positive batch size can be sampled from a non-empty prioritized buffer", "statement": "sample_batch(n) on a non-empty prioritized buffer returns n transitions for every n >= 1.", "quantifier": "every non-empty prioritized buffer, every n >= 1", "why_tests_cant": "Tests use a typical batch size; the scalar special case for n = 1 is reached only with that exact size.", "anchors": ["machin/frame/buffers/prioritized_buffer.py:PrioritizedBuffer.sample_batch", "machin/frame/buffers/prioritized_buffer.py:WeightTree.find_leaf_index"]}
{"id": "C13", "title": "The bias-correction exponent grows by fixed steps and never exceeds 1", "statement": "Starting from beta <= 1, after k calls of sample_batch on a non-empty buffer the exponent used is min(1, beta + k*increment); it never decreases (for a non-negative increment), never exceeds 1, and clear() resets it.", "quantifier": "every beta, increment and number of samplings", "why_tests_cant": "It is a statement over unboundedly many sampling calls.", "anchors": ["machin/frame/buffers/prioritized_buffer.py:PrioritizedBuffer.sample_index_and_weight", "machin/frame/buffers/prioritized_buffer.py:PrioritizedBuffer.clear"]}
{"id": "C14", "title": "Importance weights lie in (0,1], the maximum is 1 and larger priorities get smaller weights", "statement": "For every sampled batch whose priorities are positive, every importance-sampling weight is in (0,1], at least one equals 1, and an entry with a larger priority never gets a larger weight.", "quantifier": "every batch of positive priorities and every exponent", "why_tests_cant": "It is a relation between all pairs of a batch for all exponents.", "anchors": ["machin/frame/buffers/prioritized_buffer.py:PrioritizedBuffer.sample_index_and_weight"]}
{"id": "C15", "title": "Prioritized sampling never returns a transition of an evicted episode", "statement": "After any history of stores, a prioritized buffer samples only transitions whose episode is still complete in the buffer (as the plain buffer does).", "quantifier": "every history of stores, every random draw", "why_tests_cant": "Needs a partial overwrite of an old episode followed by a draw that hits the surviving part.", "anchors": ["machin/frame/buffers/prioritized_buffer.py:PrioritizedBuffer.store_episode", "machin/frame/buffers/prioritized_buffer.py:PrioritizedBuffer.sample_batch"]}
{"id": "C16", "title": "Distributed priority updates never touch an entry overwritten since it was sampled", "statement": "In a distributed prioritized buffer, an update_priority for entries sampled earlier changes the priority of exactly those sampled entries that no store has overwritten in between; overwritten entries keep the priority given by the later store.", "quantifier": "every interleaving of stores, samples, priority updates and clears by any number of processes", "why_tests_cant": "The harmful schedule (sample, overwrite, late update) is a race that tests do not control.", "anchors": ["machin/frame/buffers/prioritized_buffer_d.py:DistributedPrioritizedBuffer._update_priority_service", "machin/frame/buffers/prioritized_buffer_d.py:DistributedPrioritizedBuffer.store_episode", "machin/frame/buffers/prioritized_buffer_d.py:DistributedPrioritizedBuffer.clear", "machin/frame/buffers/rnn_buffers.py:RNNDistributedPrioritizedBuffer.store_episode"]}
{"id": "C17", "title": "Priorities sent back after distributed sampling reach exactly the sampled entries", "statement": "If the caller passes to update_priority one priority per sampled transition, in sample order, together with the index object returned by sample_batch, then each member process receives exactly the priorities of the entries sampled from it, in order, and nothing is left over.", "quantifier": "every number of member processes, every split of the batch, including members that contributed nothing", "why_tests_cant": "The slicing must line up for every split of the batch over members.", "anchors": ["machin/frame/buffers/prioritized_buffer_d.py:DistributedPrioritizedBuffer.update_priority", "machin/frame/buffers/prioritized_buffer_d.py:DistributedPrioritizedBuffer.sample_batch"]}
{"id": "C18", "title": "Distributed prioritized sampling divides the batch in proportion to the members' weights", "statement": "With member weight sums w_i and S their sum, member i is asked for ceil(w_i*B/(S+1e-6)) samples: at least its proportional share scaled by S/(S+1e-6), less than one more than the share; members without weight are asked for nothing; the total lies in [B*S/(S+1e-6), B + number of members).", "quantifier": "every vector of non-negative weights, every batch size", "why_tests_cant": "Rounding of all members together is a statement over all weight vectors.", "anchors": ["machin/frame/buffers/prioritized_buffer_d.py:DistributedPrioritizedBuffer.sample_batch"]}
{"id": "C19", "title": "Distributed uniform sampling returns live transitions only and honours the documented size and empty result", "statement": "DistributedBuffer.sample_batch(B) returns the concatenation, in member order, of the members' samples; every returned transition is live on its member; the number is at most p*ceil(B/p) < B+p for p members; when nothing is sampled the result is (0, None).", "quantifier": "every number of members, every member state, every batch size and attribute selection, every draw", "why_tests_cant": "Tests run three processes with filled buffers.", "anchors": ["machin/frame/buffers/buffer_d.py:DistributedBuffer.sample_batch", "machin/frame/buffers/buffer_d.py:DistributedBuffer._sample_service"]}
{"id": "C20", "title": "RNN sampling returns contiguous windows of one live episode", "statement": "Every sequence returned by an RNN buffer, with each of the three sampling methods, is a contiguous run of exactly sample_length transitions of one live episode in stored order; 'all' returns every such run exactly once; 'random_unique' takes at most one run per episode.", "quantifier": "every reachable buffer state, every sample length >= 1, every draw", "why_tests_cant": "Window boundaries interact with the episode length and eviction; tests use few combinations.", "anchors": ["machin/frame/buffers/rnn_buffers.py:RNNBuffer.sample_method_random_unique", "machin/frame/buffers/rnn_buffers.py:RNNBuffer.sample_method_random", "machin/frame/buffers/rnn_buffers.py:RNNBuffer.sample_method_all"]}
{"id": "C21", "title": "Prioritized RNN sampling returns contiguous windows of one stored episode", "statement": "Every sequence returned by a prioritized RNN buffer is a contiguous run of sample_length transitions of one episode in stored order.", "quantifier": "every history of stores, every draw", "why_tests_cant": "Fails only when an episode wraps around the end of the ring or is partly overwritten.", "anchors": ["machin/frame/buffers/rnn_buffers.py:RNNPrioritizedBuffer.sample_batch", "machin/frame/buffers/rnn_buffers.py:RNNPrioritizedBuffer.store_episode"]}
{"id": "C22", "title": "A transition object always satisfies its documented shape rules", "statement": "A Transition that was constructed successfully has batch size 1 in every tensor, and this stays true after any sequence of item or attribute assignments, including rejected ones; an accepted assignment is visible to later reads.", "quantifier": "every constructor input, every sequence of assignments", "why_tests_cant": "Tests assert that a bad assignment raises, not that the object is unchanged afterwards, nor that a good attribute assignment took effect.", "anchors": ["machin/frame/transition.py:TransitionBase.__setitem__", "machin/frame/transition.py:TransitionBase.__setattr__", "machin/frame/transition.py:TransitionBase._check_validity"]}
{"id": "C23", "title": "Batches return the requested attributes in order, and the wildcard returns exactly the unused custom attributes", "statement": "The result of sampling has one entry per requested attribute that exists, in request order, each listing the values of the sampled transitions in sample order; unknown names are ignored; '*' yields exactly the custom attributes not requested before it; an empty batch yields None.", "quantifier": "every list of requested attributes, every batch", "why_tests_cant": "The combinations of requested names, order and wildcard position are unbounded.", "anchors": ["machin/frame/buffers/buffer.py:Buffer.post_process_batch"]}
{"id": "C24", "title": "Ordered server: accepted pushes form one chain per key", "statement": "For every interleaving of pushes and pulls by any number of clients, a push to an existing key is accepted if and only if its prev_version is the version most recently accepted for this key; so the accepted pushes of a key form a single chain, and of several concurrent pushes based on one version at most one is accepted (when versions are not reused).", "quantifier": "every key, every finite interleaving of push and pull requests", "why_tests_cant": "Concurrency: tests exercise a few orders of requests.", "anchors": ["machin/parallel/server/ordered_server.py:OrderedServerSimpleImpl._push_service", "machin/parallel/server/ordered_server.py:OrderedServerSimpleImpl._pull_service"]}
{"id": "C25", "title": "Ordered server: a pull returns the newest accepted value, or exactly the requested retained version", "statement": "pull(key) returns the value and version of the most recently accepted push, pull(key, version) returns the value pushed with that version while it is retained and None otherwise; with version_depth = d the d most recent versions are retained (documented: with depth 1 only the newest).", "quantifier": "every history of pushes (with versions not reused), every key and version", "why_tests_cant": "Retention is a property of histories longer than the depth.", "anchors": ["machin/parallel/server/ordered_server.py:OrderedServerSimpleImpl._push_service", "machin/parallel/server/ordered_server.py:OrderedServerSimpleImpl._pull_service"]}
{"id": "C26", "title": "Model server: no accepted model is silently overwritten", "statement": "With any number of clients pushing and pulling models in any order, versions on the server increase by one with each accepted push; a push is accepted only if the client's model was based on the newest version; a rejected client holds the newest parameters afterwards; no client ever holds a version newer than the server's.", "quantifier": "every number of clients, every interleaving of pushes and pulls", "why_tests_cant": "Lost updates need particular interleavings of several clients.", "anchors": ["machin/parallel/server/param_server.py:PushPullModelServer.push", "machin/parallel/server/param_server.py:PushPullModelServer.pull"]}
{"id": "C27", "title": "Gradient server: with 'sum' reduction every pushed gradient is counted exactly once", "statement": "For every interleaving of client pushes and reduction rounds, the total of all pushed gradients equals the total applied to the managed model plus what is still queued plus what was discarded because a queue exceeded max_queue_size; nothing is counted twice.", "quantifier": "every interleaving of pushes and reduction rounds over any set of reducers, every batch size", "why_tests_cant": "A conservation law over all schedules.", "anchors": ["machin/parallel/server/param_server.py:PushPullGradServerImpl._push_service", "machin/parallel/server/param_server.py:PushPullGradServerImpl._task_reduce_grad", "machin/parallel/server/param_server.py:PushPullGradServerImpl._reduce_batch"]}
{"id": "C28", "title": "Pool.map returns results in input order for every completion order", "statement": "For every input list, every chunk size >= 1 (or the default) and every order in which workers deliver chunk results, map returns [f(x) for x in input]; the result becomes ready exactly when the last chunk arrives.", "quantifier": "every input length, chunk size, number of workers and delivery order", "why_tests_cant": "Delivery order is decided by the scheduler.", "anchors": ["machin/parallel/pool.py:MapResult.set", "machin/parallel/pool.py:BasePool._map_async", "machin/parallel/pool.py:BasePool._split_tasks"]}
{"id": "C29", "title": "Pool.map reports a failure exactly when some call fails", "statement": "If at least one chunk fails, the result becomes ready when all chunks have been delivered, and get() raises the exception of the first failing chunk delivered; if none fails get() never raises. A result never changes after it became ready.", "quantifier": "every set of failing chunks and every delivery order", "why_tests_cant": "Mixed success and failure in every delivery order cannot be enumerated by tests.", "anchors": ["machin/parallel/pool.py:MapResult.set", "machin/parallel/pool.py:AsyncResult.get"]}
{"id": "C30", "title": "imap yields results in input order, imap_unordered yields each result exactly once", "statement": "For every delivery order, the sequence of items an imap iterator yields is at any time a prefix of the input-ordered results and is all of them once everything has been delivered; imap_unordered yields each result exactly once in delivery order; StopIteration is raised exactly when everything was yielded.", "quantifier": "every length, every delivery order, every interleaving of next() calls and deliveries", "why_tests_cant": "Reordering depends on the scheduler.", "anchors": ["machin/parallel/pool.py:IMapIterator.set", "machin/parallel/pool.py:IMapIterator.next", "machin/parallel/pool.py:IMapUnorderedIterator.set"]}
{"id": "C31", "title": "Every result is delivered to the job that requested it, once", "statement": "For any sequence of submissions and any delivery order, each job's handle receives exactly the results of its own tasks; late results for finished jobs are dropped; when all results have been delivered no job is left registered, so close() can finish.", "quantifier": "every sequence of apply/map/imap submissions (including empty inputs), every delivery order", "why_tests_cant": "Cross-talk needs many concurrent jobs; leftovers need particular input shapes such as empty lists.", "anchors": ["machin/parallel/pool.py:BasePool._next_job_idx", "machin/parallel/pool.py:BasePool._handle_results", "machin/parallel/pool.py:AsyncResult.set", "machin/parallel/pool.py:BasePool._handle_workers", "machin/parallel/pool.py:IMapIterator.set"]}
{"id": "C32", "title": "Pool callbacks are called", "statement": "apply_async(func, args, kwds, callback, error_callback) calls callback with the result on success and error_callback with the exception on failure, exactly once, for every pool class.", "quantifier": "every function outcome", "why_tests_cant": "Tests only use callbacks on selected methods.", "anchors": ["machin/parallel/pool.py:Pool.apply_async", "machin/parallel/pool.py:AsyncResult.set"]}
{"id": "C33", "title": "Context pool: every worker has its own context at all times", "statement": "After any history of worker exits and replacements, the live workers of a CtxPool have pairwise different context numbers in [0, processes), and after maintenance every context has exactly one worker.", "quantifier": "every pool size, every pattern of worker exits", "why_tests_cant": "Exit patterns are decided at runtime.", "anchors": ["machin/parallel/pool.py:CtxPool.repopulate_pool", "machin/parallel/pool.py:BasePool.maintain_pool"]}
{"id": "C34", "title": "Point-to-point pool: every queue keeps exactly one worker when workers are replaced", "statement": "After any history of worker exits and replacements, every input sub-queue of a P2PPool is read by exactly one live worker, so every submitted task is eventually taken.", "quantifier": "every pool size, every pattern of worker exits", "why_tests_cant": "Needs a worker other than the first one to exit.", "anchors": ["machin/parallel/pool.py:P2PPool.repopulate_pool", "machin/parallel/queue.py:MultiP2PQueue.quick_put"]}
{"id": "C35", "title": "A key is paired or registered by at most one process at a time", "statement": "For every interleaving of pair/unpair/register/deregister calls by all group members, at most one process owns a key; a second pair or register attempt raises KeyError and changes nothing; only the owner can release the key, after which it can be taken again.", "quantifier": "every interleaving of calls of any number of processes and keys", "why_tests_cant": "Races between processes.", "anchors": ["machin/parallel/distributed/_world.py:_rpc_set_lut_entry", "machin/parallel/distributed/_world.py:_rpc_unset_lut_entry", "machin/parallel/distributed/_world.py:RpcGroup.pair", "machin/parallel/distributed/_world.py:RpcGroup.unpair", "machin/parallel/distributed/_world.py:RpcGroup.register", "machin/parallel/distributed/_world.py:RpcGroup.deregister"]}
{"id": "C36", "title": "Looking up a key returns the value its owner paired", "statement": "In every reachable state in which no group has been destroyed, get_paired(key) from any member returns the value most recently paired under this key, or raises KeyError if nobody holds it; likewise a registered call runs the service of the current owner.", "quantifier": "every history of pair/unpair/register/deregister calls, every member, every key", "why_tests_cant": "Global table and local tables must agree in every reachable state.", "anchors": ["machin/parallel/distributed/_world.py:RpcGroup.get_paired", "machin/parallel/distributed/_world.py:_rpc_get_paired_value", "machin/parallel/distributed/_world.py:_rpc_call_service", "machin/parallel/distributed/_world.py:RpcGroup._rpc_service_call"]}
{"id": "C37", "title": "Stale entries of a destroyed group are purged by the first failed lookup, without touching other entries", "statement": "When a lookup reaches a process that no longer holds the key (destroyed or re-created group), the lookup raises KeyError and removes exactly the stale entry, so the key can be registered again; entries of the other kind with the same name are unaffected.", "quantifier": "every history including group destruction and re-creation", "why_tests_cant": "Needs destruction, re-creation and a name shared by a value and a service.", "anchors": ["machin/parallel/distributed/_world.py:_rpc_call_service", "machin/parallel/distributed/_world.py:_rpc_get_paired_value", "machin/parallel/distributed/_world.py:RpcGroup.destroy"]}
{"id": "C38", "title": "barrier(): nobody leaves before everybody has entered, and everybody leaves", "statement": "In every interleaving of one use of the barrier by all members, no member returns from barrier() before all members have called it; and once all have called it every member eventually returns.", "quantifier": "every group size, every interleaving of member steps", "why_tests_cant": "The lost-wakeup window is a few instructions wide.", "anchors": ["machin/parallel/distributed/_world.py:RpcGroup.barrier", "machin/parallel/distributed/_world.py:RpcGroup._rpc_exit_barrier", "machin/parallel/distributed/_world.py:RpcGroup._rpc_entered_barrier"]}
{"id": "C39", "title": "Waiting on a combined event returns exactly when the combination is set", "statement": "OrEvent/AndEvent.wait() returns True as soon as any/all member events are set, at once if this is already the case, and does not return without a timeout before.", "quantifier": "every number of member events, every interleaving of set() and wait()", "why_tests_cant": "Interleavings of set and wait; a test that hangs is not written.", "anchors": ["machin/parallel/event.py:MultiEvent.wait", "machin/parallel/event.py:OrEvent.is_set", "machin/parallel/event.py:AndEvent.is_set", "machin/parallel/event.py:event_init"]}
{"id": "C40", "title": "A finalizer runs at most once", "statement": "A Finalize callback is executed at most once whatever the sequence of direct calls, garbage collection of the object and run of all finalizers; after cancel() it never runs; still_active() is true exactly until it ran or was cancelled.", "quantifier": "every sequence of calls, cancels and collections", "why_tests_cant": "Sequences are unbounded.", "anchors": ["machin/parallel/util.py:Finalize"]}
{"id": "C41", "title": "Configuration membership and defaults reflect what was set", "statement": "For a Config c: 'k in c' is true exactly for the keys that were set; c.get(k, d) returns the set value or d; iterating c yields the set keys.", "quantifier": "every set of keys and every query", "why_tests_cant": "Tests query keys that exist.", "anchors": ["machin/utils/conf.py:Config", "machin/utils/helper_classes.py:Object"]}
{"id": "C42", "title": "Merging configurations: later values win, constants are never changed", "statement": "merge_config(conf, m) returns a new configuration equal to conf except that the keys of m have m's values; conf is unchanged; constant attributes of conf keep their value (an attempt to merge one from a dict is rejected).", "quantifier": "all configurations and mergers", "why_tests_cant": "All combinations of keys and constants.", "anchors": ["machin/utils/conf.py:merge_config", "machin/utils/helper_classes.py:Object.__setattr__"]}
{"id": "C43", "title": "Loading models picks the requested common version, else the newest version all models have", "statement": "prep_load_model loads, for every model, files of one and the same version: the requested one if all models have it, otherwise the largest version number all models have; it fails if there is none.", "quantifier": "every directory content, every set of models, every requested version", "why_tests_cant": "Directory contents are unbounded.", "anchors": ["machin/utils/prepare.py:prep_load_model"]}
{"id": "C44", "title": "What save() wrote, load() reads back", "statement": "For every version argument v, saving a framework's models with version v into a directory and loading with version v from it restores the saved parameters.", "quantifier": "every version argument including the default, every prior directory content", "why_tests_cant": "Tests use one explicit version.", "anchors": ["machin/frame/algorithms/base.py:TorchFramework.save", "machin/frame/algorithms/base.py:TorchFramework.load", "machin/utils/prepare.py:prep_load_model"]}
{"id": "C45", "title": "Learning-rate schedule: the rate of the latest boundary reached", "statement": "gen_learning_rate_func(map)(step) is the rate of the last boundary that is <= step.", "quantifier": "every increasing schedule, every step", "why_tests_cant": "Boundaries cannot all be tested; the region before the first boundary is usually not.", "anchors": ["machin/utils/learning_rate.py:gen_learning_rate_func"]}
{"id": "C46", "title": "Actor-critic returns are the discounted sums of the remaining rewards", "statement": "For every episode and discount g, the value stored with step t of an A2C/PPO/TRPO episode is sum_{k>=t} g^(k-t) r_k.", "quantifier": "every episode length, all rewards, every discount (exact arithmetic)", "why_tests_cant": "A statement over all episode lengths.", "anchors": ["machin/frame/algorithms/a2c.py:A2C.store_episode"]}
{"id": "C47", "title": "The three advantage formulas agree where they overlap", "statement": "For an episode whose steps are chained (next_state of step t is the state of step t+1) and whose terminal flag is set exactly at its last step, the general advantage recursion evaluated at lambda = 1 and lambda = 0 gives what the special-cased branches for these values compute, and in general equals sum (g*lambda)^k delta_{t+k}; the same holds for truncated episodes (last step not terminal).", "quantifier": "every episode, critic, discount and lambda", "why_tests_cant": "Equality of recursions for all lengths.", "anchors": ["machin/frame/algorithms/a2c.py:A2C.store_episode"]}
{"id": "C48", "title": "n-step values of RAINBOW are truncated discounted sums", "statement": "The value stored with step t is sum_{k<n, t+k<T} g^k r_{t+k}.", "quantifier": "every n, episode length, rewards, discount", "why_tests_cant": "All lengths.", "anchors": ["machin/frame/algorithms/rainbow.py:RAINBOW.store_episode"]}
{"id": "C49", "title": "RAINBOW's projected target is a probability distribution", "statement": "For every support, reward, discount and next-state distribution, the projection of the shifted distribution onto the support has non-negative entries summing to 1.", "quantifier": "every number of atoms >= 2, value range, shift and distribution", "why_tests_cant": "Mass is lost only when a shifted atom falls exactly on a support point.", "anchors": ["machin/frame/algorithms/rainbow.py:RAINBOW.update"]}
{"id": "C50", "title": "IMPALA samples whole episodes and can always recover their boundaries", "statement": "For every reachable buffer, a batch sampled by IMPALA is the concatenation of whole live episodes, and the lengths recovered from the batch are exactly the lengths of these episodes, so the consistency check in update() never fails.", "quantifier": "every history of stores, every draw", "why_tests_cant": "All episode mixes.", "anchors": ["machin/frame/algorithms/impala.py:IMPALABuffer.sample_method_episode", "machin/frame/algorithms/impala.py:IMPALA.store_episode", "machin/frame/algorithms/impala.py:IMPALA.update"]}
{"id": "C51", "title": "IMPALA's v-trace recursion does not leak between the episodes of a batch", "statement": "The v-trace targets of an episode inside a sampled batch depend only on that episode's own data: they equal the targets computed for the episode alone; with all importance ratios 1 the targets satisfy v_t = r_t + g*v_{t+1}. The factor of the log-probability in the policy loss is clipped ratio times (reward + discount * next target - value).", "quantifier": "every list of episodes, all ratios, values, rewards", "why_tests_cant": "All batch compositions.", "anchors": ["machin/frame/algorithms/impala.py:IMPALA.update"]}
{"id": "C52", "title": "ARS running statistics equal the true mean and variance, in every order and grouping of updates", "statement": "After pushing any sequence of observations, the reported mean and (unbiased) variance equal those of the sequence; merging two statistics equals pushing both sequences; so the result does not depend on the order of observations or merges.", "quantifier": "every sequence, every split (exact arithmetic)", "why_tests_cant": "Algebraic identity over all sequences.", "anchors": ["machin/frame/algorithms/ars.py:RunningStat.push", "machin/frame/algorithms/ars.py:RunningStat.update"]}
{"id": "C53", "title": "ARS: after synchronisation the state filter reflects every observation exactly once", "statement": "After the members' local statistics are collected by the manager, the global statistics are those of all observations of all members, each counted once; between synchronisations the mean and deviation used for normalisation do not change.", "quantifier": "every number of members, every sequence of observations", "why_tests_cant": "Double counting changes numbers slightly and is not asserted by tests.", "anchors": ["machin/frame/algorithms/ars.py:MeanStdFilter", "machin/frame/algorithms/ars.py:ARS.update"]}
{"id": "C54", "title": "ARS distributes every rollout to exactly one worker and never reuses a noise seed in a round", "statement": "For every number of rollouts and workers, each rollout index is assigned to exactly one worker; noise slices always lie inside the shared noise block.", "quantifier": "every rollout number, worker number, noise size and parameter size", "why_tests_cant": "Integer rounding over all pairs.", "anchors": ["machin/frame/algorithms/ars.py:ARS.__init__", "machin/frame/algorithms/ars.py:SharedNoiseSampler"]}
{"id": "C55", "title": "Target networks: soft updates are convex combinations, hard updates are copies on schedule", "statement": "After k soft updates with rate tau from a fixed online network the target is (1-tau)^k*old + (1-(1-tau)^k)*online, and always stays between the two; with update_steps = n, after every k calls of update() the target equals the online network as of the last multiple of n.", "quantifier": "every number of updates, every rate in [0,1], every parameter value", "why_tests_cant": "Unbounded histories.", "anchors": ["machin/frame/algorithms/utils.py:soft_update", "machin/frame/algorithms/utils.py:hard_update", "machin/frame/algorithms/dqn.py:DQN.update"]}
{"id": "C56", "title": "User settings survive configuration generation", "statement": "generate_config(config) fills in missing framework settings with defaults and keeps every setting the user supplied.", "quantifier": "every set of user settings", "why_tests_cant": "Tests start from an empty configuration.", "anchors": ["machin/frame/algorithms/dqn.py:DQN.generate_config"]}
{"id": "C57", "title": "Environment wrappers return results in request order whatever the order in which workers answer", "statement": "For every list of distinct environment indexes and every order in which worker processes answer, the k-th result belongs to the k-th requested environment; after a failing call later calls still return their own results.", "quantifier": "every index list, every answer order, every history of calls with failures", "why_tests_cant": "Answer order and failures are decided at runtime.", "anchors": ["machin/env/wrappers/openai_gym.py:ParallelWrapperSubProc._call_gym_env_method"]}
{"id": "C58", "title": "Stepping a terminated environment is rejected, and active() lists the non-terminated ones", "statement": "For every history of reset and step calls, step on an environment that has terminated and was not reset raises GymTerminationError before any environment is stepped; active() is exactly the list of environments not terminated; both wrapper classes behave alike. reset clears exactly the flags of the environments it resets and returns their observations in request order.", "quantifier": "every history of resets and steps on any index sets", "why_tests_cant": "Histories are unbounded; the two wrappers are tested separately.", "anchors": ["machin/env/wrappers/openai_gym.py:ParallelWrapperDummy.step", "machin/env/wrappers/openai_gym.py:ParallelWrapperSubProc.step"]}
{"id": "C59", "title": "TRPO line search accepts only improving steps inside the trust region and otherwise restores the parameters", "statement": "The line search returns success only with parameters whose KL divergence is at most the limit and whose loss is strictly smaller than before; on failure the parameters are exactly those before the search.", "quantifier": "every loss and KL function, direction and number of backtracks", "why_tests_cant": "Quantifies over all loss landscapes.", "anchors": ["machin/frame/algorithms/trpo.py:TRPO._line_search"]}
{"id": "C60", "title": "Flattening parameters and setting them back is the identity", "statement": "get_flat_params after set_flat_params(v) returns v for every vector of the right length, and set_flat_params(get_flat_params()) leaves every parameter unchanged.", "quantifier": "every list of parameter shapes and values", "why_tests_cant": "All shapes.", "anchors": ["machin/frame/algorithms/trpo.py:TRPO.get_flat_params", "machin/frame/algorithms/trpo.py:TRPO.set_flat_params"]}
{"id": "C61", "title": "MADDPG: assigning the optimizers it reports is a no-op", "statement": "frame.optimizers = frame.optimizers leaves every actor and critic with its own optimizer.", "quantifier": "every number of agents and sub-policies", "why_tests_cant": "Shape of nested lists for all agent counts.", "anchors": ["machin/frame/algorithms/maddpg.py:MADDPG.optimizers"]}
{"id": "C62", "title": "Parameter noise: switching it off restores the original parameters", "statement": "After any sequence of forward passes with noise switched on, switching noise off and running forward again restores exactly the parameters that were present before noise was switched on (if no optimizer step happened in between).", "quantifier": "every sequence of switch operations and forward/backward passes", "why_tests_cant": "Sequences are unbounded; tests do one forward pass per switch setting.", "anchors": ["machin/frame/noise/param_space_noise.py:perturb_model", "machin/frame/noise/param_space_noise.py:_add_perturb_hook"]}
{"id": "C63", "title": "Clipped noise stays inside its bounds", "statement": "add_clipped_normal_noise_to_action and ClippedNormalNoiseGen add noise within [min, max] for every draw; uniform noise lies in [min, max].", "quantifier": "every draw and parameter", "why_tests_cant": "Probability of exceeding a bound in one test run can be tiny.", "anchors": ["machin/frame/noise/action_space_noise.py:add_clipped_normal_noise_to_action", "machin/frame/noise/generator.py:ClippedNormalNoiseGen", "machin/frame/noise/action_space_noise.py:add_uniform_noise_to_action"]}
{"id": "C64", "title": "Models are called with exactly the arguments they declare, and a missing required argument is reported", "statement": "safe_call passes to the model's forward exactly those entries of the given dictionaries that forward accepts and raises when an argument without default is missing.", "quantifier": "every signature (positional, defaulted, keyword-only, variadic) and every dictionary", "why_tests_cant": "Signatures are unbounded.", "anchors": ["machin/frame/algorithms/utils.py:safe_call"]}
{"id": "C65", "title": "Every buffer class can be constructed with its documented arguments", "statement": "For each of the eight buffer classes, calling the constructor with all required and any subset of the documented optional keyword arguments reaches Buffer.__init__ without a keyword collision.", "quantifier": "every class, every set of documented keyword arguments", "why_tests_cant": "The collision depends on how keyword arguments travel along the method resolution order; three of the classes have no test at all.", "anchors": ["machin/frame/buffers/rnn_buffers.py:RNNBuffer.__init__", "machin/frame/buffers/rnn_buffers.py:RNNDistributedBuffer.__init__", "machin/frame/buffers/rnn_buffers.py:RNNPrioritizedBuffer.__init__", "machin/frame/buffers/rnn_buffers.py:RNNDistributedPrioritizedBuffer.__init__", "machin/frame/buffers/prioritized_buffer.py:PrioritizedBuffer.__init__"]}
{"id": "C66", "title": "Storing into the distributed prioritized RNN buffer stores like the local prioritized RNN buffer", "statement": "RNNDistributedPrioritizedBuffer.store_episode accepts exactly the episodes RNNPrioritizedBuffer.store_episode accepts, and leaves the same transitions and the same priorities.", "quantifier": "every buffer state, every episode, every choice of priorities and required attributes", "why_tests_cant": "The method has no test; the positional argument lands in a parameter of another name in the class reached by super().", "anchors": ["machin/frame/buffers/rnn_buffers.py:RNNDistributedPrioritizedBuffer.store_episode"]}
{"id": "C67", "title": "apply, apply_async and map call the user's function", "statement": "For every pool class and every list of arguments, apply, apply_async and map call the function of the user in the worker with exactly the arguments given (with the worker's context in front for the pools with contexts).", "quantifier": "every pool class, every argument list", "why_tests_cant": "The test suite calls apply only on Pool and on CtxThreadPool; the combination CtxPool.apply is never exercised, and it is the one where the call is wrapped twice.", "anchors": ["machin/parallel/pool.py:Pool.apply", "machin/parallel/pool.py:CtxPool", "machin/parallel/pool.py:proxy_ctx_caller", "machin/parallel/pool.py:BasePool.apply"]}
{"id": "C68", "title": "A failed call raises its own exception at get()", "statement": "For every pool class, get() of a failed call raises the exception the task raised in the worker.", "quantifier": "every pool class, every exception", "why_tests_cant": "The test suite never lets a task fail; the difference between pickling and non-pickling queues only shows for failing tasks of thread pools.", "anchors": ["machin/parallel/pool.py:AsyncResult.get", "machin/parallel/pool.py:BasePool.worker", "machin/parallel/exception.py:ExceptionWithTraceback", "machin/parallel/pool.py:ThreadPool.setup_queues"]}
{"id": "C69", "title": "Finalizers run on garbage collection", "statement": "When the object given to Finalize(obj, callback) is garbage collected, an active finalizer runs its callback (once).", "quantifier": "every sequence of finalizer operations", "why_tests_cant": "Garbage collection time is not controlled by tests, exceptions in weak reference callbacks are swallowed by the interpreter.", "anchors": ["machin/parallel/util.py:18-75"]}
{"id": "C70", "title": "Counter arithmetic", "statement": "After any sequence of count() and reset() calls a Counter holds start + step * (number of count calls since the last reset).", "quantifier": "every start, step and sequence of calls", "why_tests_cant": "Unbounded call sequences.", "anchors": ["machin/utils/helper_classes.py:4-44"]}
{"id": "C71", "title": "Triggers fire once", "statement": "Trigger.get() is true exactly if the trigger was switched on since the last get(); one on() is seen by exactly one get().", "quantifier": "every sequence of on/off/flip/get calls", "why_tests_cant": "Unbounded call sequences.", "anchors": ["machin/utils/helper_classes.py:47-92"]}
{"id": "C72", "title": "The n-step target bootstraps from the state n steps later", "statement": "In RAINBOW, the Q target of a stored step t is the discounted sum of the rewards of the next n steps plus gamma^n times the value of the state reached after these n steps (or no bootstrap term when the episode ends within them).", "quantifier": "every episode, every n, every value function, every discount", "why_tests_cant": "n = 1 or short episodes hide the difference; a test would have to compare targets step by step with a hand-written n-step return", "anchors": ["machin/frame/algorithms/rainbow.py:173-201", "machin/frame/algorithms/rainbow.py:203-260"]}
{"id": "C73", "title": "load restores online critics", "statement": "After load() of an algorithm with target networks every online critic equals its own restored target.", "quantifier": "all network contents of matching architecture", "why_tests_cant": "Tests only check that load runs; comparing both critics after loading different weights into the two targets is never done.", "anchors": ["machin/frame/algorithms/sac.py:408-413", "machin/frame/algorithms/td3.py:278-284"]}
{"id": "C74", "title": "generate_env_config works for available environments", "statement": "For every environment reported by get_available_environments, generate_env_config returns the environment's generated configuration.", "quantifier": "all environment modules and configurations", "why_tests_cant": "The command line entry is not tested with an environment; the failing isinstance test is reached only there.", "anchors": ["machin/auto/config.py:34-40", "machin/auto/config.py:78-93"]}
{"id": "C75", "title": "get_fim is the second derivative of the divergence", "statement": "For both TRPO actors get_fim returns the second derivative of the KL divergence with respect to the network output (probabilities or means).", "quantifier": "all outputs", "why_tests_cant": "Tests run TRPO end to end and check rewards; a wrong curvature only changes the step direction.", "anchors": ["machin/model/algorithms/trpo.py:64-70", "machin/model/algorithms/trpo.py:143-150"]}
{"id": "C76", "title": "Conjugate gradients: residual and exactness", "statement": "If _conjugate_gradients stops early, the returned x satisfies |b - A x|^2 < res_threshold, for every linear A, right hand side and iteration limit. In exact arithmetic with eps = 0 and a symmetric positive definite A on a space of dimension d, d iterations are enough: the loop stops early for every positive threshold, and solves the system.", "quantifier": "all linear maps, vectors, iteration counts", "why_tests_cant": "Tests only run it inside TRPO; the incremental residual is never compared with b - A x.", "anchors": ["machin/frame/algorithms/trpo.py:301-337"]}
{"id": "C77", "title": "TRPO update respects its settings and finishes", "statement": "The line search of TRPO tries line_search_backtracks fractions, and every update() empties the replay buffer and leaves the networks in evaluation mode.", "quantifier": "all settings, gradients and histories", "why_tests_cant": "The default setting equals the hard-coded value; zero gradients do not occur in tests.", "anchors": ["machin/frame/algorithms/trpo.py:184-298", "machin/frame/algorithms/trpo.py:339-371"]}
{"id": "C78", "title": "Backward pass restores original parameters for the optimizer", "statement": "After a forward pass with parameter noise on, a backward pass and an optimizer step, the step has been applied to the original (noise free) value of every parameter: switching noise off and running forward gives original minus step for every parameter.", "quantifier": "every model with any number of parameters, any noise, any step", "why_tests_cant": "Tests use a Linear layer and print messages; that the hooks in a loop all close over the last parameter shows only when the values of the other parameters are compared after switching noise off.", "anchors": ["machin/frame/noise/param_space_noise.py:112-129"]}
{"id": "C79", "title": "Ornstein-Uhlenbeck noise: recurrence, reset and defaults", "statement": "reset() makes the generator produce for the same draws the sequence of a new generator; the values follow the documented recurrence from x0 (or zero); add_ou_noise_to_action adds these values and works with its default arguments.", "quantifier": "all parameters, all sequences of draws, all earlier calls", "why_tests_cant": "Tests check shapes only, as draws are random, and always pass noise_param.", "anchors": ["machin/frame/noise/generator.py:138-200", "machin/frame/noise/action_space_noise.py:143-174"]}
{"id": "C80", "title": "Adaptive parameter noise stays positive and moves the right way", "statement": "For a positive initial deviation and coefficient the deviation stays positive after any sequence of distances and equals initial times coefficient to the number of distances not above the desired one, divided by coefficient to the number of distances above it; with a coefficient above one each adaption moves it in the documented direction.", "quantifier": "all sequences of distances, all positive coefficients", "why_tests_cant": "Sequences of distances come from random noise in tests.", "anchors": ["machin/frame/noise/param_space_noise.py:48-61"]}
{"id": "C81", "title": "Normal action noise is normal", "statement": "add_normal_noise_to_action adds ratio times (mean + deviation times a standard normal draw) to every component, for one tuple and for one tuple per component.", "quantifier": "all actions, draws, parameters", "why_tests_cant": "The draws are random; a uniform draw passes every shape check.", "anchors": ["machin/frame/noise/action_space_noise.py:103-140"]}
{"id": "C82", "title": "Compiled calls receive the same arguments", "statement": "_jit_safe_call gives the compiled model every given argument with its value, leaves arguments that are not given to their defaults, and raises when an argument without default is missing.", "quantifier": "every argument specification, every list of dictionaries", "why_tests_cant": "Tests use actors with a single argument and no defaults.", "anchors": ["machin/frame/algorithms/maddpg.py:670-749"]}
{"id": "C83", "title": "MADDPG target values use target actors", "statement": "The target value of every sample is reward plus, unless terminal, discount times the target critic at the next states and the actions of the target actors of all visible agents.", "quantifier": "all networks, rows, agents, sub-policies, visibility lists", "why_tests_cant": "Target and online actors start equal and differ slightly later; tests check that training runs.", "anchors": ["machin/frame/algorithms/maddpg.py:583-592", "machin/frame/algorithms/maddpg.py:807-842"]}
{"id": "C84", "title": "MADDPG policy loss is taken at the sampled state", "statement": "The policy loss of an agent is minus the mean critic value at the sampled states and actions with the agent's own action replaced by its actor's action in the sampled state.", "quantifier": "all networks, rows, agents, visibility lists", "why_tests_cant": "Shapes of state and next state are equal; a wrong index is invisible without comparing values.", "anchors": ["machin/frame/algorithms/maddpg.py:857-879"]}
{"id": "C85", "title": "MADDPG update returns mean policy value and mean value loss", "statement": "update returns the mean over agents and sub-policies of the estimated policy values and of the value losses.", "quantifier": "all networks, batches, numbers of agents and sub-policies", "why_tests_cant": "Tests ignore the returned values.", "anchors": ["machin/frame/algorithms/maddpg.py:598-638", "machin/frame/algorithms/maddpg.py:916"]}
{"id": "C86", "title": "Moving to shared memory keeps objects", "statement": "_move_to_shared_mem returns an object with the same structure and leaves.", "quantifier": "all nested lists, tuples, dictionaries with any leaves", "why_tests_cant": "Tests use batches consisting of tensors only.", "anchors": ["machin/frame/algorithms/maddpg.py:925-943"]}
{"id": "C87", "title": "The replay buffers of all agents stay aligned", "statement": "After any calls of store_episodes all buffers have the same size, and sampling with one list of indexes gives every agent its transitions of the same stored time steps.", "quantifier": "all histories of calls including raising ones, all buffer sizes, all index lists", "why_tests_cant": "Needs histories with wrap-around and with a rejected item in the middle.", "anchors": ["machin/frame/algorithms/maddpg.py:506-518", "machin/frame/algorithms/maddpg.py:536-582", "machin/frame/algorithms/maddpg.py:958-965"]}
{"id": "C88", "title": "Stored and updated priorities reach the right leaves", "statement": "After an accepted store_episode into a prioritized buffer the handles of the new episode are distinct and hold its transitions in order, the weight tree leaf at the position of transition j holds the normalized j-th priority (the normalized largest leaf so far when no priorities are given), and every other leaf is unchanged. update_priority writes the normalized last priority given for each index and changes nothing else.", "quantifier": "all reachable buffers (any capacity, any history of stores, samples, updates, clears), all episodes that fit, all priority lists of the right length or none, all index lists in range", "why_tests_cant": "The claim ranges over all histories including wrap-around and repeated indexes; a test would have to visit every alignment of ring position and tree leaf.", "anchors": ["machin/frame/buffers/prioritized_buffer.py:279-309", "machin/frame/buffers/prioritized_buffer.py:319-328", "machin/frame/buffers/prioritized_buffer.py:152-186"]}
{"id": "C89", "title": "Importance weights of a distributed batch are comparable across members", "statement": "The importance weights of a batch collected from several members lie in (0,1] and an entry with a smaller priority never gets a smaller weight than an entry with a larger priority, whichever members they come from.", "quantifier": "all reachable member buffers, all draws, all total weights sent by the sampler", "why_tests_cant": "The defect depends on how priorities are distributed over members; unit tests sample from members with the same content or only check shapes.", "anchors": ["machin/frame/buffers/prioritized_buffer_d.py:204-266", "machin/frame/buffers/prioritized_buffer_d.py:293-313", "machin/frame/buffers/prioritized_buffer.py:397-428"]}
{"id": "C90", "title": "A store refused for its number of priorities has no effect", "statement": "If store_episode raises because the number of priorities differs from the number of transitions, the buffer is left as it was.", "quantifier": "all reachable buffers, all episodes that fit, all priority lists of wrong length", "why_tests_cant": "Tests check that the exception is raised, not the state afterwards.", "anchors": ["machin/frame/buffers/prioritized_buffer.py:279-309", "machin/frame/buffers/prioritized_buffer.py:152-186"]}
{"id": "C91", "title": "DQN trains the taken action towards the Bellman target of its mode", "statement": "For every row of a batch and each of the modes vanilla, fixed_target and double, the value trained is the online network's value of the stored action, and the target is reward + discount * value of the next state (best value of the online network / best value of the target network / target value of the online network's best action), with the second term missing on terminal rows; with rows of equal positive length and valid actions the computation never fails; the double target never exceeds the fixed target.", "quantifier": "all batches, all networks, all discounts, all three modes", "why_tests_cant": "Tests run updates with random networks and only check that no exception is raised; a wrong network in one mode still trains.", "anchors": ["machin/frame/algorithms/dqn.py:253-322", "machin/frame/algorithms/dqn.py:340-450", "machin/frame/algorithms/dqn.py:497-501"]}
{"id": "C92", "title": "Epsilon-greedy exploration decays as documented", "statement": "After any sequence of act_discrete_with_noise calls epsilon is its initial value times decay to the number of calls that asked for decay; with decay in [0,1] it never leaves [0, initial]; a call returns the random actions exactly when its draw is below epsilon and otherwise the first best action of every row.", "quantifier": "all sequences of calls, all draws, all networks", "why_tests_cant": "The choice is random; tests only check that an action is returned.", "anchors": ["machin/frame/algorithms/dqn.py:253-291"]}
{"id": "C93", "title": "The policy loss averages the values of all rows", "statement": "The policy loss of DDPG, HDDPG, TD3, DDPGPer is minus the average over the batch of the critic's value of the actor's action; SAC averages its entropy-regularised objective.", "quantifier": "all batches, all networks", "why_tests_cant": "Training with only the first row of each batch still makes progress and raises nothing.", "anchors": ["machin/frame/algorithms/ddpg.py:435-441", "machin/frame/algorithms/td3.py:226-240", "machin/frame/algorithms/hddpg.py:145-160", "machin/frame/algorithms/ddpg_per.py:140-160", "machin/frame/algorithms/sac.py:352-362"]}
{"id": "C94", "title": "Targets of DDPG, TD3 and SAC", "statement": "The critic target of DDPG is the Bellman target of target critic and target actor, that of TD3 the smaller of the two Bellman targets at one common noisy action, that of SAC the smaller of the two soft Bellman targets at one common sampled action; after a terminal row only the reward counts.", "quantifier": "all rows, all networks, all non-negative discounts", "why_tests_cant": "Numerical values of targets are not observable through the public interface used in tests.", "anchors": ["machin/frame/algorithms/ddpg.py:406-421", "machin/frame/algorithms/td3.py:190-212", "machin/frame/algorithms/sac.py:310-330"]}
{"id": "C95", "title": "The entropy weight of SAC stays positive and moves the right way", "statement": "From the first adjustment on the entropy weight lies in [1e-6, 1e6]; with an optimizer that moves against the gradient it does not decrease while the average entropy is below the target and does not increase while it is above; without target entropy or when not asked for it is unchanged.", "quantifier": "all optimizers, all sequences of batches", "why_tests_cant": "Requires long runs with extreme log probabilities.", "anchors": ["machin/frame/algorithms/sac.py:378-395"]}
{"id": "C96", "title": "Hysteretic update of HDDPG", "statement": "The value HDDPG trains towards lies between the current value and the ordinary target, at the increase rate (or decrease rate) times their distance; with both rates 1 it is the ordinary target.", "quantifier": "all rows, all rates in [0,1]", "why_tests_cant": "Tests only check that update does not raise.", "anchors": ["machin/frame/algorithms/hddpg.py:117-142"]}
{"id": "C97", "title": "Priorities are the temporal difference errors", "statement": "The priorities that DQNPer and DDPGPer send back to the buffer are the absolute errors of the sampled actions.", "quantifier": "all batches, all networks", "why_tests_cant": "Wrong priorities only bias later sampling.", "anchors": ["machin/frame/algorithms/dqn_per.py:85-160", "machin/frame/algorithms/ddpg_per.py:105-175"]}
{"id": "C98", "title": "Discrete exploration noise", "statement": "act_discrete_with_noise returns one action for every row; the probabilities drawn from form a distribution, keep the order of the actor's probabilities and give an extreme row's best action exactly choose_max_prob.", "quantifier": "all matrices of probabilities, all choose_max_prob", "why_tests_cant": "Tests use one row.", "anchors": ["machin/frame/algorithms/ddpg.py:280-330", "machin/frame/algorithms/maddpg.py:425-455", "machin/frame/algorithms/utils.py:167-182"]}
{"id": "C103", "title": "The clipped surrogate objective of PPO", "statement": "At the old policy the objective of a row is its advantage; it never exceeds the unclipped objective; for non-negative advantages the ratio counts only up to 1+clip, for non-positive ones only from 1-clip; the loss is minus its average plus the entropy weight times the average entropy.", "quantifier": "all log probabilities, advantages, clip parameters, batches", "why_tests_cant": "Tests compare no values.", "anchors": ["machin/frame/algorithms/ppo.py:145-172"]}
{"id": "C105", "title": "Normalised advantages are numbers with average zero", "statement": "For every non-empty batch the normalised advantages are finite numbers with average zero (and variance at most one, in the order of the advantages).", "quantifier": "all batches", "why_tests_cant": "Tests use batches of more than one transition.", "anchors": ["machin/frame/algorithms/a2c.py:352-360", "machin/frame/algorithms/ppo.py:128-134"]}
{"id": "C99", "title": "update_lr_scheduler advances every learning rate scheduler once", "statement": "A call of update_lr_scheduler advances each scheduler that the algorithm created exactly once; n calls advance each n times; without schedulers nothing happens.", "quantifier": "all algorithms, all numbers of calls, all subsets of schedulers present", "why_tests_cant": "Tests call the method once and check nothing about rates; SAC leaves the schedulers of its second critic and of alpha where they were.", "anchors": ["machin/frame/algorithms/sac.py:399-406", "machin/frame/algorithms/gail.py:320-329", "machin/frame/algorithms/maddpg.py:640-649"]}
{"id": "C100", "title": "Schedulers are built with the given arguments or usable defaults", "statement": "If a scheduler class is given, every scheduler of the algorithm is built with its own positional and keyword arguments; without arguments it is built with none; no constructor call fails for missing argument tuples.", "quantifier": "all algorithms, all tuples of arguments", "why_tests_cant": "Tests pass full tuples, or none together with LambdaLR and expect the TypeError of its constructor; the default of PPO and IMPALA and the keyword names MADDPG passes as positional arguments are never met.", "anchors": ["machin/frame/algorithms/ppo.py:16-18", "machin/frame/algorithms/ppo.py:82-84", "machin/frame/algorithms/maddpg.py:257-274", "machin/frame/algorithms/impala.py:86-88", "machin/frame/algorithms/impala.py:148-154"]}
{"id": "C101", "title": "init_from_config leaves the configuration usable", "statement": "init_from_config does not change the configuration that it is given, so that it may be called again with the same configuration.", "quantifier": "all algorithms, all configurations", "why_tests_cant": "Tests use each configuration object once.", "anchors": ["machin/frame/algorithms/ddpg.py:547-571", "machin/frame/algorithms/sac.py:463-487"]}
{"id": "C102", "title": "Names in configurations are resolved or refused", "statement": "A class name in a configuration resolves to the class of that name in the environments searched, in order, and every name that resolves nowhere is refused with an error.", "quantifier": "all names, all environments", "why_tests_cant": "Tests use only correct names; a misspelt scheduler is silently ignored.", "anchors": ["machin/frame/algorithms/utils.py:206-316"]}
{"id": "C104", "title": "The ratio of PPO is measured against the actor at the start of the update", "statement": "In every iteration of an update PPO compares the current actor with the actor as it was when the update began; afterwards self.actor is the same object that the optimizer trains, also when an evaluation raised an exception.", "quantifier": "all networks, gradients, optimizers, numbers of iterations, exceptions", "why_tests_cant": "The tests never compare log probabilities, and never continue after an exception.", "anchors": ["machin/frame/algorithms/ppo.py:104-181"]}
{"id": "C106", "title": "GAIL trains its discriminator", "statement": "An update of GAIL makes discriminator_update_times steps of the discriminator along the gradient of the discriminator loss, and its discriminator loop does not touch actor or critic.", "quantifier": "all networks, gradients, optimizers, numbers of updates", "why_tests_cant": "The tests only check that the update raises nothing.", "anchors": ["machin/frame/algorithms/gail.py:160-162", "machin/frame/algorithms/gail.py:247-318"]}
{"id": "C107", "title": "Expert episodes are stored completely", "statement": "store_expert_episode stores every element of the episode in order, given as dictionary or as ExpertTransition.", "quantifier": "all episodes", "why_tests_cant": "Tests only use dictionaries.", "anchors": ["machin/frame/algorithms/gail.py:233-245"]}
{"id": "C108", "title": "The gradient server helper gives every server its model", "statement": "On the primary reducer server i manages the model of creator i, with an optimizer of that model with rate i and settings i and, if a scheduler is given, scheduler i, and is started.", "quantifier": "all numbers of models, all rates and settings", "why_tests_cant": "Tests use two models without scheduler.", "anchors": ["machin/frame/helpers/servers.py:7-109"]}
{"id": "C109", "title": "The actor server of a configured A3C manages an actor", "statement": "After A3C.init_from_config gradient server i manages a model built from class, arguments and keywords i of the configuration.", "quantifier": "all models", "why_tests_cant": "In the tests actor and critic have the same parameter names, and the result of training from a configuration is not checked.", "anchors": ["machin/frame/algorithms/a3c.py:217-245"]}
{"id": "C110", "title": "Gradients are pushed only to running reducers", "statement": "After the helper returned on all members, every member that push may choose runs its reduction thread, so that gradients do not wait for ever.", "quantifier": "all member lists, all interleavings of pushes and thread steps", "why_tests_cant": "The choice is random; a test that waits for a changed model still sees changes from the pushes that reached the primary reducer.", "anchors": ["machin/frame/helpers/servers.py:71-99", "machin/parallel/server/param_server.py:164-185", "machin/parallel/server/param_server.py:353-362"]}
{"id": "C111", "title": "A3C pushes the gradients it was asked to compute", "statement": "An update of A3C sends the gradients of all its iterations for the networks it was asked to update, nothing for the others, keeps its synchronisation setting and returns the losses.", "quantifier": "all gradients, flags, numbers of iterations, exceptions", "why_tests_cant": "Tests use the default flags and ignore the return value.", "anchors": ["machin/frame/algorithms/a3c.py:156-165", "machin/frame/algorithms/a2c.py:328-421"]}
{"id": "C112", "title": "A failure of a child process or thread reaches the parent", "statement": "If the target or the cleaner of a Process or Thread raised, watch raises these exceptions in the parent (target first) and the property exception returns them, whatever the parent asked before and however long the message is; without failure nothing is raised.", "quantifier": "all exceptions, all sequences of calls of watch and exception", "why_tests_cant": "Tests start processes and threads, watch them, and never read exception before watch or watch twice after a failure; long messages depend on the buffer size of the pipe.", "anchors": ["machin/parallel/process.py:15-105", "machin/parallel/thread.py:10-70"]}
{"id": "C113", "title": "The spawn plugin reports a failing sub-process", "statement": "If a sub-process of DDPSpawnPlugin fails, _spawn raises, whatever the timing of the calls and of the ends of the processes.", "quantifier": "all numbers of processes, all times of their ends, all clocks", "why_tests_cant": "The only test runs processes that do not fail; the failing interleavings are races.", "anchors": ["machin/auto/pl_plugin.py:158-187"]}
{"id": "C114", "title": "check_model checks every leaf module and every atom module", "statement": "The modules whose inputs, outputs and parameters are checked are the outermost modules that are leaves or of an atom class, whatever the names.", "quantifier": "all module trees, all names, all atom classes", "why_tests_cant": "The name of one module has to begin with the name of an earlier one; the test model has none such.", "anchors": ["machin/utils/checker.py:301-364"]}
{"id": "C115", "title": "The hooks of check_model see every input, output and parameter under its name", "statement": "In every pass in which a check is due the hooks are called with each input under its declared name, each output under its number and each parameter under its name; in other passes no hook is called.", "quantifier": "all modules, numbers of inputs, outputs and parameters, intervals and passes", "why_tests_cant": "The tests count whether hooks were called, not with which tensors and names.", "anchors": ["machin/utils/checker.py:49-74", "machin/utils/checker.py:77-105", "machin/utils/checker.py:108-130"]}
{"id": "C116", "title": "The estimated size of a model is its size", "statement": "estimate_size is the number of bytes of all parameters and buffers in megabytes times the multiplier.", "quantifier": "all shapes and element types", "why_tests_cant": "Tests use five element types; complex and bfloat16 models are not estimated.", "anchors": ["machin/parallel/assigner.py:35-83"]}
{"id": "C117", "title": "Models are assigned only if they fit, to devices that exist", "statement": "If the size check passes, the models can be placed on the devices without exceeding a capacity; the devices used are available ones, and a GPU without index stands for an available one.", "quantifier": "all model sizes, capacities, device lists", "why_tests_cant": "Tests use two models and capacities for which total size and placement agree.", "anchors": ["machin/parallel/assigner.py:176-225", "machin/parallel/assigner.py:252-291"]}
{"id": "C118", "title": "The placement is optimised over numbers", "statement": "All entries of the placement matrix stay numbers during the optimisation, so that the final argmax chooses by the costs.", "quantifier": "all connection tables, numbers of iterations, softmax and optimizer functions", "why_tests_cant": "All tests have the same non-empty connection table; without connections the placement becomes nan at the first step and every model goes to the first device.", "anchors": ["machin/parallel/assigner.py:293-334", "machin/parallel/assigner.py:336-372"]}
{"id": "C119", "title": "Messages of a queue arrive once, in order and within the timeout", "statement": "For every interleaving of readers and writers every message of a SimpleQueue is received exactly once, in the order of the puts; a reader that called get(timeout) can return once the timeout has passed.", "quantifier": "all numbers of readers, all interleavings, all timeouts", "why_tests_cant": "There is no test of the queues; blocking depends on the interleaving of readers.", "anchors": ["machin/parallel/queue.py:20-34", "machin/parallel/queue.py:96-134"]}
{"id": "C120", "title": "Messages of the pool queue are kept in order and served fairly", "statement": "For every interleaving the messages of each sub-queue of a MultiP2PQueue are received exactly once and in order, quick_put serves the sub-queues in turn, and a message is received after at most as many others as were waiting when it was put.", "quantifier": "all numbers of sub-queues, all interleavings", "why_tests_cant": "There is no test of the queues; starvation needs a worker that keeps sending.", "anchors": ["machin/parallel/queue.py:251-261", "machin/parallel/queue.py:263-273"]}
{"id": "C121", "title": "A dataset item is an episode as it was played", "statement": "An item read from a gym dataset holds the transitions of one episode from reset to its end, in order, each with the action given to the environment and the reward returned, each starting where its predecessor ended and only the last one terminal; the logs are the infos of the steps, then a video if rendered, then the sum of the rewards; every finite episode is read.", "quantifier": "all environments, algorithms, policies, episode lengths, numbers of items", "why_tests_cant": "Tests check that state and action are tensors and that log keys exist, not the relation of the transitions to the steps of the environment.", "anchors": ["machin/auto/envs/openai_gym.py:83-140", "machin/auto/envs/openai_gym.py:192-246"]}
{"id": "C122", "title": "Every n-th episode is rendered", "statement": "Item k (from 0) of a dataset contains a video if and only if render_every_episode divides k, and the video has one picture per step, taken before the step.", "quantifier": "all environments, all settings, all numbers of items", "why_tests_cant": "Tests read one item with the default setting.", "anchors": ["machin/auto/envs/openai_gym.py:83-140", "machin/auto/envs/openai_gym.py:192-246"]}
{"id": "C123", "title": "Reading an item leaves the synchronisation setting as it was", "statement": "Whether reading an item succeeds or fails, the algorithm synchronises with its peers afterwards as it did before.", "quantifier": "all algorithms, settings, failures of environment or policy", "why_tests_cant": "No test lets an environment or a policy fail within an episode.", "anchors": ["machin/auto/envs/openai_gym.py:83-140", "machin/auto/envs/openai_gym.py:192-246"]}
{"id": "C124", "title": "Every available algorithm can act in a gym dataset", "statement": "Every algorithm that the auto module offers can choose actions in at least one of the two gym datasets, and the action stored is the one its acting method returned.", "quantifier": "all algorithms, policies, states", "why_tests_cant": "Tests read items with A2C, DQN and DDPG only.", "anchors": ["machin/auto/envs/openai_gym.py:95-125", "machin/auto/envs/openai_gym.py:204-230", "machin/auto/config.py:21-31"]}
{"id": "C125", "title": "Continuous actions have the shape of the action space for the environment and a batch dimension when stored", "statement": "If the actor produces an action of shape [1, d], the environment is given shape [d] and the stored action has shape [1, d].", "quantifier": "all algorithms, policies, dimensions d", "why_tests_cant": "Tests use one-dimensional actions, where a missing or additional dimension of length one is not noticed, and environments that broadcast.", "anchors": ["machin/auto/envs/openai_gym.py:192-246", "machin/frame/transition.py:171-222"]}
{"id": "C126", "title": "A gym dataset of the right kind is made, or the environment is refused with ValueError", "statement": "The creator makes a discrete or continuous dataset for a simple action space of that kind with the data type of the models, and refuses other environments with a ValueError.", "quantifier": "all gym space kinds, all models", "why_tests_cant": "Tests create datasets for two environments with Discrete and Box action spaces.", "anchors": ["machin/auto/envs/openai_gym.py:22-33", "machin/auto/envs/openai_gym.py:249-270", "machin/auto/dataset.py:15-28"]}
{"id": "C127", "title": "A training step stores an episode and makes one update per transition", "statement": "For every acceptable episode a training step of the launcher stores it, makes as many updates as it has transitions, and then handles its logs, for every algorithm.", "quantifier": "all algorithms, episodes, buffer contents, settings", "why_tests_cant": "The launcher is tested with DQN and episodes of one transition, for which the number of updates is one.", "anchors": ["machin/auto/launcher.py:61-66", "machin/frame/algorithms/a2c.py:328-421", "machin/frame/algorithms/ppo.py:104-215"]}
{"id": "C128", "title": "A distributed training step skips the first updates, logs one item and ends at the barrier", "statement": "A finished step of the distributed launcher stores every episode, makes one update per transition except in the very first batch, handles the logs of the first episode only, reduces exactly the monitored values, and passes the barrier last; a failing step does not pass it.", "quantifier": "all algorithms, batches, epochs, log entries", "why_tests_cant": "Tests run a few batches of one-transition episodes and check that no exception occurs.", "anchors": ["machin/auto/launcher.py:152-171", "machin/auto/launcher.py:222-239"]}
{"id": "C129", "title": "Every log entry is handled", "statement": "Each log entry of an item is handed to its function if it is a tuple with a callable second part, and logged otherwise, in order.", "quantifier": "all log dictionaries", "why_tests_cant": "Tests log numbers and pairs only; shorter tuples do not occur.", "anchors": ["machin/auto/launcher.py:96-103", "machin/auto/launcher.py:222-239"]}
{"id": "C130", "title": "Logged images do not overwrite each other", "statement": "Images logged under one name with strictly increasing steps are written to different files; the file name is made of the name, the step, or the number of earlier calls.", "quantifier": "all sequences of calls, names, steps, image types", "why_tests_cant": "The test logs with step 1 only and removes the file after each call.", "anchors": ["machin/auto/pl_logger.py:76-110"]}
{"id": "C131", "title": "Logged artifacts never overwrite a file", "statement": "log_artifact always ends, writes to the requested path if it is free and otherwise to the first free numbered one, and leaves every existing file as it was.", "quantifier": "all file systems, all sequences of artifacts", "why_tests_cant": "The test logs each artifact once into a fresh directory.", "anchors": ["machin/auto/pl_logger.py:51-73", "machin/auto/pl_logger.py:120-129"]}
{"id": "C132", "title": "Logging a video ends", "statement": "log_video ends for every list of frames: it gives up if the video cannot be written and otherwise hands it to every logger that takes artifacts.", "quantifier": "all lists of frames, loggers, file sizes over time", "why_tests_cant": "log_video has no test of its own; an empty list of frames would make a test hang.", "anchors": ["machin/auto/dataset.py:44-72"]}
{"id": "C133", "title": "Pictures keep size and brightness when written", "statement": "Frames of integers from 0 to 255 keep their values, frames of floats from 0 to 1 become the whole number below 255 times the value, grey frames get three equal channels, height and width stay.", "quantifier": "all frames with values in the documented ranges", "why_tests_cant": "Tests check that a file exists, not what is in it.", "anchors": ["machin/utils/media.py:72-80", "machin/utils/media.py:150-159"]}
{"id": "C134", "title": "Creating a video leaves the frames of the caller unchanged", "statement": "create_video does not change the list of frames it is given.", "quantifier": "all lists of frames", "why_tests_cant": "Tests do not look at the frames after the call, and the next call with the converted frames works as well.", "anchors": ["machin/utils/media.py:54-97"]}
{"id": "C135", "title": "Exactly the old trials are removed", "statement": "remove_trials_older_than removes exactly the entries of the environment root whose name is a time more than the given difference ago.", "quantifier": "all directory contents, times, differences", "why_tests_cant": "The test has one old trial directory and one directory with another name.", "anchors": ["machin/utils/save_env.py:155-188"]}
{"id": "C136", "title": "Every trial has a directory of its own", "statement": "Environments created at different times use different trial directories, and one restarted from a trial uses the directory of that trial.", "quantifier": "all times", "why_tests_cant": "Tests create environments one second or more apart, or restart from the first one.", "anchors": ["machin/utils/save_env.py:43-69"]}
{"id": "C137", "title": "A sampled batch has the entries of transition i in row i", "statement": "make_tensor_from_batch turns tensors into their concatenation along the first dimension in order, and numbers into a column with one row per number; reading row i of the result gives the entries that transition i was stored with, for every attribute, so rows of different attributes belong together.", "quantifier": "all lists of items, shapes and values", "why_tests_cant": "Tests sample transitions with equal values, so that exchanged rows and shapes are not noticed, and never mix numbers and tensors.", "anchors": ["machin/frame/buffers/buffer.py:375-425", "machin/frame/buffers/buffer.py:298-372"]}
{"id": "C138", "title": "Every transition is trained towards its own target", "statement": "However the rewards and terminal flags were stored (the transition class accepts numbers and tensors of any number of dimensions), row i of the targets computed on a whole batch is the Bellman target of transition i only.", "quantifier": "all batches, rewards, next values, terminal flags, discounts and accepted shapes of stored rewards", "why_tests_cant": "Tests of the algorithms store rewards as numbers; the test of the transition class accepts tensors of shape [1] but does not train with them.", "anchors": ["machin/frame/algorithms/dqn.py:436-470", "machin/frame/algorithms/dqn.py:497-502", "machin/frame/algorithms/ddpg.py:405-430", "machin/frame/transition.py:170-215", "machin/frame/buffers/buffer.py:375-425"]}
{"id": "C139", "title": "create_rpc_group returns when all members have entered", "statement": "Every process that calls create_rpc_group gets the group only after all members have entered the call with the same list of members, and every member gets it (no process waits forever or fails), however the calls and the start of the processes interleave.", "quantifier": "all groups, all interleavings of the processes entering, polling, and starting", "why_tests_cant": "Tests create groups between three processes on one machine that started long before, never while one of them is still setting up its world.", "anchors": ["machin/parallel/distributed/_world.py:347-397", "machin/parallel/distributed/_world.py:212-217", "machin/parallel/distributed/_world.py:166-176"]}
{"id": "C140", "title": "act_with_noise works for every documented mode", "statement": "For every documented noise mode and the default noise parameter, act_with_noise returns the action of the requested network plus noise of the documented distribution, with the shape of the action and the other results of the network; an unknown mode raises a ValueError.", "quantifier": "all networks, states, modes, parameters, ratios and draws", "why_tests_cant": "Tests give every mode a parameter made for it and only check that no exception is raised.", "anchors": ["machin/frame/algorithms/ddpg.py:209-256", "machin/frame/algorithms/maddpg.py:344-389", "machin/frame/noise/action_space_noise.py:12-174"]}
{"id": "C141", "title": "A noisy action has the shape of the action", "statement": "However act_with_noise was called before, the noisy action in mode \"ou\" has the shape of the action it was made from and is its sum with the noise of the generator.", "quantifier": "all sequences of calls with actions of any shapes", "why_tests_cant": "Tests call with one batch size only, and MADDPG tests use agents with equal action dimensions.", "anchors": ["machin/frame/noise/action_space_noise.py:143-174", "machin/frame/algorithms/ddpg.py:209-256", "machin/frame/algorithms/maddpg.py:344-389"]}
{"id": "C142", "title": "Distributed agents act like local agents with the newest model", "statement": "An acting method of DQNApex, DDPGApex, A3C or IMPALA does what the method of the local class does with the same arguments, after loading the newest model from the server exactly if the agent synchronises, does not act with the target network and is not wrapped by DataParallel.", "quantifier": "all agents, servers, arguments and local methods that use their documented arguments", "why_tests_cant": "Tests call the methods with default arguments and check that something is returned.", "anchors": ["machin/frame/algorithms/apex.py:115-150", "machin/frame/algorithms/apex.py:366-430", "machin/frame/algorithms/a3c.py:129-166", "machin/frame/algorithms/impala.py:180-206"]}
{"id": "C143", "title": "Greedy discrete actions are the best ones", "statement": "RAINBOW acts with the first action whose return distribution has the largest expected value on the support (which lies between v_min and v_max for distributions), with a random action exactly if the draw is below epsilon; DDPG.act_discrete returns the first most probable action of every row and refuses rows that are no probabilities.", "quantifier": "all numbers of actions, atoms and rows, all distributions and draws", "why_tests_cant": "Tests check the type and shape of the actions only.", "anchors": ["machin/frame/algorithms/rainbow.py:113-171", "machin/frame/algorithms/ddpg.py:258-285", "machin/frame/algorithms/utils.py:189-203"]}
{"id": "C144", "title": "Actor types name the perturbed networks", "statement": "get_actor_types lists a positive and a negative type for every rollout of the process; act with such a type calls the network of that rollout and sign, store_reward adds the reward to its list only, other types are refused; the two networks are the actor plus and minus the noise at the stored indexes, and what the manager gathers at position r are the average rewards and noise indexes of rollout r, with an AssertionError exactly if a reward is missing.", "quantifier": "all actors, noise arrays, draws, numbers of rollouts and members", "why_tests_cant": "Tests store the same rewards for all types and never compare networks or indexes.", "anchors": ["machin/frame/algorithms/ars.py:435-503", "machin/frame/algorithms/ars.py:603-623", "machin/frame/algorithms/ars.py:662-700"]}
{"id": "C145", "title": "The best rollouts are used", "statement": "The update uses exactly used_rollout_num rollouts, and none that is left out had a better reward (the larger one of the averages of its two networks) than one that is used.", "quantifier": "all numbers of rollouts and all rewards", "why_tests_cant": "Tests use random rewards without ties, and do not look at the selection.", "anchors": ["machin/frame/algorithms/ars.py:542-557"]}
{"id": "C146", "title": "The ARS step", "statement": "The update moves every entry of the actor by the learning rate times the average, over the used rollouts, of the noise of the rollout weighted by the difference of the average rewards of its positive and negative network divided by the deviation of these averages; parameters keep names, order and sizes; a missing reward is an AssertionError.", "quantifier": "all actors, perturbations made by _generate_parameter, rewards, learning rates", "why_tests_cant": "Tests check that update() does not raise; no test compares the step with the published formula.", "anchors": ["machin/frame/algorithms/ars.py:505-574", "machin/frame/algorithms/ars.py:625-638", "machin/frame/algorithms/ars.py:668-700"]}
{"id": "C147", "title": "The ARS step does not depend on the units of the reward", "statement": "Rewards a * x + b with a > 0 in place of x give the same update of the actor.", "quantifier": "all actors, rewards, units a and b", "why_tests_cant": "No test repeats an update with scaled rewards, and rewards of tests are of order one.", "anchors": ["machin/frame/algorithms/ars.py:559-569"]}
{"id": "C148", "title": "Acting in ARS leaves the caller's state alone", "statement": "act calls the network of the type with the normalised state, and leaves the caller's state dictionary as it was; a call that fails leaves the filters as they were.", "quantifier": "all states, filters, actor types", "why_tests_cant": "Tests build a new dictionary for every call and never use it again.", "anchors": ["machin/frame/algorithms/ars.py:447-482", "machin/frame/algorithms/ars.py:215-237"]}
{"id": "C149", "title": "The backward function that was set does every backward pass", "statement": "After set_backward_function(f) every backward pass of every update is made by f (the launcher relies on it: it sets Lightning's manual_backward).", "quantifier": "all algorithms with an update program, all flags and schemes, all runs that succeed", "why_tests_cant": "Tests never set a backward function; the default does the same as loss.backward().", "anchors": ["machin/frame/algorithms/base.py:78-84", "machin/frame/algorithms/td3.py:216-241", "machin/frame/algorithms/sac.py:338-391", "machin/frame/algorithms/dqn.py:381-385", "machin/frame/algorithms/gail.py:297-314", "machin/auto/launcher.py:88"]}
{"id": "C150", "title": "Every optimizer step uses the gradient of its own loss", "statement": "Whatever gradients earlier passes left behind, an update moves each network that is to be trained by one optimizer step along the clipped gradient of its own loss, computed at the documented parameters (policy losses at the new critic; both losses before either step in IMPALA; batches one after the other in A2C, PPO and GAIL), target networks follow the new networks by rate or on schedule, and networks not asked for keep parameters and optimizer states; no backward pass meets parameters changed in place.", "quantifier": "all gradients, optimizers, clippings, flags, schedules and states; DDPG, HDDPG, DDPG-PER, TD3, SAC, DQN in all modes, DQN-PER, RAINBOW, A2C, PPO, IMPALA, GAIL", "why_tests_cant": "Tests call update() and check that nothing is raised or that training eventually succeeds; a gradient left over or a step with the wrong gradient shows up as noise.", "anchors": ["machin/frame/algorithms/ddpg.py:398-463", "machin/frame/algorithms/td3.py:177-257", "machin/frame/algorithms/sac.py:301-397", "machin/frame/algorithms/dqn.py:347-471", "machin/frame/algorithms/a2c.py:343-423", "machin/frame/algorithms/impala.py:298-392", "machin/frame/algorithms/gail.py:268-320"]}
{"id": "C151", "title": "The parallel update of MADDPG does not depend on the schedule", "statement": "However the workers of the pool interleave, the update of MADDPG does not raise, and ends with the same parameters.", "quantifier": "all numbers of agents and sub-policies, all schedules of statements, all local losses", "why_tests_cant": "A race needs a particular schedule; tests use few agents and check no parameters.", "anchors": ["machin/frame/algorithms/maddpg.py:596-634", "machin/frame/algorithms/maddpg.py:752-916"]}
{"id": "C152", "title": "A target network of MADDPG moves once per update", "statement": "After an update with an update rate the target of every critic is the documented mixture of its old parameters and the new critic.", "quantifier": "all numbers of agents and sub-policies", "why_tests_cant": "Tests do not compare target parameters.", "anchors": ["machin/frame/algorithms/maddpg.py:893-911"]}
{"id": "C153", "title": "A transition counts by its own importance weight", "statement": "The loss of prioritized algorithms is the mean over the batch of the losses of the transitions, each one multiplied by its own importance weight.", "quantifier": "all batches, losses and weights; DQN-PER, DDPG-PER, RAINBOW", "why_tests_cant": "The loss is a number either way; tests with weights near one cannot see the difference.", "anchors": ["machin/frame/algorithms/rainbow.py:298-308", "machin/frame/algorithms/dqn_per.py:125-129", "machin/frame/algorithms/ddpg_per.py:129-134"]}
{"id": "C154", "title": "The two paths of a residual block fit", "statement": "For every kind of block (basic or bottleneck, any normalization), every number of input and output planes, every stride and every image size, the main path and the shortcut give the same shape: expansion times the output planes, and the size divided by the stride rounded up; a layer of any number of blocks does so too, and hands on the number of planes it gives; images with another number of planes are refused.", "quantifier": "all kinds, norms, planes, strides and sizes; layers of any number of blocks", "why_tests_cant": "Tests run each depth once on one image of 224 by 224 pixels.", "anchors": ["machin/model/nets/resnet.py:9-252", "machin/model/nets/resnet.py:324-332"]}
{"id": "C155", "title": "A ResNet of a documented depth takes images of size 224", "statement": "A ResNet of depth 18, 34, 50, 101 or 152 with a pooling output between 1x1 and 7x7 takes images of 224 by 224 pixels and gives out_planes features; it has as many layers with weights as its depth says; other sizes, depths and norms are refused.", "quantifier": "all depths, norms, planes and pooling sizes", "why_tests_cant": "Tests use one or two depths and the default pooling.", "anchors": ["machin/model/nets/resnet.py:38-70", "machin/model/nets/resnet.py:255-344"]}
{"id": "C156", "title": "--conf a=b sets a to the value of b", "statement": "Every --conf argument of the form name=text, for a text that has a value, sets the name to that value; the last argument for a name counts; all other names keep the value of the configuration given.", "quantifier": "all lists of arguments, all evaluations of texts, all configurations", "why_tests_cant": "Tests use two arguments with digits as values; a text with a second '=' is never tried.", "anchors": ["machin/utils/conf.py:40-85"]}
{"id": "C157", "title": "A saved configuration is loaded as it was", "statement": "What save_config has written without an error is loaded by load_config_file as the same values (the order of dictionary items does not count); after an error the file still holds what it held before.", "quantifier": "all configurations with any nesting of lists, tuples and dictionaries", "why_tests_cant": "Tests save two integers.", "anchors": ["machin/utils/conf.py:88-110"]}
{"id": "C158", "title": "Parameter noise is adapted to the distance of outputs for the same input", "statement": "perturb_model compares the output of a noisy pass and of a pass without noise for the same input, each pass at most once, adapts the deviation once per comparison, and generates noise with the deviation adapted so far.", "quantifier": "all sequences of passes, inputs, outputs and distances", "why_tests_cant": "Tests call the model with one constant input.", "anchors": ["machin/frame/noise/param_space_noise.py:132-293"]}
{"id": "C159", "title": "Both Hessian-vector modes of TRPO compute the damped Fisher product", "statement": "For twice differentiable actors, _fvp_direct returns (F + damping I) v where F is the Fisher matrix of the batch, _fvp_fim returns the same vector, and with positive damping v.Hv > 0 for every nonzero v in both modes, so that the step size sqrt(2 max_kl / v.Hv) is defined.", "quantifier": "for all actors (discrete with positive action_param of constant sum, continuous with means twice differentiable and a log standard deviation vector), all parameters, vectors, batch sizes and damping", "why_tests_cant": "Needs derivatives of arbitrary networks in all directions; tests only see that training runs, and a wrong curvature block still yields a descent direction.", "anchors": ["machin/frame/algorithms/trpo.py:372-398", "machin/frame/algorithms/trpo.py:400-438", "machin/model/algorithms/trpo.py:41-46", "machin/model/algorithms/trpo.py:63-69", "machin/model/algorithms/trpo.py:99-116", "machin/model/algorithms/trpo.py:142-149"]}
{"id": "C160", "title": "Clearing a directory empties it and nothing else", "statement": "prep_clear_dirs on an existing directory removes everything below it (files, links, whole directories), leaves the directory itself and everything outside as it was; a missing directory raises an error and changes nothing; several directories none of which lies in another are all emptied.", "quantifier": "all file systems, all directories, all lists of directories", "why_tests_cant": "Tests clear one flat directory with regular files.", "anchors": ["machin/utils/prepare.py:12-24"]}
{"id": "C161", "title": "Trial directories are created where they belong", "statement": "prep_create_dirs makes every path a directory without changing anything that was there, only making missing directories on the way; SaveEnv creates its four directories in the root of the trial, create_dirs makes directories in that root, and clearing one of the four leaves the other three and all in them as they were.", "quantifier": "all file systems, roots, time formats and names of directories", "why_tests_cant": "Tests create one environment in an empty directory.", "anchors": ["machin/utils/prepare.py:27-37", "machin/utils/save_env.py:53-153", "machin/utils/save_env.py:190-199"]}
{"id": "C162", "title": "Seeds reach their environments", "statement": "seed gives the seed at position i to environment i (one number to all), returns one answer per environment in order, under every interleaving of the workers, and refuses lists of another size than the number of environments without any effect.", "quantifier": "all environments, numbers of environments, seeds and schedules", "why_tests_cant": "Tests seed identical environments with one number and compare nothing but the length.", "anchors": ["machin/env/wrappers/openai_gym.py:97-119", "machin/env/wrappers/openai_gym.py:275-294"]}
{"id": "C163", "title": "Both wrappers render alike", "statement": "render returns the frames of the environments asked for in that order, renders each once, and the wrapper with processes gives what the one without gives, for every interleaving.", "quantifier": "all environments, selections and schedules", "why_tests_cant": "Tests render all environments once in a fixed state.", "anchors": ["machin/env/wrappers/openai_gym.py:121-143", "machin/env/wrappers/openai_gym.py:296-315"]}
{"id": "C164", "title": "Closing ends all workers", "statement": "close closes every environment once and ends every worker, whatever the environments do; a second close does nothing.", "quantifier": "all environments, numbers of workers and schedules", "why_tests_cant": "Tests close environments that never raise.", "anchors": ["machin/env/wrappers/openai_gym.py:145-150", "machin/env/wrappers/openai_gym.py:317-330"]}
{"id": "C165", "title": "Every setting of a generated configuration takes effect", "statement": "For every framework: if two complete configurations differ in one generated setting, the frameworks built from them by init_from_config differ; the code of the constructors gets every setting under its own name.", "quantifier": "all 18 frameworks, all configurations with the generated keys (and any further keys), all values, all settings but the four structural ones (number of learners, kind and configurations of the policy of GAIL), the right number of models", "why_tests_cant": "A dropped keyword raises no error because every constructor ends with **__; a test of one setting of one class says nothing of the other three hundred.", "anchors": ["machin/frame/algorithms/dqn.py:538-566", "machin/frame/algorithms/apex.py:188-253", "machin/frame/algorithms/apex.py:432-532", "machin/frame/algorithms/rainbow.py:12-111", "machin/frame/algorithms/trpo.py:29-172", "machin/frame/algorithms/dqn_per.py:22-87"]}
{"id": "C166", "title": "A wrong number of models is refused", "statement": "init_from_config of a framework whose models are followed by keyword arguments raises TypeError for any other number of models than the framework has; the frameworks with learners raise TypeError for too few models.", "quantifier": "all numbers of models, all complete configurations, the 12 frameworks of keyword style and the 3 with roles", "why_tests_cant": "Tests use the right number, or one wrong number; the claim is about all.", "anchors": ["machin/frame/algorithms/dqn.py:538-566", "machin/frame/algorithms/maddpg.py:1038-1066", "machin/frame/algorithms/sac.py:462-487", "machin/frame/algorithms/apex.py:188-253"]}
{"id": "C167", "title": "Configured models are on the model device", "statement": "All models of a framework built by init_from_config(config, model_device) have been moved to model_device.", "quantifier": "all frameworks, configurations, numbers of models", "why_tests_cant": "On a machine without a second device all models are on the same device whatever the code does.", "anchors": ["machin/frame/algorithms/gail.py:363-396", "machin/frame/algorithms/dqn.py:538-566", "machin/frame/algorithms/a3c.py:207-250"]}
{"id": "C168", "title": "A generated configuration of a distributed framework can be launched", "statement": "DistributedLauncher.init_frame finds the number of batches of the role of this process in the generated configuration.", "quantifier": "all distributed frameworks and roles", "why_tests_cant": "The launcher needs several processes and Lightning plugins; it is tested with one framework only.", "anchors": ["machin/auto/launcher.py:183-201", "machin/frame/algorithms/apex.py:152-187", "machin/frame/algorithms/a3c.py:174-205", "machin/frame/algorithms/ars.py:700-733"]}
{"id": "C169", "title": "Exactly the first processes are learners", "statement": "The processes whose rank is below learner_process_number are learners and keep update, all others are samplers with update disabled; the number of learners is the configured number or the size of the world if that is smaller. Frameworks without roles keep update.", "quantifier": "all ranks, numbers of learners, world sizes and configurations of DQNApex, DDPGApex and IMPALA", "why_tests_cant": "Tests use worlds of three processes with one learner.", "anchors": ["machin/frame/algorithms/apex.py:188-253", "machin/frame/algorithms/apex.py:467-532", "machin/frame/algorithms/impala.py:445-509"]}
{"id": "C170", "title": "A service is ready when other processes can call it", "statement": "At every moment of the construction of a distributed buffer, an ordered server, a model server or a gradient server, every service that is already registered and every accessor that is already paired can be used by another process without an exception.", "quantifier": "all constructors, all moments between two of their steps, all requests", "why_tests_cant": "Tests construct all objects before the first request; the window between registration and the end of the constructor is never hit.", "anchors": ["machin/frame/buffers/buffer_d.py:59-77", "machin/frame/buffers/prioritized_buffer_d.py:77-109", "machin/parallel/server/ordered_server.py:99-110", "machin/parallel/server/param_server.py:125-140", "machin/parallel/server/param_server.py:283-351"]}
{"id": "C171", "title": "Every member gets the same model servers in order", "statement": "Every member that returns from model_server_helper returns the tuple of accessors of the model servers 0 … model_num-1 made by the first process of the given list, in order; no operation raises in any member; all members can always still return.", "quantifier": "every number of models, every list of members in any order, every interleaving of the members", "why_tests_cant": "A race between the pairing in the first process and the look-ups of the others shows only in rare schedules.", "anchors": ["machin/frame/helpers/servers.py:112-155", "machin/parallel/server/param_server.py:125-140", "machin/parallel/server/ordered_server.py:99-110"]}
{"id": "C172", "title": "Collective groups use consistent ranks", "statement": "The relative rank of a process in a collective group is the number of members with smaller rank, whatever the order the ranks were given in, and none outside the group. The waiter of irecv returns the global rank of the process that sent the received content, for any source and for a named source; outside the group it returns -1 and takes nothing; a source outside the group raises. The process group is destroyed once.", "quantifier": "all lists of ranks, all members, all sets of messages in flight", "why_tests_cant": "The tests that use groups have all processes as members, where global and group ranks agree.", "anchors": ["machin/parallel/distributed/_world.py:321-345", "machin/parallel/distributed/_world.py:417-516", "machin/parallel/distributed/_world.py:572-591"]}
{"id": "C173", "title": "all_size and all_clear reach every member exactly once", "statement": "all_size returns the sum over the members of the sizes their buffers had at some moment during the call: the total if nothing else happens, between the totals before and after if the buffers only grow. all_clear clears every member's buffer at one moment during the call; what is stored after that moment stays, what was stored before is gone. A member that is not registered makes both raise KeyError.", "quantifier": "every number of members, all buffers, every interleaving of the services with other operations of the members", "why_tests_cant": "Tests call them while nothing else runs.", "anchors": ["machin/frame/buffers/buffer_d.py:88-129", "machin/frame/buffers/buffer_d.py:174-178", "machin/frame/buffers/prioritized_buffer_d.py:139-182", "machin/frame/buffers/prioritized_buffer_d.py:268-276"]}
{"id": "C174", "title": "A closed pool finishes its tasks, a terminated one ends its workers", "statement": "At every moment no task has been executed or delivered twice. When join returns after close, every submitted task has been executed and its result delivered exactly once. From every state after close, and from every state after terminate, there is a continuation in which join returns (no state is stuck, whatever workers have just used up maxtasksperchild). After the end nothing is accepted, executed or delivered and no worker is started.", "quantifier": "every number of workers, every maxtasksperchild, every interleaving of submissions, close, terminate, the two handler threads and the workers", "why_tests_cant": "Tests close idle pools; the race between the last result, the replacement of workers and the stop signals needs a particular schedule.", "anchors": ["machin/parallel/pool.py:576-609", "machin/parallel/pool.py:619-665", "machin/parallel/pool.py:722-765", "machin/parallel/pool.py:787-868"]}
{"id": "C175", "title": "map with the default chunk size can be called whenever the pool runs", "statement": "In every state of a running pool, map with the default chunk size finds a chunk size, the smallest that makes at most four chunks for every worker.", "quantifier": "every number of workers, every maxtasksperchild, every interleaving, every number of items", "why_tests_cant": "The list of workers is shorter than usual only between two statements of the worker handler thread.", "anchors": ["machin/parallel/pool.py:522-545", "machin/parallel/pool.py:653-665"]}
{"id": "C176", "title": "next() of an imap iterator does not wait for ever", "statement": "A call of next() without timeout never waits for ever once all results have arrived and never raises TimeoutError, whoever else uses the iterator.", "quantifier": "ordered and unordered iterators, every length, every order of arrival, any number of consumers, every interleaving", "why_tests_cant": "Tests use one consumer; lost notifications need two that wait at the same time.", "anchors": ["machin/parallel/pool.py:211-263", "machin/parallel/pool.py:278-287"]}
{"id": "C177", "title": "Optimizers that are assigned are stepped", "statement": "Reading optimizers, replacing each by another one and assigning the list again makes update step the replacement wherever it stepped the original; nothing that update steps is missing from the list.", "quantifier": "all frameworks, all flags, all replacements, for MADDPG all interleavings of the tasks of an update", "why_tests_cant": "Tests run the frameworks with their own optimizers; only the launcher assigns new ones, and never checks which are stepped.", "anchors": ["machin/frame/algorithms/gail.py:183-189", "machin/frame/algorithms/maddpg.py:307-320", "machin/frame/algorithms/td3.py:132-138", "machin/frame/algorithms/sac.py:185-201", "machin/auto/launcher.py:84-94"]}
{"id": "C178", "title": "The top models of a framework are all its networks", "statement": "Every network of a framework, trained or target, is among its top models and is therefore put into shared memory by enable_multiprocessing and registered with the launcher.", "quantifier": "all frameworks, for MADDPG all numbers of agents and sub-policies", "why_tests_cant": "Tests of enable_multiprocessing only check that it returns.", "anchors": ["machin/frame/algorithms/base.py:37-42", "machin/frame/algorithms/base.py:86-92", "machin/frame/algorithms/maddpg.py:57", "machin/frame/algorithms/maddpg.py:233-245"]}
{"id": "C179", "title": "A picture of a network is drawn once", "statement": "Over any history of updates no network is drawn a second time, and every network update asks to be drawn is drawn (visualize: in the first pass).", "quantifier": "all frameworks, all histories of updates with any flags, all interleavings", "why_tests_cant": "Tests run visualization with one or two updates and do not count the pictures.", "anchors": ["machin/frame/algorithms/base.py:160-172", "machin/frame/algorithms/maddpg.py:171", "machin/frame/algorithms/maddpg.py:622", "machin/frame/algorithms/maddpg.py:850-852", "machin/frame/algorithms/maddpg.py:918-923"]}
{"id": "C180", "title": "update leaves the networks it trains in evaluation mode", "statement": "When update returns, every network it put into training mode is in evaluation mode, and every other network has the mode it had.", "quantifier": "all frameworks, all flags and numbers of passes, all interleavings of the tasks of MADDPG", "why_tests_cant": "The mode only matters to networks with dropout or batch normalization, which the tests do not use.", "anchors": ["machin/frame/algorithms/trpo.py:196-197", "machin/frame/algorithms/trpo.py:243-248", "machin/frame/algorithms/trpo.py:298-302", "machin/frame/algorithms/gail.py:268-318", "machin/frame/algorithms/maddpg.py:803-916"]}
{"id": "C181", "title": "A network is trained in training mode", "statement": "At every backward pass the network the loss belongs to is in training mode.", "quantifier": "all frameworks, all flags, all interleavings of the tasks of MADDPG", "why_tests_cant": "Needs two sub-policies of one agent in different threads and a particular schedule.", "anchors": ["machin/frame/algorithms/maddpg.py:803-804", "machin/frame/algorithms/maddpg.py:854-858", "machin/frame/algorithms/maddpg.py:913-915"]}
{"id": "C182", "title": "Prioritized sampling draws transitions in proportion to their priorities", "statement": "Sampling n >= 2 transitions from a non-empty prioritized buffer: result j depends on draw j alone, leaf i is result j exactly when the draw falls into an interval, and the lengths of the n intervals of leaf i add up to n times its share of all priorities.", "quantifier": "all reachable non-empty buffers, all batch sizes >= 2, all draws, all leaves", "why_tests_cant": "A statistical test of the frequencies needs many samples and a tolerance, and the defect shows only for priorities near 1e-6.", "anchors": ["machin/frame/buffers/prioritized_buffer.py:397-428", "machin/frame/buffers/prioritized_buffer.py:96-125"]}
{"id": "C183", "title": "Transitions stored without priorities get the largest priority of the buffer", "statement": "After an episode has been stored without priorities, no leaf of the tree is above the leaves of the new transitions; the other leaves are unchanged.", "quantifier": "all reachable buffers, all episodes, all normalizations monotone in the absolute value", "why_tests_cant": "The tests compare the new leaf with the formula of the code, normalizing the maximum again.", "anchors": ["machin/frame/buffers/prioritized_buffer.py:279-309", "machin/frame/buffers/prioritized_buffer.py:430-434"]}
{"id": "C184", "title": "Accepted input and output modules have a device", "statement": "A module that set_input_module (set_output_module) accepts gives the network an input (output) device, and that device is the one of all parameters of the module at the end of the chain of input (output) modules.", "quantifier": "all trees of plain modules, containers and networks, all placements of parameters on devices", "why_tests_cant": "Tests run on one device; the exceptions appear with containers spread over several devices, modules without parameters and nested networks that are not finished.", "anchors": ["machin/model/nets/base.py:20-86", "machin/model/nets/base.py:88-101"]}
{"id": "C185", "title": "Moving a network moves its input and output device", "statement": "After a network has been moved to a device, that device is its input and its output device, whatever it was before; networks that share no parameter with it keep theirs.", "quantifier": "all trees of modules, all placements, all devices", "why_tests_cant": "Tests run on one device.", "anchors": ["machin/model/nets/base.py:52-86"]}
{"id": "C186", "title": "Calls of a model get their tensors on the device of the parameters they meet", "statement": "After any history of moves and calls, a call that succeeds gives every tensor argument to the model on the device of the parameters at its input.", "quantifier": "all models, all placements, all histories of moves and calls, all arguments", "why_tests_cant": "The tests call a model that is never moved after the first call.", "anchors": ["machin/frame/algorithms/utils.py:45-124", "machin/model/nets/base.py:107-170"]}
{"id": "C187", "title": "What a buffer has stored is isolated from the caller and lies on the device of the buffer", "statement": "Storing transition objects by deep copy behaves as storing their values: after any interleaving of creating and changing objects, storing in buffers of different devices and clearing, every buffer reads as if each transition had been stored as the value it had at that moment, moved to the device of the buffer; storing changes no object of the caller, and all tensors of major and sub attributes are on the device.", "quantifier": "all histories of a caller over any objects with any sharing (major dictionaries not also used as sub or custom attributes), all devices, all capacities", "why_tests_cant": "A test checks one transition after one change; sharing among transitions, attributes, buffers and devices multiplies the cases.", "anchors": ["machin/frame/buffers/storage.py:66-114", "machin/frame/transition.py:129-148"]}
{"id": "C188", "title": "Generated settings are the defaults of the constructors", "statement": "Every setting that generate_config of a framework writes for a parameter of its constructor has the value the constructor would use by itself.", "quantifier": "all 17 frameworks, all settings", "why_tests_cant": "The tests of generate_config only check that the call returns a configuration.", "anchors": ["machin/frame/algorithms/dqn.py:503-536", "machin/frame/algorithms/rainbow.py:332-339", "machin/frame/algorithms/sac.py:425-459", "machin/auto/config.py:57-75"]}
{"id": "C189", "title": "Generating a configuration sets exactly the generated keys", "statement": "From a given dictionary, generate_algorithm_config gives every generated setting its default and keeps every other setting of frame_config; it writes the name of the framework, batch_num where it applies, gpus and, for distributed frameworks, the numbers of processes and nodes; all other keys are kept. The generator of the environment fills in what is missing and keeps the rest; the generator for training writes its four keys. (That given settings are lost is C56.)", "quantifier": "all frameworks, all given configurations", "why_tests_cant": "The tests generate from empty configurations.", "anchors": ["machin/auto/config.py:12-18", "machin/auto/config.py:43-92", "machin/auto/envs/openai_gym.py:272-292"]}
{"id": "C190", "title": "The completeness checks accept exactly the complete configurations", "statement": "assert_training_config_complete, assert_algorithm_config_complete and assert_env_config_complete, and with them launch, accept a dictionary or Config exactly if it has the keys they ask for.", "quantifier": "all configurations, dictionaries and Config objects", "why_tests_cant": "The tests launch complete configurations only.", "anchors": ["machin/auto/config.py:119-142", "machin/utils/conf.py:9-37"]}
{"id": "C191", "title": "Configurations generated part by part can be launched", "statement": "Generating the parts for the environment (by the function of the environment module), for any framework and for the training, from any dictionary that names no other environment and has no frame_config other than a dictionary, makes a configuration that launch accepts: it uses the distributed launcher and the accelerator exactly for the distributed frameworks and passes on the training settings. (That the function with the same name in auto/config.py fails is C74.)", "quantifier": "all algorithms, all environments, all settings given before", "why_tests_cant": "The command is not tested; the tests call the function of the environment module directly.", "anchors": ["machin/auto/__main__.py:68-97", "machin/auto/config.py:57-92", "machin/auto/config.py:108-142", "machin/auto/envs/openai_gym.py:295-343"]}
{"id": "C192", "title": "Generalised advantages are mixtures of n-step advantages", "statement": "In a chained episode that ends with a terminal step, the advantage store_episode writes for step t is the mixture (1-l) * sum l^(n-1) A_n + l^(N-1) A_N of the advantages A_n estimated from n rewards and the value of the state reached after them, n = 1..N up to the end of the episode, for every gae_lambda l and discount.", "quantifier": "all episodes, all critics, all discounts and gae_lambda", "why_tests_cant": "Tests compare a fixed short episode, if at all.", "anchors": ["machin/frame/algorithms/a2c.py:269-316"]}
{"id": "C193", "title": "A softly updated target network tracks the online network", "statement": "With update_rate tau, training never fails in the target update and every target parameter is the exponential moving average of the online parameters; if an update changes an online parameter by at most d, the target is never further away than d(1-tau)/tau; once the online network stops changing, the target converges to it.", "quantifier": "all sequences of online networks of any length, all rates in (0,1]", "why_tests_cant": "Unbounded histories and a limit.", "anchors": ["machin/frame/algorithms/utils.py:8-27", "machin/frame/algorithms/dqn.py:163-200", "machin/frame/algorithms/dqn.py:460-467"]}
{"id": "C194", "title": "The Ornstein-Uhlenbeck generator is a mean reverting process", "statement": "Value n after a reset is mu + a^(n+1)(x0-mu) + sigma*sqrt(dt)*sum a^(n-k) z_k with a = 1-theta*dt; starts are forgotten at the rate a; bounded draws give values bounded around mu; for uncorrelated draws of mean 0 and variance 1 mean and variance of every value are the known ones.", "quantifier": "all parameters, all sequences of draws, every expectation for the draws", "why_tests_cant": "Draws are random; tests check shapes.", "anchors": ["machin/frame/noise/generator.py:138-203"]}
{"id": "C195", "title": "Importance weights undo the priorities", "statement": "In a sampled batch every importance weight is one common positive number divided by the priority of its transition to the power beta; when beta has reached 1, weight times the chance to be drawn is the same for all transitions of the batch.", "quantifier": "all reachable prioritized buffers, all batches, all draws", "why_tests_cant": "Tests compare weights for single fixed trees.", "anchors": ["machin/frame/buffers/prioritized_buffer.py:397-428"]}
{"id": "C196", "title": "Sending by copy is a snapshot, sending by reference shares", "statement": "An object pickled with copy_tensor=True is loaded with the contents its tensors had when it was dumped, whatever happened since, with the same pattern of identical tensors, in new storages: later writes on either side are not seen on the other. With copy_tensor=False every loaded tensor has the storage of the tensor sent. A queue with copy_tensor=True delivers messages in order with the contents at the time of put, without loss or repetition. Distinct views of one storage are separated by copying.", "quantifier": "all objects with any number of tensors and any sharing, all histories of creating, writing, sending, receiving", "why_tests_cant": "Depends on when writes of several processes happen; tests compare one value.", "anchors": ["machin/parallel/pickle.py:17-119", "machin/parallel/queue.py:41-156"]}
{"id": "C197", "title": "Pools with is_copy_tensor copy tensors", "statement": "In a pool with is_copy_tensor=True whose workers are processes, a call of any function changes no tensor of the caller.", "quantifier": "all functions, all arguments, all sharing of storages", "why_tests_cant": "Tests do not write to arguments in workers.", "anchors": ["machin/parallel/pool.py:Pool.apply", "machin/parallel/pool.py:Pool.__init__", "machin/parallel/pool.py:BasePool.setup_queues"]}
{"id": "C198", "title": "Workers of a pool are started as asked", "statement": "Workers of Pool, P2PPool, CtxPool, ThreadPool and CtxThreadPool are started with the start method that goes with is_copy_tensor and share_method and with the daemon flag is_daemon.", "quantifier": "all settings", "why_tests_cant": "Tests use the defaults.", "anchors": ["machin/parallel/pool.py:Pool.__init__", "machin/parallel/pool.py:BasePool.repopulate_pool", "machin/parallel/pool.py:CtxPool.repopulate_pool"]}
{"id": "C199", "title": "Pools refuse settings that cannot work", "statement": "A pool is constructed exactly if it has at least one worker, as many contexts as workers, a callable initializer, a positive maxtasksperchild and a share method when tensors are not copied; and the workers of a constructed pool start.", "quantifier": "all settings of all five pool classes", "why_tests_cant": "Many combinations; failing workers are restarted silently.", "anchors": ["machin/parallel/pool.py:Pool.__init__", "machin/parallel/pool.py:CtxPool.__init__", "machin/parallel/pool.py:BasePool.worker"]}
{"id": "C200", "title": "Along every fair schedule a pool does its work and ends", "statement": "If every step of every worker and of both handlers is tried again and again, then, as long as nobody calls terminate, every submitted task is eventually executed and delivered, even while tasks are submitted for ever and workers are replaced; after close, join eventually returns with every submitted task executed and delivered exactly once; after terminate, join eventually returns.", "quantifier": "all numbers of workers, all maxtasksperchild, all infinite schedules in which every worker and handler step recurs", "why_tests_cant": "Starvation needs infinite schedules.", "anchors": ["machin/parallel/pool.py:BasePool.worker", "machin/parallel/pool.py:BasePool._handle_workers", "machin/parallel/pool.py:BasePool._handle_results", "machin/parallel/pool.py:BasePool.maintain_pool", "machin/parallel/pool.py:BasePool.close", "machin/parallel/pool.py:BasePool.terminate", "machin/parallel/pool.py:BasePool.join"]}
{"id": "C201", "title": "The v-trace targets of IMPALA have a closed form and stay bounded", "statement": "The target of a step is its value plus the sum over the later steps of discount^k times the product of the clipped ratios in between times the clipped temporal difference, minus discount^m times the product of all clipped ratios times the value of the last step (whose own target is 0); in a batch, every episode gets the targets it would get alone; with discount * clip_c < 1 the distance of a target to its value has a bound that does not depend on the ratios or on the length of the episode; a critic that satisfies the Bellman equation keeps its values up to the discounted value of the last step.", "quantifier": "all episodes and batches of episodes of any length, all ratios, rewards, values, discounts and clips", "why_tests_cant": "The loop runs backwards over tensors of one batch; tests see single episodes, not a formula for all lengths and ratios.", "anchors": ["machin/frame/algorithms/impala.py:IMPALA.update"]}
{"id": "C202", "title": "Fitting the targets of DQN is a contraction whose fixed point is optimal on the batch", "statement": "Target networks that differ by at most e give exact fits that differ by at most |discount| e on the batch; repeated fitting on a batch that contains all actions of its successor states converges geometrically to the table of zero loss, which is unique; in every mode a table of zero loss bounds the return of every path in the batch from above, and greedy paths, which exist with any length or up to the end of the episode, attain it; the targets of DDPG, TD3 and SAC have the same Lipschitz constant in the target critics.", "quantifier": "all batches, tables, widths, discounts (below 1 for convergence) and numbers of rounds", "why_tests_cant": "Convergence and optimality are statements about limits and all paths.", "anchors": ["machin/frame/algorithms/dqn.py:DQN.update", "machin/frame/algorithms/dqn.py:DQN.reward_function", "machin/frame/algorithms/ddpg.py:DDPG.update", "machin/frame/algorithms/td3.py:TD3.update", "machin/frame/algorithms/sac.py:SAC.update"]}
{"id": "C203", "title": "The world object knows its process", "statement": "A process with a World reads the rank under which the other processes know it, whether the rank was given or found out by torch; its manager is the process of rank 0; get_ranks and get_members list all processes in order; exactly the first learner_process_number processes become learners; a second World raises RuntimeError and changes nothing, and a construction that failed can be repeated.", "quantifier": "all ranks, names, peers in any order, numbers of processes, behaviours of torch", "why_tests_cant": "The tests always give the ranks; start failures need a broken network.", "anchors": ["machin/parallel/distributed/_world.py:World.__init__", "machin/parallel/distributed/_world.py:World.stop", "machin/parallel/distributed/_world.py:get_cur_rank", "machin/parallel/distributed/_world.py:World.get_members", "machin/frame/algorithms/apex.py:DQNApex.init_from_config", "machin/frame/algorithms/impala.py:IMPALA.init_from_config"]}
{"id": "C204", "title": "A group object sent to another process acts as the group, and calls tell where an exception came from", "statement": "Through a copy of a group that was pickled to a member, look-ups give what the group of the member gives, values paired through it can be read by all members, and keys of the process can be released; rpc_sync runs the function in the named member only and returns its result, exceptions of the function arrive as RpcException, a target outside the group is refused; a service call raises KeyError exactly if the service is not there.", "quantifier": "all histories of calls on the group, all members, keys, values, functions", "why_tests_cant": "The tests send accessors but never pair or unpair through the group inside them.", "anchors": ["machin/parallel/distributed/_world.py:RpcGroup.__reduce__", "machin/parallel/distributed/_world.py:RpcGroup.pair", "machin/parallel/distributed/_world.py:RpcGroup.unpair", "machin/parallel/distributed/_world.py:RpcGroup.get_paired", "machin/parallel/distributed/_world.py:RpcGroup._rpc_normal_call", "machin/parallel/distributed/_world.py:_rpc_call_service"]}
{"id": "C205", "title": "The step of TRPO is the best one inside the trust region", "statement": "The full step lies exactly on the boundary 1/2 d'Ad = kl_max_delta and decreases the loss in the first order, for any number of conjugate gradient iterations; no step in the region made of g, Ag, …, A^(m-1)g promises a larger decrease, m being the iterations made; with as many iterations as parameters no step at all does; more iterations never promise less; every backtracked step stays in the region.", "quantifier": "all symmetric positive definite curvatures, gradients, radii, numbers of iterations, thresholds (exact arithmetic, conjugate_eps = 0)", "why_tests_cant": "Optimality among all steps of a region cannot be sampled.", "anchors": ["machin/frame/algorithms/trpo.py:TRPO.update", "machin/frame/algorithms/trpo.py:TRPO._conjugate_gradients"]}
{"id": "C206", "title": "Epsilon-greedy actions are taken with the intended probabilities", "statement": "In every row of a batch every one of n actions is taken with probability k/n and the first best action with 1-k more, where k is the share of values of the generator below epsilon; k lies in [epsilon, epsilon + 1/N) for a generator of resolution 1/N; one draw decides for the whole batch, so all rows explore or none does.", "quantifier": "all batches, action values, epsilon, resolutions of the generator, rows and actions", "why_tests_cant": "A test sees a few draws; probabilities over all outcomes of the generator need a count.", "anchors": ["machin/frame/algorithms/dqn.py:DQN.act_discrete_with_noise", "machin/frame/algorithms/rainbow.py:RAINBOW.act_discrete_with_noise"]}
{"id": "C207", "title": "A checked model runs as before unless there is a nan", "statement": "With the default hooks of check_model, a forward pass without nan raises no exception and writes, for every value that a hook gets, one entry with its smallest, largest and mean value (smallest <= mean <= largest) and the number of the pass; the first nan raises CheckError and nothing is written for it; entries already written stay; after cancel() nothing is written.", "quantifier": "all modules, tensors, intervals, numbers of passes", "why_tests_cant": "The tests check float inputs only.", "anchors": ["machin/utils/checker.py:check_shape", "machin/utils/checker.py:check_nan", "machin/utils/checker.py:i_chk_range", "machin/utils/checker.py:o_chk_range", "machin/utils/checker.py:p_chk_range", "machin/utils/checker.py:check_model"]}
{"id": "C208", "title": "Processes that train together end together", "statement": "Processes running DistributedLauncher on their own datasets, without exceptions and with one monitored value in the logs of every item, can finish an epoch together: no process is left waiting in a synchronised log or at the barrier, and every such operation brings together the values of the same training step.", "quantifier": "all numbers of processes, datasets, batch sizes, algorithms, interleavings", "why_tests_cant": "Deadlocks show only in particular combinations of datasets and batch sizes with several processes.", "anchors": ["machin/auto/launcher.py:DistributedLauncher.training_step", "machin/auto/launcher.py:DistributedLauncher.train_dataloader", "machin/auto/launcher.py:DistributedLauncher._log", "machin/auto/launcher.py:DistributedLauncher.init_frame"]}
{"id": "C209", "title": "The launchers join the world of pytorch lightning", "statement": "init_ddp_connection makes the world with the rank and size that were given, or with those of the cluster, at the master port and the port after it, unless there is a world already; missing entries of the cluster are reported; a local framework refuses a ddp trainer and a distributed one refuses any other; the optimizers of the trainer are taken over once.", "quantifier": "all clusters, arguments, existing worlds, trainers, numbers of starts", "why_tests_cant": "Tests use one machine and one cluster environment, in which given and found sizes agree.", "anchors": ["machin/auto/pl_plugin.py:DDPPlugin.init_ddp_connection", "machin/auto/pl_plugin.py:DDPSpawnPlugin.init_ddp_connection", "machin/auto/launcher.py:Launcher._init_frame_with_pl", "machin/auto/launcher.py:DistributedLauncher._init_frame_with_pl"]}
{"id": "C210", "title": "A step along the flat gradient of TRPO is a step of every parameter along its own gradient", "statement": "The flat gradient has one entry per entry of the parameters; adding a multiple of it to the flat parameters and setting the result moves every parameter by that multiple of its gradient and leaves parameters that are not used as they are; products of flat vectors are the sums of the products of their parts; no gradient is left in the parameters.", "quantifier": "all models, shapes, gradients, unused parameters, factors", "why_tests_cant": "Tests use models in which every parameter is used.", "anchors": ["machin/frame/algorithms/trpo.py:TRPO.get_flat_grad", "machin/frame/algorithms/trpo.py:TRPO.set_flat_params", "machin/frame/algorithms/trpo.py:TRPO.get_flat_params"]}
{"id": "C211", "title": "The critics of MADDPG see the entries of all agents, row by row and in order", "statement": "If all agents have the keys of the first one with the same number of rows, the joint state or action has exactly these keys, and row i of an entry is the rows i of all agents one after the other; a missing key, different numbers of rows or no agents raise. The buffer in shared memory gives the same batches as an ordinary one and shares the result, or all tensors of the batch if they are not concatenated.", "quantifier": "all numbers of agents, keys, widths, rows, batches", "why_tests_cant": "Tests use agents of the same width, for which a wrong order is not seen.", "anchors": ["machin/frame/algorithms/maddpg.py:MADDPG.action_concat_function", "machin/frame/algorithms/maddpg.py:MADDPG.state_concat_function", "machin/frame/algorithms/maddpg.py:SHMBuffer.make_tensor_from_batch"]}
{"id": "C212", "title": "The update of ARS climbs", "statement": "Along any linear function of the parameters, an update moves the actor by the learning rate times the average, over the rollouts used, of the reward difference times the slope of the function in the direction of the rollout. If rewards are linear in the parameters, an update never lowers them, and raises them strictly unless every used direction is level.", "quantifier": "all models, numbers of rollouts and used rollouts, directions, rewards, rates, linear functions", "why_tests_cant": "Training of a test may improve although single updates go down, and the sign of a step is hidden by noise.", "anchors": ["machin/frame/algorithms/ars.py:ARS.update", "machin/frame/algorithms/ars.py:ARS._cal_gradient", "machin/frame/algorithms/ars.py:ARS._generate_parameter"]}
{"id": "C213", "title": "The targets of value-based methods are ordered and bounded", "statement": "The target of double DQN is never above the one with a fixed target network, and equal exactly if the preferred action is also best for the target network. The target of TD3 is the smaller one of the targets of its critics, never above that of DDPG without noise; that of SAC adds the discounted entropy bonus. Larger target networks give larger targets. If rewards are at most R and networks at most R/(1-discount), then so are the targets of DQN in all modes, DDPG, TD3 and HDDPG; with SAC the bonus counts as a reward.", "quantifier": "all networks, transitions, discounts below one, rates, actions", "why_tests_cant": "Tests do not compare algorithms on the same networks, and divergence needs long runs.", "anchors": ["machin/frame/algorithms/dqn.py:DQN.update", "machin/frame/algorithms/ddpg.py:DDPG.update", "machin/frame/algorithms/td3.py:TD3.update", "machin/frame/algorithms/sac.py:SAC.update", "machin/frame/algorithms/hddpg.py:HDDPG.update"]}
{"id": "C214", "title": "Sampling from a replay buffer is uniform", "statement": "After any history of stores, every row of a batch of random and of random_unique is each live transition with the same probability: rows with any property appear with the share the property has among the live transitions. If live transitions differ, each is in a batch of random_unique with probability batch size / number of live ones. The rows of random are independent of each other.", "quantifier": "all capacities, histories, batch sizes, rows, properties of transitions", "why_tests_cant": "Statistical tests on few samples do not see a bias towards old or new transitions.", "anchors": ["machin/frame/buffers/buffer.py:Buffer.sample_method_random", "machin/frame/buffers/buffer.py:Buffer.sample_method_random_unique"]}
{"id": "C215", "title": "Windows of the RNN buffer are uniform within episodes and episodes uniform", "statement": "After any history of stores, every window of a batch of the RNN buffer picks a live episode that is long enough, all with the same probability, and then one of the windows of that episode, all with the same probability; so the share of windows with any property is the average over episodes of the share within the episode. The windows of random are independent of each other.", "quantifier": "all capacities, histories, window lengths, batch sizes, windows, properties of windows", "why_tests_cant": "The last window of an episode is rare in long episodes; a test does not notice if it is never drawn.", "anchors": ["machin/frame/buffers/rnn_buffers.py:RNNBuffer.sample_method_random", "machin/frame/buffers/rnn_buffers.py:RNNBuffer.sample_method_random_unique"]}
{"id": "C216", "title": "Sampling from a group of prioritized RNN buffers returns the windows of all members", "statement": "If the sampling service of no member raises, sampling from the group does not raise: it returns the windows drawn by the members one after the other, members without a contribution adding nothing, and update_priority cuts the priorities into the pieces of the members.", "quantifier": "all groups, member states, batch sizes, draws, window lengths, priorities", "why_tests_cant": "The service runs in other processes and is excluded from coverage; a member that is asked for nothing only occurs with skewed weights.", "anchors": ["machin/frame/buffers/rnn_buffers.py:RNNDistributedPrioritizedBuffer._sample_service", "machin/frame/buffers/prioritized_buffer_d.py:DistributedPrioritizedBuffer.sample_batch", "machin/frame/buffers/prioritized_buffer_d.py:DistributedPrioritizedBuffer.update_priority"]}
{"id": "C217", "title": "Late priorities do not hit overwritten windows of a distributed RNN buffer", "statement": "After a sampling and any stores in between, an update of the priorities of the samples leaves the positions written in between alone.", "quantifier": "all histories of stores, samplings and updates of a member, all draws, priorities and positions", "why_tests_cant": "The overwriting happens in another process between two calls of the trainer.", "anchors": ["machin/frame/buffers/rnn_buffers.py:RNNDistributedPrioritizedBuffer.store_episode", "machin/frame/buffers/prioritized_buffer_d.py:DistributedPrioritizedBuffer._update_priority_service"]}
{"id": "C218", "title": "Sampling from a group of uniform RNN buffers returns whole windows of the members", "statement": "Sampling from a group of uniform RNN buffers returns the windows drawn by the members by the chosen method, one member after the other, and their number; cutting the batch gives the windows back.", "quantifier": "all groups, histories of the members, window lengths, batch sizes, methods, draws", "why_tests_cant": "The class cannot be constructed, so no test samples from it.", "anchors": ["machin/frame/buffers/buffer_d.py:DistributedBuffer.sample_batch", "machin/frame/buffers/buffer_d.py:DistributedBuffer._sample_service", "machin/frame/buffers/rnn_buffers.py:RNNDistributedBuffer", "machin/frame/buffers/rnn_buffers.py:RNNBuffer.sample_method_random"]}
{"id": "C219", "title": "A2C, PPO and TRPO follow the policy gradient, whatever the critic predicts", "statement": "At the parameters with which an update begins, the losses of A2C, PPO and TRPO have the same gradient, minus the average of the slope of the log probability times the advantage. Averaged over the action that the policy draws in a state, that gradient is minus the gradient of the expected value, whatever number the critic predicts for the state.", "quantifier": "all batches, differentiable policies over finitely many actions, lines of parameters, values, predictions of the critic, clips above 0", "why_tests_cant": "A test compares losses of single batches; that the gradient is unbiased is a statement about the average over all draws and all policies.", "anchors": ["machin/frame/algorithms/a2c.py:A2C.update", "machin/frame/algorithms/ppo.py:PPO.update", "machin/frame/algorithms/trpo.py:TRPO.update"]}
{"id": "C220", "title": "A row stops pulling in PPO exactly when its ratio has left the clipping range in the advised direction", "statement": "The clipped objective of a row has the gradient of ratio times advantage while the ratio is inside the range or outside against the advice of the advantage, and gradient zero once it is outside in the advised direction; TRPO has no such gate.", "quantifier": "all clips, advantages, old log probabilities, differentiable policies and ratios off the boundary", "why_tests_cant": "A sign error in the clipping changes nothing at the first step, where all ratios are one.", "anchors": ["machin/frame/algorithms/ppo.py:PPO.update", "machin/frame/algorithms/trpo.py:TRPO.update"]}
{"id": "C221", "title": "IMPALA corrects completely for the policy of the samplers as long as rho is not clipped", "statement": "If no ratio exceeds the clip of rho, the gradient of the loss of IMPALA, averaged over the action that the policy of the sampler draws, is minus the gradient of the expected target under the policy of the learner, whatever the critic predicts. With clipping an action counts as if it had been drawn with probability min(clip * mu, pi). With the newest actor and a clip of at least one the gradient is that of A2C times the number of rows.", "quantifier": "all policies of samplers and learners over finitely many actions, targets, predictions, clips, batches", "why_tests_cant": "The stale policy differs from the current one only in a running cluster, and a bias shows only in averages.", "anchors": ["machin/frame/algorithms/impala.py:IMPALA.update"]}
{"id": "C222", "title": "An entropy weight adds the weighted entropy to the policy loss", "statement": "For every algorithm that takes entropy_weight (A2C, PPO, TRPO, IMPALA) the loss with a weight is the loss without it plus the weight times the entropies of the rows (averaged, in IMPALA summed).", "quantifier": "all weights, non-empty batches, clips, log probabilities, advantages and entropies", "why_tests_cant": "The parameter is accepted and stored everywhere; whether the loss reads it is visible only in the values of the loss.", "anchors": ["machin/frame/algorithms/a2c.py:A2C.update", "machin/frame/algorithms/ppo.py:PPO.update", "machin/frame/algorithms/trpo.py:TRPO.update", "machin/frame/algorithms/impala.py:IMPALA.update"]}
{"id": "C223", "title": "The discriminator of GAIL is trained towards the share of the agent, and its reward ranks by likeness to the expert", "statement": "Among all discriminators with answers between 0 and 1 the loss on two batches is least for the share of the agent g / (g + e) of the frequencies of the pair in the two batches. The reward decreases with the answer and is not negative; with the best discriminator it is log(1 + e / g), zero exactly for pairs that the expert never produced.", "quantifier": "all non-empty batches with fewer than e^99 - 1 rows, all discriminators", "why_tests_cant": "Exchanged tags or a wrong sign of the reward still train without error; the optimum is over infinitely many discriminators.", "anchors": ["machin/frame/algorithms/gail.py:GAIL.update", "machin/frame/algorithms/gail.py:GAIL.store_episode"]}
{"id": "C224", "title": "The policy loss of SAC is least for the Boltzmann policy of its critics", "statement": "The average of the policy loss of SAC in a state over the drawn action is least for the policy proportional to exp(min(q1, q2) / entropy_alpha), and for no other; the least value is minus the soft maximum of the values, and under that policy the value of the next state does not depend on the drawn action.", "quantifier": "all finite action sets, critics, positive entropy weights and policies", "why_tests_cant": "A statement about the minimum over all policies.", "anchors": ["machin/frame/algorithms/sac.py:SAC.update"]}
{"id": "C225", "title": "RAINBOW is trained towards the projected target", "statement": "For every row of a batch the loss depends on the answer of the network, and up to 1e-6 per atom no answer has a smaller loss than the projected target distribution.", "quantifier": "all supports, batches, values, discounts, terminal flags, next distributions and answers", "why_tests_cant": "The loss of a lost row is exactly zero, which looks like a perfectly learnt row in a log.", "anchors": ["machin/frame/algorithms/rainbow.py:RAINBOW.update"]}
{"id": "C226", "title": "Samplers act with the newest model of their last synchronisation", "statement": "A process that only pulls holds, at every moment, the initial model or exactly the parameters of one accepted push under its number. After a pull it holds the parameters of the push accepted last before the pull, and from then on it lags behind the server by exactly the pushes accepted since. The version a client holds never decreases.", "quantifier": "all numbers of clients, all interleavings of training steps, pushes, rejected pushes and pulls", "why_tests_cant": "A stale or mixed model only degrades learning; which push a sampler acts with is not observable from its actions.", "anchors": ["machin/parallel/server/param_server.py:PushPullModelServer.pull", "machin/parallel/server/param_server.py:PushPullModelServer.push", "machin/frame/algorithms/apex.py:DQNApex.manual_sync", "machin/frame/algorithms/impala.py:IMPALA.act"]}
{"id": "C227", "title": "State dictionaries are loaded completely or not at all", "statement": "prep_load_state_dict either loads every parameter of the model from the dictionary, each one staying on its device, or raises and leaves the model as it was. It succeeds exactly if names and shapes agree.", "quantifier": "all models and state dictionaries", "why_tests_cant": "Tests load what they have saved from the same network; the state of a model after a failed load is never looked at.", "anchors": ["machin/utils/prepare.py:prep_load_state_dict", "machin/utils/prepare.py:prep_load_model", "machin/parallel/server/param_server.py:PushPullModelServer.pull"]}
{"id": "C228", "title": "A step of the managed model is made of batch_size squared pushes of equal weight", "statement": "For every interleaving of client pushes and reduction threads of a gradient server, every gradient the managed model is stepped with is the average ('mean') or the sum ('sum') of exactly reduce_batch_size * reduce_batch_size pushed gradients, the same pushes for every parameter, and no push is part of two steps.", "quantifier": "all numbers of members, batch and queue sizes, all sequences of pushes and thread steps, all values in a rational vector space", "why_tests_cant": "The two-level reduction runs in threads of several processes; a test sees one schedule and a few batch sizes and could not tell a mean of means of unequal batches from the average.", "anchors": ["machin/parallel/server/param_server.py:411-465", "machin/parallel/server/param_server.py:467-493"]}
{"id": "C229", "title": "The placement of models is optimised for the expected cost of communication, fitting sizes, balanced work and certainty", "statement": "The connection term of optimize_placement is the expected cost of placing every model independently with the probabilities of its row, and its gradient is exact; the size term is zero exactly if the expected loads are within the capacities; the complexity term is zero exactly if work is divided like computing power; the entropy term is zero exactly if every model is placed with certainty; for a certain placement the total is the weighted sum of the costs of that placement.", "quantifier": "all numbers of models and devices, all connections, distances, sizes, capacities and placement probabilities", "why_tests_cant": "Tests only check that some assignment is returned; a wrong einsum subscript or a transposed matrix still gives an assignment.", "anchors": ["machin/parallel/assigner.py:336-368"]}
{"id": "C230", "title": "A barrier that is used again and again keeps the members together and lets them go on", "statement": "However often the members of an RPC group call barrier(), nobody returns from their r-th call before everybody has made their r-th call; and when everybody has called for the r-th time, everybody can return.", "quantifier": "all group sizes, all numbers of uses, all interleavings of the members, the leader and the exit services", "why_tests_cant": "Both failures need a member to run in the few instructions between set() and clear(), or between the status and wait(); tests with sleeps never hit them.", "anchors": ["machin/parallel/distributed/_world.py:873-895", "machin/parallel/distributed/_world.py:967-973"]}
{"id": "C231", "title": "Destroying a group object destroys that group and no other", "statement": "destroy() of a group object succeeds whenever and however often it is called; the process loses its group of that name exactly if the object is that group; a destroyed object accepts no further keys; a collective group is given back to torch once.", "quantifier": "all histories of creating, receiving and destroying group objects of one name in a process", "why_tests_cant": "Needs copies of a group object in the same process as the group, or a group made again under the same name.", "anchors": ["machin/parallel/distributed/_world.py:598-606", "machin/parallel/distributed/_world.py:897-907", "machin/parallel/distributed/_world.py:977-979", "machin/parallel/distributed/_world.py:572-578"]}
{"id": "C232", "title": "Values and advantages are right on average", "statement": "In an environment in which every episode ends, averaged over the episodes a policy plays and given everything known when an action was taken, the value that store_episode of A2C, PPO and TRPO writes is the value of that action, and the advantage is the value of the action minus the value of the state, for every gae_lambda if the critic is exact; with gae_lambda 1 it is the value of the action minus the prediction of the critic, whatever the critic. Exact values exist and are unique.", "quantifier": "all finite environments in which every episode ends, all stochastic policies, discounts, lambdas, critics, start states and weights depending on the past", "why_tests_cant": "An average over all episodes of all environments; a test sees one episode at a time and has no exact critic.", "anchors": ["machin/frame/algorithms/a2c.py:A2C.store_episode"]}
{"id": "C233", "title": "Policy gradient methods climb the expected return of an episode", "statement": "For a stochastic policy with differentiable probabilities, the average over the episodes it plays of the summed gradient of the loss of A2C, PPO or TRPO at the parameters with which the update begins is minus the gradient of the expected discounted return of an episode, with an exact critic or with gae_lambda 1.", "quantifier": "all finite environments in which every episode ends, all policies, discounts, lambdas and critics", "why_tests_cant": "The average is over all episodes, and the expected return has to be differentiated; the deviation is invisible in learning curves.", "anchors": ["machin/frame/algorithms/a2c.py:A2C.store_episode", "machin/frame/algorithms/a2c.py:A2C.update", "machin/frame/algorithms/ppo.py:PPO.update", "machin/frame/algorithms/trpo.py:TRPO.update"]}
{"id": "C234", "title": "Sampling from a distributed uniform buffer is uniform over the transitions of the group", "statement": "With members that hold transitions and independent generators, the expected number of rows with some property in a batch of DistributedBuffer.sample_batch (random or random_unique) is proportional to the number of transitions in the whole group that have it.", "quantifier": "all numbers of members, buffer sizes, histories of episodes that fit, batch sizes and properties of transitions; expectation over all outcomes of the generators of all members", "why_tests_cant": "Probabilities over all outcomes of several independent generators for arbitrary histories of several processes; a sampling test sees one group and noise, and equal buffers hide the bias.", "anchors": ["machin/frame/buffers/buffer_d.py:DistributedBuffer.sample_batch", "machin/frame/buffers/buffer_d.py:DistributedBuffer._sample_service", "machin/frame/buffers/buffer.py:Buffer.sample_method_random","machin/frame/buffers/buffer.py:Buffer.sample_method_random_unique"]}
{"id": "C235", "title": "A batch can be sampled from a distributed prioritized buffer whenever the group holds transitions", "statement": "If some member of the group holds a transition, DistributedPrioritizedBuffer.sample_batch(B) with B >= 1 returns a batch; with empty members only it returns 0, None, None, None.", "quantifier": "all groups, all histories of stores, samplings, priority updates and clears of every member, batch sizes and draws", "why_tests_cant": "Failure depends on how the priorities are spread over the processes at the moment of the call; tests use few members with equal priorities and large batches.", "anchors": ["machin/frame/buffers/prioritized_buffer_d.py:DistributedPrioritizedBuffer.sample_batch", "machin/frame/buffers/prioritized_buffer_d.py:DistributedPrioritizedBuffer._sample_service", "machin/frame/buffers/prioritized_buffer.py:PrioritizedBuffer.sample_index_and_weight"]}
{"id": "C236", "title": "Distributed prioritized sampling draws the transitions of the group in proportion to their priorities", "statement": "When a batch is sampled from a distributed prioritized buffer, the expected number of occurrences of every transition of the group is its priority times a factor common to the whole group.", "quantifier": "all groups, histories of the members, spreads of priorities and batch sizes for which sampling succeeds; expectation over independent uniform draws", "why_tests_cant": "A statement about probabilities for all spreads of priorities over processes; the deviation comes from rounding and needs exact arithmetic to see.", "anchors": ["machin/frame/buffers/prioritized_buffer_d.py:DistributedPrioritizedBuffer.sample_batch", "machin/frame/buffers/prioritized_buffer_d.py:DistributedPrioritizedBuffer._sample_service", "machin/frame/buffers/prioritized_buffer.py:PrioritizedBuffer.sample_index_and_weight"]}
{"id": "C237", "title": "The v-trace targets of IMPALA have the value function of the clipped policy as fixed point", "statement": "If the critic is the value function of the policy clipped at isw_clip_rho, the targets which update() computes for the episodes of the behaviour policy are, on average given the steps before and the state, the values of the states.", "quantifier": "all finite environments whose episodes end, behaviour policies, ratios, clipping constants, discounts and state-dependent weights; expectation over episodes", "why_tests_cant": "An expectation over all episodes a policy can play; a single batch shows neither the average nor the bias of the last step.", "anchors": ["machin/frame/algorithms/impala.py:IMPALA.update"]}
{"id": "C238", "title": "Storing an episode leaves the data of the caller alone", "statement": "Storing an episode given as a list of dictionaries leaves the list and the dictionaries and tensors in it as they were; in particular tensors that are part of a computation graph stay in it.", "quantifier": "all heaps of objects with any sharing, all episodes of dictionaries, transition objects and other items, all required attributes, with and without exceptions", "why_tests_cant": "A test would have to compare object identities and graph membership of the arguments after the call, for every way in which dictionaries are shared between steps.", "anchors": ["machin/frame/transition.py:TransitionBase._detach", "machin/frame/transition.py:TransitionBase.__init__", "machin/frame/buffers/buffer.py:Buffer.store_episode"]}
{"id": "C239", "title": "An episode whose transitions can be built is stored, without computation graphs", "statement": "If every item of an episode that fits into the buffer makes a valid transition, the episode is stored, and no stored tensor holds on to a computation graph; an episode that is refused leaves what can be sampled as it was.", "quantifier": "all heaps, episodes and buffers reached by any history of stores", "why_tests_cant": "Whether deepcopy fails depends on how the tensors of custom attributes were computed; the damage of a failure in the middle of an episode shows only when a full buffer is sampled later.", "anchors": ["machin/frame/buffers/storage.py:TransitionStorageBasic.store_episode", "machin/frame/buffers/buffer.py:Buffer.store_episode", "machin/frame/transition.py:TransitionBase._detach"]}
{"id": "C240", "title": "Episodes of dictionaries and of transition objects are accepted alike", "statement": "store_episode of every algorithm accepts every non-empty episode whose items have the five basic attributes, whether the items are dictionaries or transition objects, and adds the attributes it computes to every item without changing any other.", "quantifier": "all algorithms (DQN, DDPG, SAC and their descendants, A2C and its descendants with every gae_lambda, RAINBOW with every number of steps, IMPALA, GAIL), all episodes of any length that mix dictionaries and objects with any further attributes, all computed values", "why_tests_cant": "Tests store dictionaries of fixed length; mixed episodes, objects that already have some of the computed attributes and failures part way through are not tried.", "anchors": ["machin/frame/algorithms/a2c.py:A2C.store_episode", "machin/frame/algorithms/rainbow.py:RAINBOW.store_episode", "machin/frame/algorithms/impala.py:IMPALA.store_episode", "machin/frame/algorithms/gail.py:GAIL.store_episode", "machin/frame/transition.py:TransitionBase.__setitem__"]}
{"id": "C241", "title": "Prioritized sampling in double precision never draws an empty slot", "statement": "With sums computed in double precision (round to nearest, ties to even), every stratified draw of a prioritized buffer ends at a slot that holds an item, and the tree agrees with the exact sums up to the rounding error.", "quantifier": "all capacities, all sequences of batches of positive double priorities that fill the first slots of the tree, all batch sizes, strata and random numbers; for the positive part every monotone rounding with a relative error", "why_tests_cant": "Tests use few small priorities, for which sums are exact or far from the absolute margin of 1e-6; the empty slot is drawn only for large sums and draws next to the upper end.", "anchors": ["machin/frame/buffers/prioritized_buffer.py:WeightTree.find_leaf_index", "machin/frame/buffers/prioritized_buffer.py:WeightTree.update_leaf_batch", "machin/frame/buffers/prioritized_buffer.py:PrioritizedBuffer.sample_index_and_weight"]}
{"id": "C242", "title": "Sizes computed with floating point numbers are the exact ones", "statement": "The sizes that are computed by dividing floats and rounding up or down (the share of each process in a batch of the distributed buffer, the rollouts of each ARS worker, the number of sequences of an RNN batch, the pooling windows of ResNet) and the depth of the priority tree, computed by a logarithm, are the least sizes that cover all items and the largest that can be filled.", "quantifier": "all numbers of items below 2^53 and all divisors in IEEE double precision; all tree sizes up to 2^47 and all logarithms that are monotone, exact on powers of two and off by at most one unit in the last place", "why_tests_cant": "Tests use small numbers; whether rounding a quotient can lose or add an item depends on the distance to the next integer relative to the precision, for all pairs of numbers.", "anchors": ["machin/frame/buffers/buffer_d.py:_round_up", "machin/frame/buffers/buffer_d.py:DistributedBuffer.sample_batch", "machin/frame/algorithms/ars.py:ARS.__init__", "machin/frame/buffers/rnn_buffers.py:RNNBuffer.post_process_attribute", "machin/model/nets/resnet.py:ResNet.forward", "machin/frame/buffers/prioritized_buffer.py:WeightTree.__init__"]}
{"id": "C243", "title": "No member of a prioritized distributed buffer is asked for more than the batch", "statement": "In double precision, the number of samples every member is asked for is the share of its weight sum in the total, rounded up, and at most the batch size.", "quantifier": "all numbers of members, all non-negative weight sums, all batch sizes; all monotone roundings with a relative error, double precision in particular", "why_tests_cant": "The excess appears only for particular weight sums above 10^9, where 1e-6 is lost in the sum and the product rounds up.", "anchors": ["machin/frame/buffers/prioritized_buffer_d.py:DistributedPrioritizedBuffer.sample_batch"]}
{"id": "C244", "title": "The margin 1e-6 of the distributional target survives rounding", "statement": "In the floating point arithmetic of the code (python numbers in double precision, tensors in single precision), a shifted value at or beyond an end of RAINBOW's support is placed strictly between two neighbouring atoms, so that no index of index_add_ is out of range and no probability is lost at the ends.", "quantifier": "all supports whose ends both precisions represent, all numbers of atoms, all values, batches and distributions; all pairs of monotone roundings with a relative error, double and single precision in particular", "why_tests_cant": "The failures depend on the last bits: a test would have to choose the support and a value at its end, and look at the sum of the target rather than at the loss; for most supports the index is right by luck.", "anchors": ["machin/frame/algorithms/rainbow.py:RAINBOW.update", "machin/frame/algorithms/rainbow.py:RAINBOW.generate_config"]}
{"id": "C245", "title": "Soft updates converge in floating point", "statement": "In the floating point arithmetic of the code (update rate in double precision, parameters in single precision) a target network equal to its source stays equal under soft_update, and repeated soft updates bring the target to within every distance of a fixed source.", "quantifier": "all networks, parameters, update rates in (0, 1), numbers of updates; all pairs of monotone roundings with a relative error, double and single precision in particular", "why_tests_cant": "Tests of soft_update compare with a tolerance and after one call; that the two rounded factors do not add up to 1 and that updates stop changing anything shows only in the last bits and after many calls.", "anchors": ["machin/frame/algorithms/utils.py:soft_update"]}
{"id": "C246", "title": "Bias correction in floating point", "statement": "In double precision the exponent beta of the prioritized buffer never falls, never exceeds 1 and reaches exactly 1 with every positive increment, and the importance weights of every batch are in (0, 1], the largest exactly 1, falling with the priority.", "quantifier": "all initial values in [0, 1], all increments, all numbers of samplings, all batches with positive priorities, all monotone computed powers; all monotone roundings with a relative error", "why_tests_cant": "Reaching 1 takes hundreds of samplings and accumulates one rounding each; that the largest weight is exactly 1 and the order is kept has to hold for all priorities.", "anchors": ["machin/frame/buffers/prioritized_buffer.py:PrioritizedBuffer.sample_index_and_weight"]}
{"id": "C247", "title": "Uniform noise stays in its range in floating point", "statement": "In the floating point arithmetic of the code the uniform noise lies between its bounds as the tensor represents them, for every draw of torch.rand.", "quantifier": "all bounds, all draws (0 to 1 - 2^-24), all ratios and actions", "why_tests_cant": "There are 2^24 draws and the extreme ones decide; a test draws a few and compares a range.", "anchors": ["machin/frame/noise/action_space_noise.py:add_uniform_noise_to_action"]}
{"id": "C248", "title": "Values and advantages in double precision", "statement": "In double precision the discounted values and advantages that A2C (and its descendants) and RAINBOW store differ from the exact ones by a bound that does not grow with the length of the episode; larger rewards never give smaller values; whole rewards without discount give exact values; and for episodes of at most n steps the n-step values of RAINBOW are those of A2C bit for bit.", "quantifier": "all episodes of all lengths, all rewards and critics within bounds, all discounts below 1 (or 1 with whole rewards), all values of gae_lambda; all monotone roundings with a relative error", "why_tests_cant": "Tests compare a few short episodes with a tolerance; that errors do not accumulate over arbitrarily long episodes and that the order is kept exactly needs an induction over all of them.", "anchors": ["machin/frame/algorithms/a2c.py:A2C.store_episode", "machin/frame/algorithms/rainbow.py:RAINBOW.store_episode"]}
{"id": "C249", "title": "Running statistics of ARS in double precision", "statement": "In double precision the sum of squared deviations of a RunningStat is never negative and never falls, the mean stays near the mean of all samples, normalisation keeps the order of states, and if all samples are the same number the mean is this number and the deviation 0, whichever way the estimators of the workers were merged.", "quantifier": "all finite trees of pushes and merges, all samples, all monotone roundings with a relative error", "why_tests_cant": "Tests push random numbers and compare with a tolerance; a constant component with an inexact product needs a particular number and particular counts, and signs and error bounds range over all merge trees.", "anchors": ["machin/frame/algorithms/ars.py:RunningStat.push", "machin/frame/algorithms/ars.py:RunningStat.update", "machin/frame/algorithms/ars.py:RunningStat.var", "machin/frame/algorithms/ars.py:MeanStdFilter.apply_stats", "machin/frame/algorithms/ars.py:MeanStdFilter.filter"]}
{"id": "C250", "title": "Normalised advantages in single precision", "statement": "In single precision the normalised advantages keep the order of the advantages, their average is 0 up to a bound given by the rounding errors, and a batch of equal advantages is normalised to zeros, in whichever order torch adds the elements.", "quantifier": "all batches, all orders of summation, all standard deviations, all monotone roundings with a relative error", "why_tests_cant": "Tests run normalisation inside training on random advantages; a batch of equal advantages whose sum is inexact needs a particular number, and the bounds range over all batches and all orders of summation.", "anchors": ["machin/frame/algorithms/a2c.py:A2C.update", "machin/frame/algorithms/ppo.py:PPO.update", "machin/frame/algorithms/trpo.py:TRPO.update"]}
{"id": "C251", "title": "Callbacks that raise do not lose results", "statement": "Whatever the callbacks given to apply_async and map_async do, once every task has its result get() of every job returns or raises, and the pool can be closed; in particular the callback of one job has no effect on other jobs.", "quantifier": "all histories of submissions, arriving results and tasks that cannot be queued, all callbacks and all exceptions they raise", "why_tests_cant": "Callbacks in tests return; a raising callback ends a background thread, and what follows is a wait without end that a test cannot tell from slowness.", "anchors": ["machin/parallel/pool.py:AsyncResult.set", "machin/parallel/pool.py:MapResult.set", "machin/parallel/pool.py:BasePool._handle_results", "machin/parallel/pool.py:BasePool._submit_task"]}
{"id": "C252", "title": "Every task has its result, however its call ends", "statement": "Whatever a submitted call does (returns something that cannot be serialized, raises an exception that cannot be serialized or rebuilt, leaves the interpreter), once its task was taken by a worker a result for its job and chunk arrives and is handed to the job; and an initializer that raises is reported.", "quantifier": "all lists of tasks, all ways their calls end, any number of workers, all histories of rounds and replacements, all limits of tasks per worker", "why_tests_cant": "Tests submit calls that return or raise ordinary exceptions; a lost result shows only as a wait without end.", "anchors": ["machin/parallel/pool.py:BasePool.worker", "machin/parallel/pool.py:BasePool.maintain_pool", "machin/parallel/pool.py:BasePool._handle_results"]}
{"id": "C253", "title": "The exploration rate falls with every decaying call", "statement": "In double precision, with a decay strictly between 0 and 1, every call of the noisy action function that decays the exploration rate makes it smaller, and it stays close to the starting rate times the power of the decay.", "quantifier": "all representable decays and starting rates, all numbers of calls, all draws", "why_tests_cant": "A test makes a few thousand calls; the rate stops falling only after millions, at numbers far below anything a test prints.", "anchors": ["machin/frame/algorithms/dqn.py:DQN.act_discrete_with_noise", "machin/frame/algorithms/rainbow.py:RAINBOW.act_discrete_with_noise"]}
{"id": "C254", "title": "The world is constructed and stopped properly", "statement": "A construction of the world that fails leaves nothing behind, so it can be repeated; at most one world is ever made; stopping it a second time raises the error that is there for it; the world has the rank and the size of the process, also when they are not specified; and all processes agree on the manager of the tables.", "quantifier": "all histories of constructions and stops, all arguments, all answers of torch, all orders of the worker infos", "why_tests_cant": "Tests construct one world per process with explicit arguments and never stop it twice or retry.", "anchors": ["machin/parallel/distributed/_world.py:_world_singleton", "machin/parallel/distributed/_world.py:World.__init__", "machin/parallel/distributed/_world.py:World.stop", "machin/parallel/distributed/_world.py:get_cur_rank"]}
{"id": "C255", "title": "The adaptive noise deviation follows the distances in double precision", "statement": "In double precision, with a coefficient above 1, every distance above the desired one makes the deviation of the parameter noise smaller and every other distance makes it larger, and after any history it is close to the exact one.", "quantifier": "all representable coefficients and deviations, all histories of distances", "why_tests_cant": "Tests adapt a few times near the initial deviation; the numbers at which the rule breaks need tens of thousands of adaptations.", "anchors": ["machin/frame/noise/param_space_noise.py:AdaptiveParamNoise.adapt"]}
{"id": "C256", "title": "A class in any frame of the call stack can be named", "statement": "A model given by a string without dot is the class of models that is a global of this name in some frame of the call stack; a name that no frame defines is refused. For optimizers and schedulers the module of torch is asked first.", "quantifier": "all call stacks, all globals of their frames, all names", "why_tests_cant": "Tests define each class once, in the test file; a second global of the same name in another frame does not occur.", "anchors": ["machin/frame/algorithms/utils.py:get_globals_from_stack", "machin/frame/algorithms/utils.py:assert_and_get_valid_models", "machin/frame/algorithms/utils.py:assert_and_get_valid_optimizer"]}
{"id": "C257", "title": "An importable class can be named by its path", "statement": "A dotted name foo.baz.model gives the object model of the module foo.baz whenever this module can be imported; the parts of the name are what stands between its dots, and only the package and what it loads is loaded.", "quantifier": "all file systems of modules, all histories of imports, all names", "why_tests_cant": "Tests name classes of modules that the test process has already imported.", "anchors": ["machin/frame/algorithms/utils.py:safe_import", "machin/frame/algorithms/utils.py:assert_and_get_valid_models"]}
{"id": "C258", "title": "The Ornstein-Uhlenbeck noise returns to its mean in single precision", "statement": "In single precision a call without noise brings the value closer to the mean, the values stay in a band around the mean for bounded draws, and the distance from the exact process with the same draws stays bounded over all histories.", "quantifier": "all parameters, all starts, all sequences of bounded draws", "why_tests_cant": "Tests look at the shape of a few draws; the rounding away of the pull and the error after long runs need numbers and lengths no test has.", "anchors": ["machin/frame/noise/generator.py:OrnsteinUhlenbeckNoiseGen.__call__"]}
{"id": "C259", "title": "The end of parameter noise", "statement": "Calling the function that perturb_model returned ends the perturbation: the model has its own parameters again, and later passes leave them alone; steps of the optimizer change these parameters.", "quantifier": "all sequences of forward passes, backward passes and optimizer steps, before and after the end, all noises", "why_tests_cant": "Tests call the returned function once at the end and do not look at the parameters afterwards.", "anchors": ["machin/frame/noise/param_space_noise.py:288-293"]}
{"id": "C260", "title": "Reported schedulers belong to the reported optimizers", "statement": "lr_schedulers reports every scheduler of the algorithm once and nothing else, and the scheduler at position i is that of the optimizer at position i of optimizers.", "quantifier": "all algorithms, all scheduler arguments, all numbers of agents, sub-policies and steps", "why_tests_cant": "Tests read neither list; the launcher plugins hand both to the trainer, and the orders can only be compared for all numbers of agents.", "anchors": ["machin/frame/algorithms/maddpg.py:308-326", "machin/frame/algorithms/gail.py:184-198", "machin/frame/algorithms/sac.py:186-217", "machin/auto/pl_plugin.py:75-81"]}
{"id": "C261", "title": "Pictures are shown with their brightness", "statement": "show_image shows every pixel with its brightness (the number itself for floats from 0 to 1, the number over 255 for integers) and, if asked, a second panel with the same picture stretched to the full range, in which different numbers look different.", "quantifier": "all pictures in the documented ranges, grey or in colour", "why_tests_cant": "A test can only see that a window opens; what is in it is not looked at.", "anchors": ["machin/utils/media.py:10-51"]}
{"id": "C262", "title": "Videos written by another process", "statement": "Once the function returned by create_video_subproc has returned, the file holds the frames of the list at the time of the call; also without calling it the file is written in the end; the list of the caller is not changed.", "quantifier": "all histories of calls, changes of lists, waits, ends of children in any order and the end of the caller", "why_tests_cant": "Tests start one child, wait for it and look whether the file exists; children that fail, callers that end first and several children at once are not tried.", "anchors": ["machin/utils/media.py:100-147", "machin/utils/media.py:176-221"]}
