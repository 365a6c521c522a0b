# A Lean 4 model of iffiX/machin: design

## 1. What is here

* `properties.jsonl` - the semantic properties (C01, C02, ...).
* `lean/Verif/<Area>/Model.lean` - the model: one Lean definition per Python function, with a comment citing
  file and lines in `/repo`. Exceptions are values, loops are folds or structural recursion, random draws, clocks,
  neural networks and RPC transport are parameters.
* `lean/Verif/<Area>/Spec.lean` - small specifications that do not use the model's helpers (where the statement
  needs one).
* `lean/Verif/<Area>/Lemmas.lean` - helper lemmas.
* `lean/Verif/<Area>/Props.lean` - the property theorems only, each followed by an `example` that a concrete,
  non-trivial case meets its hypotheses.
* `MANIFEST.json` - property -> theorems. `seeded/LOG.jsonl` - mutation experiments on the model.

## 2. Trusted base

* Lean 4.33.0's kernel, and the axioms `propext`, `Classical.choice`, `Quot.sound` (nothing else; checked with
  `#print axioms`).
* The reading of the Python source: nothing ties the model to the code but the cited lines. The code was not run.
* Semantics assumed of the environment: CPython dictionaries keep insertion order; `OrderedDict`, `deque`, list
  slicing, `divmod`, `//`, `%`, `^` and operator precedence as documented; a `threading.Lock`-protected block is
  atomic; an RPC either executes its target once or raises.
* Arithmetic: floats are replaced by exact rationals (or an arbitrary linearly ordered field where that costs
  nothing). Rounding is outside the model, except in C241 to C244 (priority tree, sizes, shares, distributional target).
* Not modelled: tensor contents beyond what a property needs (shape[0] of a tensor, its identity), autograd, devices,
  serialisation, logging, real time, OS processes and signals.

Assumptions made per area, in addition to those above:

* Prioritized buffers: numpy assignment through repeated indexes keeps the last value; `ceil(log2(n))` is exact; `random.sample`,
  `random.choices`, `random.randint`, `np.random.uniform` keep their contracts; `_normalize_priority` returns positive numbers; `np.power` is
  positive and antitone in its exponent's sign; division by a total weight of 0 gives nan in numpy and 0 in the model (never with stored
  transitions of positive priority); `uint64` versions do not wrap; the body of a service is atomic under the lock of its member.
* Transitions: a tensor is a shape and a label; `np.isscalar` is the constructor `scalar`; attribute names do not collide with names the
  class itself uses; the iteration order of the set of custom attributes is a parameter. C21 assumes a constructed object although the
  class cannot be constructed (C65).
* Servers: requests are atomic under the server lock; `deepcopy` returns an equal value; queue operations are atomic and the waiting
  condition of the reducer is read in one step; gradients are added componentwise in a commutative monoid.
* Pools: methods of result handles are atomic; one consumer per `imap`; a worker puts one result per task; pickling turns
  `ExceptionWithTraceback` into the exception, `queue.SimpleQueue` does not; the iteration order of `need_ids` is arbitrary.
* World: one thread per process calls group methods; table operations of the manager are atomic under `lut_lock`; one group name; calls on
  a destroyed group object are modelled for C231 only; the barrier is used once in C38, again and again in C230; `Event.wait` returns when notified even if the flag is cleared
  right after. Events: a composite `is_set` reads all flags in one step. Finalizers: one process, no run-all function.
* Config/Load: `deepcopy` is the identity on immutable values; names are character lists and only names without double underscore reach
  the attribute logic; shape mismatches in `load_state_dict` are modelled for C227 only; `int()` accepts leading zeros.
* Learning algorithms: exact arithmetic; networks, critics, optimizers and losses are given functions; one number per tensor where all
  operations are elementwise; `zip` truncates. IMPALA: items are distinct objects, one row per step. ARS: one tensor component, nan is
  `none`. TRPO: `expand_as` views show the current value of the parameter, `t.cat` copies; loss and outputs are functions of the
  parameters (no dropout). Noise: draws are parameters (`t.rand` in [0,1)), `set_` shares storage, at least one backward hook fires.
  MADDPG: networks act row by row, the thread pool is `map`, gradient steps are not modelled.
* Environment wrappers: indexes are natural numbers, reward and info are part of the observation, workers do not die, the interleaving
  of workers and master is an arbitrary schedule.

## 3. Plan per property

| id | model | proof |
|---|---|---|
| C01 | `storage.py` ring storage: data list + write index; `store_episode` as a fold | invariant relating the data to the history of stored transitions (slot p holds the newest item with number = p mod N); induction over episodes |
| C02 | `Buffer.store_episode` with both dictionaries as association lists | refinement: live episodes = episodes of the history none of whose numbers was overwritten; induction over histories |
| C03 | the three sample methods; the RNG result is a parameter constrained by the library contract (`random.sample`: sub-permutation, `random.choices`: members) | corollary of the C02 invariant |
| C04 | error branches of `store_episode` in execution order (mutation before the check) | negation by witness for the too-long case; `_partial` for the other two errors |
| C05 | `clear` | negation by witness; `_partial` for what does hold |
| C06, C07 | flattened tree: weights as one array, offsets, `index ^ (1+offset)` precedence | tree invariant over levels, induction over update histories |
| C08 | `find_leaf_index` descent | induction over levels with prefix sums |
| C09, C10 | bounds checks, cached maximum | negation by witness + `_partial` |
| C11, C12 | `sample_index_and_weight`, scalar special cases of the tree API | C08 plus invariant "leaf weight 0 outside storage"; negation for batch size 1 |
| C13 | curr_beta update | induction over calls |
| C14 | importance weights, `np.power(., -beta)` as an arbitrary positive antitone function | ordered field reasoning |
| C15 | prioritized store + sample | negation by witness; `_partial` for histories where nothing is partially overwritten |
| C16 | version table; operations store/sample/update/clear interleaved | invariant over histories without clear; negation with clear and for the RNN variant |
| C17 | slicing in `update_priority` | list lemma |
| C18 | ceil arithmetic | rational ceil bounds |
| C19 | group of member buffers | C03 per member + concatenation; negation for the empty default case |
| C20 | RNN sample methods | slices of live episodes from C02 |
| C21 | RNN prioritized store/sample | negation by witness (wrap), `_partial` for non-wrapping episodes |
| C22 | Transition with values abstracted to "scalar / tensor with leading size / other" | invariants; negations |
| C23 | `post_process_batch` attribute selection | list induction |
| C24, C25 | ordered server state machine | invariant over request histories; refinement to an append-only log; negation for the documented depth |
| C26 | clients + server | invariant over interleavings |
| C27 | reducers with two queues each, gradients as an additive group | conservation invariant |
| C28-C31 | result objects, cache, chunking | permutation-independent characterisation of the slice writes; induction over deliveries; negation for empty imap |
| C32 | `Pool.apply_async` | negation + `_partial` for the base class |
| C33, C34 | repopulation | invariant over exits; negation for P2P |
| C35-C37 | manager tables + per-process tables | invariants over interleavings; negation for the service purge |
| C38 | small-step barrier protocol | safety invariant for all group sizes; negation of liveness (lost wakeup) |
| C39 | small-step events | negation; `_partial` |
| C40 | finalizer registry | invariant |
| C41, C42 | Config/Object attribute semantics | negation; merge law |
| C43, C44 | directory listing as list of names | selection law; negation for default version |
| C45 | schedule function | negation before the first boundary, `_partial` after |
| C46-C49 | return, GAE, n-step and projection recursions over rationals | induction; negations |
| C50, C51 | IMPALA buffer and v-trace | from C02; list induction |
| C52-C54 | Welford statistics, filter, partition | field arithmetic, induction |
| C55 | parameter vectors | induction |
| C56 | dictionary merge order | negation, `_partial` |
| C57, C58 | wrapper with result queue | induction; negation |
| C59, C60 | line search with abstract loss/KL; flat parameters | induction |
| C61 | optimizer lists | negation |
| C62 | hook state machine | negation, `_partial` |
| C63 | noise functions with draws as parameters | negation, proof for uniform |
| C64 | argument filtering | negation, `_partial` |
| C65, C66 | constructor argument binding; store of the distributed prioritized RNN buffer | enumeration of classes; negation |
| C67, C68 | wrapping of calls and exceptions by pool class | computation per class, all arguments; negation |
| C69-C74 | finalizers on garbage collection, counter/trigger, n-step target, load of SAC/TD3, environment configuration | negation or induction |
| C75-C77 | Fisher information, conjugate gradients, update settings | derivatives over the reals; linear algebra invariant; negation |
| C78-C81 | backward hooks, Ornstein-Uhlenbeck recurrence, adaptive noise, normal noise | induction; negation |
| C82 | compiled call branch of `safe_call` | negation, `_partial` |
| C83-C87 | MADDPG targets, loss, return value, shared memory, buffer alignment | negation; invariant over histories |
| C88 | prioritized store/update on reachable buffers | leaf-by-leaf description of the batch update plus C02 handles |
| C89 | importance weights of two members | negation; formula per member |
| C90 | order of storing and checking | negation; `_partial` |
| C91, C92 | DQN targets per mode, epsilon-greedy choice | row-wise description; induction over calls |
| C93, C97 | policy losses, priorities of DDPGPer/DQNPer | negation; `_partial` |
| C94-C96 | targets of DDPG, TD3, SAC, HDDPG; entropy weight | order reasoning on rationals; induction over updates |
| C98, C103, C105 | softmax noise, clipped surrogate, normalisation, over the reals | real analysis; negation for batches (C98) and single rows (C105) |
| C99-C102 | schedulers, class look-up, configurations of all algorithms | tables per algorithm, induction over calls; negation, `_partial` |
| C104 | PPO's temporary actor | heap model with object identities, induction over iterations; negation after exceptions |
| C106, C107 | GAIL's discriminator and expert episodes | induction over updates; negation, `_partial` |
| C108-C110 | gradient server helper, late-bound creators, which reducers run | induction over the zipped lists; invariant over all interleavings of the C24-C27 system; negation |
| C111 | A3C's update | computation over all gradient lists; negation, `_partial` |
| C112, C113 | process, thread, spawn plugin | cases and induction over call sequences; clock functions; negation, `_partial` |
| C114, C115 | module selection and hooks of check_model | invariants of the listing loop; negation, `_partial` |
| C116-C118 | size estimate, device choice, placement | exact rationals, nan as `none`; negation, `_partial` |
| C119, C120 | SimpleQueue, MultiP2PQueue | invariant over all interleavings; negation, `_partial` |
| C121-C126 | gym datasets and their creation | relation of played episodes, induction over steps and items; negation, `_partial` |
| C127-C129 | launchers | induction over batches and logs, using C03 and C05 for the on-policy algorithms; negation, `_partial` |
| C130-C134 | local logger, video log, pictures | injectivity of decimal numbers, pigeonhole principle, exact rationals; negation, `_partial` |
| C135, C136 | trial directories | induction over the listing, integer arithmetic; negation, `_partial` |
| C137 | concatenation of sampled batches | induction over the items and lists of lists, slices of concatenations; negation, `_partial` |
| C138 | targets on whole batches | broadcasting by positions, decomposition of sums of squares; negation, `_partial` |
| C139 | creation of RPC groups | invariant over all interleavings of atomic steps, progress by induction over members; negation, `_partial` |
| C140-C142 | noisy and distributed acting | case analysis over modes and methods, broadcasting by positions; negation, `_partial` |
| C143 | greedy actions | first maximum of rows, convex combinations |
| C144 | perturbed networks and their names | printing and parsing of decimal numbers, `mapE` by positions, partition of the rollouts (C54) |
| C145 | selection of rollouts | the percentile separates like an order statistic, counting in sorted lists; negation, `_partial` |
| C146 | the step of ARS | closed form of the update by `mapE`, selection as a filter, sums over the used rollouts |
| C147 | units of the reward | affine maps commute with averages, maxima, counting and deviation; negation, `_partial` |
| C148 | acting in ARS | induction over the state with distinct keys; negation with two calls, `_partial` |
| C149 | backward function | the backward passes of a run are those written in the program; negations, `_partial` |
| C150 | optimizer steps | update methods as programs over parameters, gradients, optimizers and versions; symbolic execution with lemmas for the training block |
| C151 | schedules of MADDPG | statements of other agents commute (frame and locality lemmas), invariant of the pool; negation by schedules, `_partial` |
| C152 | target of the common critic | from C151; negation, `_partial` |
| C153 | importance weights | broadcasting model of C138, double sums; negation, `_partial` |
| C154 | residual blocks | shapes through convolutions, induction over blocks |
| C155 | ResNet | exact characterisation of the networks that work |
| C156 | command line | splitting at signs, dictionary of last values |
| C157 | configuration files | trees of Python and JSON values, sameness along all paths, mutual induction |
| C158 | noise adjustment | state machine of the hook against a stateless pairing of neighbours |
| C159 | Fisher-vector products of TRPO | second derivatives over the reals for arbitrary C2 actors; exact difference of the modes; negation |
| C160 | clearing directories | flat file system with prefix order, exact law of what remains |
| C161 | trial directories | growth relation of file systems, makedirs by recursion on the path |
| C162-C164 | seed, render and close of wrappers | invariant of the result queue under all schedules (shared with C57); negations |
| C165 | call binding of python, tables of constructors and generated keys | evaluation of the tables for symbolic settings and any further keys |
| C166 | the same | induction over positional parameters |
| C167 | the same | a closed predicate on values through all constructors |
| C168 | first lines of init_frame | cases |
| C169 | roles by rank | cases, counting over ranks |
| C170 | constructors as lists of steps (set attribute, register service, pair accessor); requests between any two steps | violated by the order of the steps, witnesses at every moment; general criterion (iff) by list induction |
| C171 | programs of the processes over the tables of `World`, ideal barrier, any schedule | invariant over schedules with the refinement of the tables; measure for progress |
| C172 | sorting and indexing of ranks, messages in flight, waiter of `irecv` | index = number of smaller ranks by induction; source by inversion of the numbering |
| C173 | events of a call: services served once per member between other operations | split of the events at the moment of service |
| C174 | interleaved steps of user, worker handler, result handler, workers | invariant over histories; measure for the existence of an end |
| C175 | default chunk size over the states of C174 | concrete witness; least ceiling by arithmetic, length of the list by invariant |
| C176 | iterator with condition variable: waiters, notified threads, steps | concrete witnesses; invariant for one consumer and for the unordered iterator |
| C177 | effects of `update` as lists; optimizers as identities in slots; getter and setter lists of slots | concrete witnesses; induction over effects for the others |
| C178 | lists of networks and of top models | concrete witness; case analysis, membership for MADDPG |
| C179 | effects `draw` with the set `_visualized`, over histories | concrete witness; invariant over the effects |
| C180 | modes after an interleaving of tasks | the last effect of a run on a network is the last of its task |
| C181 | mode before every backward pass | concrete schedule; a network with one owner has the mode its owner gives it |
| C182 | uniform draws as parameters, result j as a function of draw j | inverse image of a leaf as an interval per stratum; telescoping sum of clamped lengths |
| C183 | `norm` as a parameter, cached maximum of the tree | invariant: the cached maximum bounds the leaves; concrete witness |
| C184 | tree of modules, device of each parameter | relational spec of the chain of input modules; concrete witness |
| C185 | the same, moving as an update of the placement | induction over the chain |
| C186 | model state with the frozen device, history of moves and calls | invariant of the frozen device; concrete witness |
| C187 | heap of objects with addresses, deep copy and move in place | simulation by a storage of values; separation invariant between objects of the caller and of the storages |
| C188 | generated settings as texts per framework, defaults of constructors | finite table lifted to all keys; exact list of deviations |
| C189 | dictionaries and `Config` objects, the three generators | exact lookup of the result for every given dictionary |
| C190 | assertions as exceptions | lookup characterisation; counterexample for `Config` |
| C191 | generators followed by `launch` | composition of the exact results of the three generators |
| C192 | the loop of `store_episode` | telescoping sum of errors, induction on the number of terms of the mixture |
| C193 | sequences of updates of a framework with a target | induction on the updates, geometric bounds, archimedean limit |
| C194 | calls of the generator | induction on the draws; moments by linearity of an abstract expectation |
| C195 | importance weights of a batch | algebra of the weights over all reachable buffers |
| C196 | pickling objects with tensors by value or by reference, a queue between processes | lemmas on the memo of the pickler and rebuilding; induction on histories |
| C197 | calls of functions with captured tensors and arguments through a pool | negation by a function that writes to its argument; storages a body can reach |
| C198 | constructors of the five pool classes | negation by witnesses, exact table |
| C199 | constructors and start of workers | negation by witnesses, exact conditions |
| C200 | infinite fair schedules of a pool | rank that a recurring helpful step decreases; invariant of C174 |
| C201 | targets of an episode and of a batch | induction on the distance to the last step; recursion of the formula |
| C202 | targets of DQN on tables of zero loss, targets of DDPG, TD3 and SAC | contraction of the maximum; induction on rounds and on paths |
| C203 | construction and stopping of the world object, roles by rank | negation by a launched process without given rank and by a failed start; exact result with given ranks |
| C204 | group objects that were pickled, calls of functions and services | negation; look-ups by the refinement of C36; case analysis |
| C205 | full step of TRPO | span of the directions is the Krylov space; Cauchy-Schwarz for the curvature |
| C206 | epsilon-greedy actions of a batch | count of outcomes, bijection of actions |
| C207 | default hooks of the checker over a forward pass | negation by an integer input; induction on the calls for nonempty float tensors |
| C208 | training steps of all processes with reductions and barriers | negation by different numbers of batches; invariant that remaining groups agree, for all schedules |
| C209 | connection to pytorch lightning | negation by a given size; case analysis |
| C210 | flat gradient, flat parameters | induction on the parameters, uniqueness of a model with given shapes and flat values |
| C211 | joint states and actions, shared batches | induction on the agents and keys |
| C212 | update of ARS over named parameters | the change of a linear function under the update; sums of squares |
| C213 | targets on a transition | monotonicity of the target in the next value; fixed point of the bound |
| C214 | outcomes of `random.choices` and `random.sample` | fibres of the outcome at a place have equal size; refinement of C01 to C03 |
| C215 | outcomes of draws of episodes and starts | product of fibres, residues modulo a divisor; exact result of the sampling loops |
| C216 | `_sample_service` of the prioritized RNN class, loop over the answers | induction over the answers; refinement of C17 to windows; witness |
| C217 | stores of the distributed RNN class, versions | versions are an invariant of all operations; witness |
| C218 | `sample_batch` of a group of uniform RNN buffers | composition of C20 over the members |
| C219-C222 | gradients of the losses of A2C, PPO, TRPO and IMPALA | derivatives along lines of parameters; the slopes of a policy sum to zero |
| C223, C224 | optimum of the discriminator of GAIL and of the policy of SAC | convexity through `log x ≤ x - 1`; sums regrouped by frequency |
| C225 | loss and priorities of RAINBOW | cross entropy with the `1e-6` shift bounded by Gibbs' inequality; lost rows from C49; witness |
| C226 | models of samplers | invariant over steps of all clients: a pulled model is one accepted push; steps of others leave a client alone |
| C227 | loading of state dictionaries | entry-wise lookup; success iff names and shapes agree; witness of a mixture |
| C228 | Steps of the managed model of a gradient server are averages (sums) of batch_size² pushes, none used twice | The run is repeated with every value paired with the numbers of the pushes it is made of; both projections are runs (homomorphism of the whole system), invariants per queue level, C27 for the numbers |
| C229 | cost of a placement of models on devices | connection cost as an expectation over independent placements (product of marginals), exact affine change in one probability, zeros of the other terms |
| C230 | repeated barrier with ghost counters of calls and returns | two witnesses; invariant with counts of releases; permanent loss of a wake-up as an invariant; explicit calm continuation otherwise |
| C231 | group objects of a process with `destroyed` flags and the entry of `WORLD.groups` | witnesses with copies; invariant of histories without copies; exact outcome by cases |
| C232 | average over the episodes of a finite environment, by recursion over steps; the values and advantages of `Returns` | both computations give every step a number that depends on the rest of the episode; induction over the horizon with arbitrary weights of the past |
| C233 | the losses of C219 on the rows of an episode | policy gradient theorem by induction over the horizon, C232 for the estimates, baselines vanish; negation with two steps that share a parameter |
| C234 | `Dist.sampleBatch` with outcomes of the generators of all members | C214 for every member, averages over a product of outcomes; negation with one and two transitions |
| C235, C236 | `groupSample`: both rounds of calls; histories `DReach` of a member | invariant of the histories, answers of the services by the number asked for; intervals of the draws as in C182; negations with concrete groups |
| C237 | `Impala.vtrace`, `Impala.advantages` on the episodes of C232 | recursion of the targets from C201, induction over the length of the episodes; negation with a single step |
| C238, C239 | heap of objects with addresses and graph membership; `Transition(**d)`, `_detach`, the loop of `store_episode`, copies that may fail | relation of heaps (exactly the dictionaries in a set have their entries exchanged), transitive, induction over items and episodes; buffers from C02; negations with concrete heaps |
| C240 | `prepare`: reads and assignments of every `store_episode` in order, on dictionaries and objects | accesses that are safe (every read finds a basic attribute or one written before) end well exactly if no object refuses; induction over accesses; negations with concrete episodes |
| C241 | the tree with every operation followed by a rounding; double precision as rounding to nearest even with unbounded exponent | invariant of the rounded tree (a copy of that of C06), induction over the levels of the descent with growing slack; rounding to nearest proved monotone, idempotent, with relative error `2 ^ -p`; negation by kernel computation in double precision |
| C242 | sizes computed through float quotients and logarithms | error below the distance of a quotient to the next integer; 2^x ≤ 1 + x |
| C243 | shares of the members in double precision | error factors through sum, product and quotient; counterexample by computation |
| C244 | RAINBOW's projection with double precision scalars and single precision tensors | error factors through clamp, distance, quotient and the two `index_add_`; counterexamples by kernel computation |
| C245 | `soft_update` with a double precision rate and single precision parameters | error factors through the two rounded factors, contraction with an additive term, induction on the updates |
| C246 | beta and importance weights in double precision | monotone rounding, induction on the samplings |
| C247 | uniform noise in single precision | a draw below 1 makes every rounded width strictly smaller; single precision numbers are double precision numbers |
| C248 | values and advantages in double precision | error recursion with a contraction, induction over the reversed episode; monotone rounding; integers below 2^53 are exact |
| C249 | running statistics of ARS in double precision | trees of pushes and merges; monotone rounding for signs and bounds; error recursion weighted with the number of samples; witnesses computed |
| C250 | normalised advantages in single precision, any order of summation | summation trees, error induction over the depth; scaling by powers of 2 for the unbounded counterexample |
| C251 | callbacks of pools that raise | handles with outcomes of callbacks; simulation of the pool of C28-C32 seen from one job; invariants after the thread has ended |
| C252 | workers and the reader of results, calls that end in any way | state machine of queue and workers over all histories; split invariant; composed with the routing of C31 |
| C253 | exploration rate in binary64 with gradual underflow: strict fall while normal, error against the power of the decay, the positive constant it ends at | rounding to a grid below 2^-1022, gap between neighbouring numbers, antitone sequences of multiples of 2^-1074 |
| C254 | life of the world: singleton, constructor, stop, rank, manager of the tables | one process with the state of torch (process group, rpc agent), histories of constructions and stops |
| C255 | adaptive noise deviation in binary64: direction of every adaptation, error after any history, numbers from which it cannot move | gap between neighbouring floats, one-step error lemma, induction over histories |
| C256 | names looked up in the globals of the call stack | globals of frames as ordered dictionaries, fold over the stack; the outermost meaning decides, exact condition for success |
| C257 | dotted names | split at dots with its inverse; import system with disk, loaded modules and bindings; exact condition on the loaded submodules by induction over the path |
| C258 | Ornstein-Uhlenbeck process with rounding after every operation | relative errors of the parts of a step, contraction towards the mean, invariants over all histories of draws |
| C259 | the end of parameter noise | model with a flag for registered hooks; invariants of C62; induction over uses after the end |
| C260 | schedulers and optimizers reported | attributes by slot, blocks reported together; lists compared position by position; MADDPG for all numbers of agents by induction |
| C261 | showing a picture | panels as lists of rationals, imshow of matplotlib written out; bounds of the picture, exact condition for the first panel |
| C262 | pictures and videos written by other processes | transition system of caller, children and files; invariants over all histories; frames of a child fixed at its start |

## 4. Where the code disagrees with its documentation or with the property

Every entry is proved in Lean: the theorem named `Cxx_violated` (or the one given) is the negation with a concrete witness.

* **C04 - A rejected store leaves the buffer unchanged** (machin/frame/buffers/buffer.py:Buffer.store_episode, machin/frame/buffers/storage.py:TransitionStorageBasic.store_episode). Violated by the code for episodes longer than the capacity (C04_violated: data is overwritten before the ValueError); C04_rejected_store_partial covers empty episodes and invalid items. Theorems: `C04_violated`.
* **C05 - clear() leaves an empty buffer that behaves like a new one** (machin/frame/buffers/buffer.py:Buffer.clear, machin/frame/buffers/storage.py:TransitionStorageBasic.clear, machin/frame/algorithms/a2c.py:A2C.update). Violated by the code: clear() keeps the handle dictionaries, so every sample after clear raises IndexError (C05_sample_after_clear_fails, C05_violated). C05_clear_partial: size and ring storage behave like new. For rounds of stores with a clear after each (the on-policy algorithms) the exact condition: sampling gives the last round if and only if every earlier episode began before the end of some later round (C05_rounds_partial, C05_violated_rounds); one episode per update and growing rounds are safe (C05_single_partial, C05_growing_partial). Theorems: `C05_sample_after_clear_fails`, `C05_violated`, `C05_violated_rounds`.
* **C06 - Priority tree: every inner node is the sum of its children, the root is the sum of all leaves** (machin/frame/buffers/prioritized_buffer.py:WeightTree.update_leaf, machin/frame/buffers/prioritized_buffer.py:WeightTree.update_leaf_batch, machin/frame/buffers/prioritized_buffer.py:WeightTree.update_all_leaves). update_leaf on a tree of size 1 raises (C06_update_leaf_size_one_fails); all other sizes and histories proved. Theorems: `C06_update_leaf_size_one_fails`.
* **C09 - An out-of-range leaf index is rejected without changing the tree** (machin/frame/buffers/prioritized_buffer.py:WeightTree.update_leaf, machin/frame/buffers/prioritized_buffer.py:WeightTree.update_leaf_batch). Violated by the code: update_leaf accepts index == size (C09_violated). C09_out_of_range_partial: every other out-of-range index is rejected without touching the tree, and update_leaf_batch rejects all of them. Theorems: `C09_violated`.
* **C10 - get_leaf_max is the current maximum leaf weight** (machin/frame/buffers/prioritized_buffer.py:WeightTree.get_leaf_max, machin/frame/buffers/prioritized_buffer.py:WeightTree.update_leaf, machin/frame/buffers/prioritized_buffer.py:WeightTree.update_leaf_batch). Violated by the code: the cached maximum is never lowered by single or batch updates (C10_violated). C10_leaf_max_partial: it is an upper bound, exact right after a full rebuild. Theorems: `C10_violated`.
* **C12 - Every positive batch size can be sampled from a non-empty prioritized buffer** (machin/frame/buffers/prioritized_buffer.py:PrioritizedBuffer.sample_batch, machin/frame/buffers/prioritized_buffer.py:WeightTree.find_leaf_index). Violated by the code for batch size 1 (C12_batch_of_one_fails: TypeError for every reachable buffer; C12_violated). C12_every_batch_size_partial covers all other sizes. Theorems: `C12_batch_of_one_fails`, `C12_violated`.
* **C15 - Prioritized sampling never returns a transition of an evicted episode** (machin/frame/buffers/prioritized_buffer.py:PrioritizedBuffer.store_episode, machin/frame/buffers/prioritized_buffer.py:PrioritizedBuffer.sample_batch). Violated by the code: priorities of evicted transitions are not zeroed (C15_violated). C15_sampled_stored_partial: sampled items are always among the newest N stored, and are live until the first overwrite. Theorems: `C15_violated`.
* **C16 - Distributed priority updates never touch an entry overwritten since it was sampled** (machin/frame/buffers/prioritized_buffer_d.py:DistributedPrioritizedBuffer._update_priority_service, machin/frame/buffers/prioritized_buffer_d.py:DistributedPrioritizedBuffer.store_episode, machin/frame/buffers/prioritized_buffer_d.py:DistributedPrioritizedBuffer.clear). Violated by the code: versions restart after clear (C16_violated), a store rejected for its length (C16_violated_too_long) or with too few priorities (C16_violated_short_priorities) overwrites entries without a version bump. C16_versioned_update_partial covers all histories of legal stores, samplings and updates. C16_marks_partial covers all histories whatsoever with the exact condition: an entry is changed exactly if it has as many marks since the last clear as it had when it was sampled. Theorems: `C16_violated`, `C16_violated_too_long`, `C16_violated_short_priorities`.
* **C19 - Distributed uniform sampling returns live transitions only and honours the documented size and empty result** (machin/frame/buffers/buffer_d.py:DistributedBuffer.sample_batch, machin/frame/buffers/buffer_d.py:DistributedBuffer._sample_service). Violated by the code when all members are empty and sample_attrs is None (C19_violated: IndexError). C19_distributed_uniform_partial covers every other case. Theorems: `C19_violated`.
* **C21 - Prioritized RNN sampling returns contiguous windows of one stored episode** (machin/frame/buffers/rnn_buffers.py:RNNPrioritizedBuffer.sample_batch, machin/frame/buffers/rnn_buffers.py:RNNPrioritizedBuffer.store_episode). Violated by the code: windows across two short episodes when all priorities are 0 (C21_violated), IndexError for an episode stored across the end of the ring (C21_violated_wrap). C21_prioritized_rnn_windows_partial covers positive total weight and positive draws, with IndexError possible only after wrap-around. The class cannot be constructed at all (C65); the model assumes a constructed object. Theorems: `C21_violated`, `C21_violated_wrap`.
* **C22 - A transition object always satisfies its documented shape rules** (machin/frame/transition.py:TransitionBase.__setitem__, machin/frame/transition.py:TransitionBase.__setattr__, machin/frame/transition.py:TransitionBase._check_validity). Violated: __setitem__ stores the value before checking it, so a rejected assignment leaves an invalid transition (and every later assignment fails); __setattr__ accepts and discards values. Proved: construction succeeds exactly for batch size 1 data, sequences without item assignments rejected by the checks keep validity, accepted item assignments are visible, unknown names change nothing. Theorems: `C22_violated`, `C22_violated_poisoned`, `C22_violated_attribute`, `C22_violated_terminal`.
* **C25 - Ordered server: a pull returns the newest accepted value, or exactly the requested retained version** (machin/parallel/server/ordered_server.py:OrderedServerSimpleImpl._push_service, machin/parallel/server/ordered_server.py:OrderedServerSimpleImpl._pull_service). Violated: one version more than documented is retained (with depth 1 the version before the newest is still served). Proved with depth+1 in place of depth, and that pull without version returns the newest accepted value. Theorems: `C25_violated`.
* **C31 - Every result is delivered to the job that requested it, once** (machin/parallel/pool.py:BasePool._next_job_idx, machin/parallel/pool.py:BasePool._handle_results, machin/parallel/pool.py:AsyncResult.set). False as stated: an imap call with empty input stays registered, and unlocked job numbers can collide. Routing proved for all histories with distinct numbers; no leftover proved when no imap input is empty. Theorems: `C31_violated`, `C31_violated_race`, `C31_violated_crosstalk`.
* **C32 - Pool callbacks are called** (machin/parallel/pool.py:Pool.apply_async, machin/parallel/pool.py:AsyncResult.set). False for all classes but BasePool: Pool.apply_async drops the callbacks. Proved for BasePool and for map_async with non-empty input. Theorems: `C32_violated`, `C32_violated_never`, `C32_violated_empty_map`.
* **C34 - Point-to-point pool: every queue keeps exactly one worker when workers are replaced** (machin/parallel/pool.py:P2PPool.repopulate_pool, machin/parallel/queue.py:MultiP2PQueue.quick_put). False: a replacement worker reads sub-queue 0, 1, ... instead of the queue of the exited worker. Proved: initial pool; exact condition under which maintenance is harmless. Theorems: `C34_violated`.
* **C35 - A key is paired or registered by at most one process at a time** (machin/parallel/distributed/_world.py:_rpc_set_lut_entry, machin/parallel/distributed/_world.py:_rpc_unset_lut_entry, machin/parallel/distributed/_world.py:RpcGroup.pair). Violated when a look-up is served by a process in the middle of pair/register (C35_violated); proved for all other interleavings (QuietReach). Theorems: `C35_violated`.
* **C37 - Stale entries of a destroyed group are purged by the first failed lookup, without touching other entries** (machin/parallel/distributed/_world.py:_rpc_call_service, machin/parallel/distributed/_world.py:_rpc_get_paired_value, machin/parallel/distributed/_world.py:RpcGroup.destroy). Violated for services of a re-created group (C37_violated, C37_violated_history, C37_violated_recreate); proved for values and for destroyed groups. Theorems: `C37_violated_history`, `C37_violated`, `C37_violated_failed_creation`, `C37_violated_recreate`.
* **C38 - barrier(): nobody leaves before everybody has entered, and everybody leaves** (machin/parallel/distributed/_world.py:RpcGroup.barrier, machin/parallel/distributed/_world.py:RpcGroup._rpc_exit_barrier, machin/parallel/distributed/_world.py:RpcGroup._rpc_entered_barrier). Safety proved for all interleavings; liveness violated by a lost wake-up (C38_violated); proved when all other members already wait. Theorems: `C38_violated`.
* **C39 - Waiting on a combined event returns exactly when the combination is set** (machin/parallel/event.py:MultiEvent.wait, machin/parallel/event.py:OrEvent.is_set, machin/parallel/event.py:AndEvent.is_set). Violated (C39_violated*: lost early notification, AndEvent returns after the first member, blocks when already set, timeout never cut short); proved: no return before a member is set, result after a completed set, registration. Theorems: `C39_violated_early`, `C39_violated_and`, `C39_violated_blocks`, `C39_violated`, `C39_violated_timeout`.
* **C41 - Configuration membership and defaults reflect what was set** (machin/utils/conf.py:Config, machin/utils/helper_classes.py:Object). Violated: contains is always true, defaults are never used, iteration yields two internal names; proved: set names are found with their value, setting changes one name. Theorems: `C41_violated_contains`, `C41_violated_default`, `C41_violated_iter`, `C41_violated`.
* **C42 - Merging configurations: later values win, constants are never changed** (machin/utils/conf.py:merge_config, machin/utils/helper_classes.py:Object.__setattr__). Violated for names of members (data replaces everything, get is rejected); proved for ordinary names, dictionaries and Configs. conf itself is deep-copied (immutable in the model). Theorems: `C42_violated_names`, `C42_violated`.
* **C43 - Loading models picks the requested common version, else the newest version all models have** (machin/utils/prepare.py:prep_load_model). Violated for files with leading zeros; proved for directories without them and names the regular expression accepts. Theorems: `C43_violated_zeros`, `C43_violated`.
* **C44 - What save() wrote, load() reads back** (machin/frame/algorithms/base.py:TorchFramework.save, machin/frame/algorithms/base.py:TorchFramework.load, machin/utils/prepare.py:prep_load_model). Violated for -1 (default), other negative versions and names outside the regular expression; proved for versions >= 0. Theorems: `C44_violated_default`, `C44_violated_negative`, `C44_violated_name`, `C44_violated`.
* **C45 - Learning-rate schedule: the rate of the latest boundary reached** (machin/utils/learning_rate.py:gen_learning_rate_func). Violated before the first boundary (the last rate is returned); proved from the first boundary on. Theorems: `C45_violated_before`, `C45_violated`.
* **C47 - The three advantage formulas agree where they overlap** (machin/frame/algorithms/a2c.py:A2C.store_episode). Violated for episodes that do not end in a terminal state (no bootstrap); the partial theorems give the value for the general, truncated, lambda=1 and lambda=0 cases. Theorems: `C47_violated_truncated`, `C47_violated`.
* **C49 - RAINBOW's projected target is a probability distribution** (machin/frame/algorithms/rainbow.py:RAINBOW.update). Violated: an atom whose shifted position falls exactly on an atom of the support loses its whole mass (both distances are 0). C49_mass_partial gives the exact row mass, C49_sum_partial shows it is 1 when no shifted atom falls on the support. C49_mean_partial: every atom that is not lost contributes its mass times its clamped shifted value, so the projection keeps the expectation. Theorems: `C49_violated_mass`, `C49_violated`.
* **C50 - IMPALA samples whole episodes and can always recover their boundaries** (machin/frame/algorithms/impala.py:IMPALABuffer.sample_method_episode, machin/frame/algorithms/impala.py:IMPALA.store_episode, machin/frame/algorithms/impala.py:IMPALA.update). Proved for all histories of episodes that fit the buffer. Violated when an episode longer than the capacity was rejected: it has overwritten stored steps, the sampled steps carry no length and update() raises RuntimeError. Theorems: `C50_violated_too_long`, `C50_violated`.
* **C51 - IMPALA's v-trace recursion does not leak between the episodes of a batch** (machin/frame/algorithms/impala.py:IMPALA.update). Locality and the v-trace recursion are proved for all batches. Violated at the last step: its target is 0, so the recursion v_t = r_t + g v_{t+1} holds only before it and the last reward enters no target. Theorems: `C51_violated_last_reward`, `C51_violated_sample`, `C51_violated`.
* **C52 - ARS running statistics equal the true mean and variance, in every order and grouping of updates** (machin/frame/algorithms/ars.py:RunningStat.push, machin/frame/algorithms/ars.py:RunningStat.update). Proved for every sequence and every tree of pushes and merges without a merge of two empty statistics; merging two empty statistics gives nan for ever (C52_violated). Theorems: `C52_violated_forever`, `C52_violated`.
* **C53 - ARS: after synchronisation the state filter reflects every observation exactly once** (machin/frame/algorithms/ars.py:MeanStdFilter, machin/frame/algorithms/ars.py:ARS.update). Violated: the manager's own observations are counted twice in every run (C53_violated_always), an idle member makes update() raise KeyError, and the mean used for normalisation is the tensor that push changes in place. The partial theorems give the exact statistics and the stability of the deviation. Theorems: `C53_violated_always`, `C53_violated`, `C53_violated_idle_member`, `C53_violated_mean`, `C53_stable_violated`.
* **C54 - ARS distributes every rollout to exactly one worker and never reuses a noise seed in a round** (machin/frame/algorithms/ars.py:ARS.__init__, machin/frame/algorithms/ars.py:SharedNoiseSampler). Partition, distinct seeds and noise slices proved for all sizes; the size check can never raise (C54_check_never_raises). Theorems: `C54_check_never_raises`.
* **C55 - Target networks: soft updates are convex combinations, hard updates are copies on schedule** (machin/frame/algorithms/utils.py:soft_update, machin/frame/algorithms/utils.py:hard_update, machin/frame/algorithms/dqn.py:DQN.update). Soft updates proved; hard update schedule proved for mode double and all algorithms with the counting scheme. Violated in DQN mode fixed_target with update_steps (TypeError). Theorems: `C55_violated_fixed_target`, `C55_violated`.
* **C56 - User settings survive configuration generation** (machin/frame/algorithms/dqn.py:DQN.generate_config). Violated: user settings under default keys are overwritten; Config objects without frame_config raise TypeError. Proved: exact contents of the result; fill_default is correct. Theorems: `C56_violated_overwrites`, `C56_violated_config_object`, `C56_violated`.
* **C57 - Environment wrappers return results in request order whatever the order in which workers answer** (machin/env/wrappers/openai_gym.py:ParallelWrapperSubProc._call_gym_env_method). Violated: results of a failing call stay in the shared queue and are returned by later calls. Proved: histories without failing calls, single-environment calls with failures, completion. Theorems: `C57_violated_stale`, `C57_violated`, `C57_violated_key`.
* **C58 - Stepping a terminated environment is rejected, and active() lists the non-terminated ones** (machin/env/wrappers/openai_gym.py:ParallelWrapperDummy.step, machin/env/wrappers/openai_gym.py:ParallelWrapperSubProc.step). Holds for the for-loop wrapper when no environment raises and no index is repeated; violated otherwise and for the sub-process wrapper, which never checks termination. Both wrappers proved alike in the remaining cases. Theorems: `C58_violated_raise`, `C58_violated_twice`, `C58_violated_dummy`, `C58_violated_sub_step`, `C58_violated_sub`.
* **C59 - TRPO line search accepts only improving steps inside the trust region and otherwise restores the parameters** (machin/frame/algorithms/trpo.py:TRPO._line_search). Proved for the divergence as measured by compare_kl; violated for the true divergence with ActorContinuous: views of action_log_std make the log terms cancel. Theorems: `C59_violated_kl`, `C59_violated`.
* **C61 - MADDPG: assigning the optimizers it reports is a no-op** (machin/frame/algorithms/maddpg.py:MADDPG.optimizers). Violated: getter lists critics first, setter expects actors first (C61_violated); the setter is correct for actors ++ critics and the exact effect of the round trip is characterised. Theorems: `C61_violated`, `C61_violated_result`.
* **C62 - Parameter noise: switching it off restores the original parameters** (machin/frame/noise/param_space_noise.py:perturb_model, machin/frame/noise/param_space_noise.py:_add_perturb_hook). Violated when the reset switch is on in two or more noisy passes (C62_violated); restored when noise is drawn once (C62_restored_partial); a pass with noise off always re-establishes the precondition; exact accumulation with reset on (C62_reset_accumulates_partial). Theorems: `C62_violated`, `C62_violated_values`.
* **C63 - Clipped noise stays inside its bounds** (machin/frame/noise/action_space_noise.py:add_clipped_normal_noise_to_action, machin/frame/noise/generator.py:ClippedNormalNoiseGen, machin/frame/noise/action_space_noise.py:add_uniform_noise_to_action). Violated by add_clipped_normal_noise_to_action (clamp result discarded, draws uniform) and ClippedNormalNoiseGen (never clipped); uniform noise proved. Theorems: `C63_violated_add`, `C63_violated_gen`, `C63_violated`.
* **C64 - Models are called with exactly the arguments they declare, and a missing required argument is reported** (machin/frame/algorithms/utils.py:safe_call). Violated with keyword-only arguments plus defaults and with *args without **kwargs; unconditional exactness on success; full statement proved for the remaining signatures. Theorems: `C64_violated_demands_default`, `C64_violated_misses_argument`, `C64_violated_varargs`, `C64_violated`.
* **C65 - Every buffer class can be constructed with its documented arguments** (machin/frame/buffers/rnn_buffers.py:RNNBuffer.__init__, machin/frame/buffers/rnn_buffers.py:RNNDistributedBuffer.__init__, machin/frame/buffers/rnn_buffers.py:RNNPrioritizedBuffer.__init__). Violated by the code: RNNDistributedBuffer, RNNPrioritizedBuffer and RNNDistributedPrioritizedBuffer raise TypeError for every set of arguments (C65_unconstructible). C65_construct_partial: the other five classes. Theorems: `C65_unconstructible`, `C65_violated`.
* **C66 - Storing into the distributed prioritized RNN buffer stores like the local prioritized RNN buffer** (machin/frame/buffers/rnn_buffers.py:RNNDistributedPrioritizedBuffer.store_episode). Violated by the code: with a non-empty tuple of required attributes (the default) every store raises TypeError after writing the transitions (C66_store_always_fails). C66_store_none_partial: with required_attrs=None and given priorities the result is the same. Theorems: `C66_store_always_fails`, `C66_violated`.
* **C67 - apply, apply_async and map call the user's function** (machin/parallel/pool.py:Pool.apply, machin/parallel/pool.py:CtxPool, machin/parallel/pool.py:proxy_ctx_caller). False for CtxPool.apply, which always raises ValueError; proved for everything else. Theorems: `C67_violated_ctx`, `C67_violated`.
* **C68 - A failed call raises its own exception at get()** (machin/parallel/pool.py:AsyncResult.get, machin/parallel/pool.py:BasePool.worker, machin/parallel/exception.py:ExceptionWithTraceback). False for the thread pools (TypeError instead of the exception); proved for process pools. Theorems: `C68_violated`, `C68_violated_threads`.
* **C69 - Finalizers run on garbage collection** (machin/parallel/util.py:18-75). Violated: the weak reference is bound to finalizer_registry and the call fails; proved: gc never changes anything, direct calls run it (C40_call). Theorems: `C69_violated`.
* **C72 - The n-step target bootstraps from the state n steps later** (machin/frame/algorithms/rainbow.py:173-201, machin/frame/algorithms/rainbow.py:203-260). Violated: the n-step value is combined with the 1-step next_state and terminal flag; holds for n = 1 and for the last step. Theorems: `C72_violated`.
* **C73 - load restores online critics** (machin/frame/algorithms/sac.py:408-413, machin/frame/algorithms/td3.py:278-284). Holds for TD3; violated for SAC (critic gets critic2_target, critic2 not restored). Theorems: `C73_violated`.
* **C74 - generate_env_config works for available environments** (machin/auto/config.py:34-40, machin/auto/config.py:78-93). Violated: isinstance(x, callable) raises TypeError for every available environment. Theorems: `C74_violated`.
* **C75 - get_fim is the second derivative of the divergence** (machin/model/algorithms/trpo.py:64-70, machin/model/algorithms/trpo.py:143-150). Holds for the continuous actor; violated for the discrete one (returns p instead of 1/p). Theorems: `C75_violated`.
* **C77 - TRPO update respects its settings and finishes** (machin/frame/algorithms/trpo.py:184-298, machin/frame/algorithms/trpo.py:339-371). Violated: line_search_backtracks is never passed; zero gradient returns early without clearing the buffer. Theorems: `C77_violated_zero_gradient`, `C77_violated_backtracks`, `C77_violated`.
* **C78 - Backward pass restores original parameters for the optimizer** (machin/frame/noise/param_space_noise.py:112-129). Violated: hooks close over the loop variables late, only the last parameter is swapped; exact result proved for all parameter counts. Theorems: `C78_violated`, `C78_violated_values`.
* **C79 - Ornstein-Uhlenbeck noise: recurrence, reset and defaults** (machin/frame/noise/generator.py:138-200, machin/frame/noise/action_space_noise.py:143-174). Recurrence, reset and shared generator proved; default noise_param=None raises TypeError (C79_violated). Theorems: `C79_violated`.
* **C81 - Normal action noise is normal** (machin/frame/noise/action_space_noise.py:103-140). Violated for one tuple (uniform draws are used); proved for one tuple per component. Theorems: `C81_violated`.
* **C82 - Compiled calls receive the same arguments** (machin/frame/algorithms/maddpg.py:670-749). Violated: arguments left out are passed as None (C82_violated); given arguments arrive. Theorems: `C82_violated`.
* **C83 - MADDPG target values use target actors** (machin/frame/algorithms/maddpg.py:583-592, machin/frame/algorithms/maddpg.py:807-842). Violated: keyword target=True is swallowed, other agents' next actions come from online actors (C83_violated). Theorems: `C83_violated`, `C83_violated_values`.
* **C84 - MADDPG policy loss is taken at the sampled state** (machin/frame/algorithms/maddpg.py:857-879). Violated: the actor is evaluated at the next state (C84_violated); equality when state = next state, structure of the actions proved. Theorems: `C84_violated`, `C84_violated_values`.
* **C85 - MADDPG update returns mean policy value and mean value loss** (machin/frame/algorithms/maddpg.py:598-638, machin/frame/algorithms/maddpg.py:916). Violated: sign of the first component (C85_violated); exact result proved. Theorems: `C85_violated`.
* **C86 - Moving to shared memory keeps objects** (machin/frame/algorithms/maddpg.py:925-943). Violated for leaves that are neither tensor nor container (C86_violated). Theorems: `C86_violated`.
* **C87 - The replay buffers of all agents stay aligned** (machin/frame/algorithms/maddpg.py:506-518, machin/frame/algorithms/maddpg.py:536-582, machin/frame/algorithms/maddpg.py:958-965). Violated when a call raises half way (C87_violated); proved for histories of successful calls of any length. Theorems: `C87_violated_mismatch`, `C87_violated`.
* **C89 - Importance weights of a distributed batch are comparable across members** (machin/frame/buffers/prioritized_buffer_d.py:204-266, machin/frame/buffers/prioritized_buffer_d.py:293-313, machin/frame/buffers/prioritized_buffer.py:397-428). Violated: each member divides by its own maximum and uses its own size (witness). Proved: per-member formula with the total sent by the sampler. Theorems: `C89_violated`.
* **C90 - A store refused for its number of priorities has no effect** (machin/frame/buffers/prioritized_buffer.py:279-309, machin/frame/buffers/prioritized_buffer.py:152-186). Violated: transitions are stored before the priorities are checked. Proved: a wrong number always raises and no leaf is written. Theorems: `C90_violated`.
* **C93 - The policy loss averages the values of all rows** (machin/frame/algorithms/ddpg.py:435-441, machin/frame/algorithms/td3.py:226-240, machin/frame/algorithms/hddpg.py:145-160). Violated by DDPG: ddpg.py:437 unpacks the tensor of values (act_value, *_ = ...), so only the first row enters the loss. Holds for TD3, HDDPG, DDPGPer, SAC. Theorems: `C93_violated`.
* **C97 - Priorities are the temporal difference errors** (machin/frame/algorithms/dqn_per.py:85-160, machin/frame/algorithms/ddpg_per.py:105-175). Violated by DDPGPer: ddpg_per.py:154-157 uses the value of the actor's own action, under the critic already changed, instead of the sampled action. Holds for DQNPer. Theorems: `C97_violated`.
* **C98 - Discrete exploration noise** (machin/frame/algorithms/ddpg.py:280-330, machin/frame/algorithms/maddpg.py:425-455, machin/frame/algorithms/utils.py:167-182). Violated for two or more rows: sample([B, 1]) of a distribution over B rows has B*B elements, view(B, 1) raises. Proved for single rows, with the distribution, order and extreme-row parts for all rows. Theorems: `C98_violated`, `C98_violated_batches`.
* **C105 - Normalised advantages are numbers with average zero** (machin/frame/algorithms/a2c.py:352-360, machin/frame/algorithms/ppo.py:128-134). Violated for one transition: the unbiased standard deviation is nan. Proved for two or more. Theorems: `C105_violated`.
* **C99 - update_lr_scheduler advances every learning rate scheduler once** (machin/frame/algorithms/sac.py:399-406, machin/frame/algorithms/gail.py:320-329, machin/frame/algorithms/maddpg.py:640-649). Violated by SAC (C99_violated, C99_violated_sac): update_lr_scheduler (sac.py:399-406) steps the schedulers of actor and critic only; those of critic2 and alpha are never advanced. The partial theorems prove the claim for the other algorithms. Theorems: `C99_violated_sac`, `C99_violated`.
* **C100 - Schedulers are built with the given arguments or usable defaults** (machin/frame/algorithms/ppo.py:16-18, machin/frame/algorithms/ppo.py:82-84, machin/frame/algorithms/maddpg.py:257-274). Violated: PPO, TRPO, IMPALA, DQNApex, DDPGApex use the default () and raise IndexError, IMPALA configured with None raises TypeError, MADDPG passes keyword names as positional arguments. Partial theorems: the algorithms whose defaults fit, all algorithms with full tuples, MADDPG without keywords. Theorems: `C100_violated_default`, `C100_violated_impala`, `C100_violated_maddpg`, `C100_violated`.
* **C101 - init_from_config leaves the configuration usable** (machin/frame/algorithms/ddpg.py:547-571, machin/frame/algorithms/sac.py:463-487). Violated: DDPG, HDDPG, TD3, DDPGPer and SAC replace the classes in the caller's configuration, a second call raises TypeError. Partial: all others leave it unchanged. Theorems: `C101_violated`, `C101_violated_second`.
* **C102 - Names in configurations are resolved or refused** (machin/frame/algorithms/utils.py:206-316). Violated: a name without a dot that is found nowhere gives None without exception (C102_violated_unknown), so a misspelt scheduler is silently ignored (C102_violated_silent). Partial: which object classes, criteria and models resolve to; unknown model names are refused. Theorems: `C102_violated_unknown`, `C102_violated`, `C102_violated_silent`.
* **C104 - The ratio of PPO is measured against the actor at the start of the update** (machin/frame/algorithms/ppo.py:104-181). Violated: when the evaluation with the old actor raises, self.actor stays the temporary copy and is never trained again (C104_violated_lost). Partial: every update without exception, any number of iterations. Theorems: `C104_violated_lost`, `C104_violated`.
* **C106 - GAIL trains its discriminator** (machin/frame/algorithms/gail.py:160-162, machin/frame/algorithms/gail.py:247-318). Violated: discriminator_optim is built with the parameters of the actor (gail.py:160-162): the discriminator never changes (C106_violated_never), the actor is moved by left-over gradients (C106_violated_actor). Partial: where the gradient goes, what stays untouched. Theorems: `C106_violated_never`, `C106_violated_actor`, `C106_violated`.
* **C107 - Expert episodes are stored completely** (machin/frame/algorithms/gail.py:233-245). Violated: the comprehension keeps dictionaries only (C107_violated_dropped). Partial: episodes of dictionaries. Theorems: `C107_violated_dropped`, `C107_violated`.
* **C108 - The gradient server helper gives every server its model** (machin/frame/helpers/servers.py:7-109). Violated: with a scheduler and two models the variable optimizer is rebound and called (TypeError); an int rate cannot be zipped; short lists leave servers unmanaged without notice. Partial: no scheduler, or one model. Theorems: `C108_violated_scheduler`, `C108_violated_a3c`, `C108_violated_int`, `C108_violated`, `C108_violated_short`.
* **C109 - The actor server of a configured A3C manages an actor** (machin/frame/algorithms/a3c.py:217-245). Violated: the creators are closures over comprehension variables, both servers manage a critic. Partial: the last model is right. Theorems: `C109_violated_critic`, `C109_violated`, `C109_violated_thread`.
* **C110 - Gradients are pushed only to running reducers** (machin/frame/helpers/servers.py:71-99, machin/parallel/server/param_server.py:164-185, machin/parallel/server/param_server.py:353-362). Violated: only the primary reducer starts its thread, while push chooses among all members; gradients pushed to other members wait for ever in every run (C110_violated_stuck). Partial: the primary reducer runs. Theorems: `C110_violated_only_primary`, `C110_violated`, `C110_violated_stuck`, `C110_violated_restart`.
* **C111 - A3C pushes the gradients it was asked to compute** (machin/frame/algorithms/a3c.py:156-165, machin/frame/algorithms/a2c.py:328-421). Violated: only the gradient of the last iteration is sent, update_policy=False still sends, an exception leaves synchronisation off, the losses are not returned. Partial: parameters, cleared gradients, synchronisation after a normal update. Theorems: `C111_violated_last`, `C111_violated_flag`, `C111_violated_sync`, `C111_violated`.
* **C112 - A failure of a child process or thread reaches the parent** (machin/parallel/process.py:15-105, machin/parallel/thread.py:10-70). Holds for the first watch with a message that fits into the pipe, for the property exception, and for threads. Violated: reading exception (or a first watch) silences later calls of watch, and watch waits for ever in join if the message is larger than the pipe. Theorems: `C112_violated_silent`, `C112_violated_second`, `C112_violated_deadlock`, `C112_violated`.
* **C113 - The spawn plugin reports a failing sub-process** (machin/auto/pl_plugin.py:158-187). Violated: one process that ended normally ends the supervision of the others; a failure between the two calls of one round is taken for a normal end; no process at all: endless loop. Proved: only failures are reported, which failures can be lost, and when a failure is reported. Theorems: `C113_violated_other`, `C113_violated_race`, `C113_violated_empty`, `C113_violated`.
* **C114 - check_model checks every leaf module and every atom module** (machin/utils/checker.py:301-364). Violated: names are compared as strings, so fc10 is skipped after fc1. Proved: only wanted modules are checked, all of them if names that begin alike are nested. Theorems: `C114_violated_name`, `C114_violated_skipped`, `C114_violated`.
* **C115 - The hooks of check_model see every input, output and parameter under its name** (machin/utils/checker.py:49-74, machin/utils/checker.py:77-105, machin/utils/checker.py:108-130). Violated: input names are shifted by self, only the first row of a single output tensor is checked, only the last parameter is checked (late binding). Proved: no calls outside due passes, all inputs are seen, tuples are complete, single parameters are right. Theorems: `C115_violated_input`, `C115_violated_variadic`, `C115_violated_output`, `C115_violated_scalar`, `C115_violated_param`, `C115_violated_unnoticed`, `C115_violated`.
* **C116 - The estimated size of a model is its size** (machin/parallel/assigner.py:35-83). Violated for complex32 (twice the size) and for bfloat16, complex64 and complex128 (refused). Proved for all other types. Theorems: `C116_violated_complex`, `C116_violated_refused`, `C116_violated`.
* **C117 - Models are assigned only if they fit, to devices that exist** (machin/parallel/assigner.py:176-225, machin/parallel/assigner.py:252-291). Violated: only totals are compared, and the device cuda without index is thrown out. Proved: devices used are available and non-empty, order kept, exact condition of the check, distances. Theorems: `C117_violated_capacity`, `C117_violated_index`, `C117_violated`.
* **C118 - The placement is optimised over numbers** (machin/parallel/assigner.py:293-334, machin/parallel/assigner.py:336-372). Violated for tables without connections: the first division 0/0 makes everything nan and argmax chooses the first device. Proved: entries stay numbers if the connection cost is divided by a non-zero total. Theorems: `C118_violated_unconnected`, `C118_violated`.
* **C119 - Messages of a queue arrive once, in order and within the timeout** (machin/parallel/queue.py:20-34, machin/parallel/queue.py:96-134). Violated: the timeout does not cover the wait for the lock of the readers. Proved for all interleavings: exactly once, in order, one reader at a time, and a reader inside poll can return after its timeout. Theorems: `C119_violated_lock`, `C119_violated`.
* **C120 - Messages of the pool queue are kept in order and served fairly** (machin/parallel/queue.py:251-261, machin/parallel/queue.py:263-273). Violated: every quick_get begins with the first sub-queue, so later ones can starve. Proved for all interleavings: exactly once and in order per sub-queue, round robin of quick_put, service when the earlier sub-queues are empty. Theorems: `C120_violated_starved`, `C120_violated`.
* **C123 - Reading an item leaves the synchronisation setting as it was** (machin/auto/envs/openai_gym.py:83-140, machin/auto/envs/openai_gym.py:192-246). Violated: after an exception within an episode the algorithm stays unsynchronised (C123_violated_exception, C123_violated), and a setting the user had switched off is switched on. Holds: after an item has been read the algorithm synchronises (C123_synced_partial); it does not during the episode (C123_off_partial). Theorems: `C123_violated_exception`, `C123_violated`.
* **C124 - Every available algorithm can act in a gym dataset** (machin/auto/envs/openai_gym.py:95-125, machin/auto/envs/openai_gym.py:204-230, machin/auto/config.py:21-31). Violated: TRPO and MADDPG are listed as available, but both datasets refuse them (C124_violated_refused). Holds for all others (C124_disc_partial, C124_cont_partial); the list is complete (C124_available_partial). Theorems: `C124_violated_refused`, `C124_violated`.
* **C125 - Continuous actions have the shape of the action space for the environment and a batch dimension when stored** (machin/auto/envs/openai_gym.py:192-246, machin/frame/transition.py:171-222). Violated: for DDPG, DDPGPer, HDDPG, TD3, DDPGApex with an actor without further outputs [0] takes the first row, the stored action has no batch dimension (C125_violated_stored) and the Transition refuses it unless d = 1 (C125_violated_refused); for A2C, PPO, SAC, GAIL, A3C, IMPALA the environment is given shape [1, d] (C125_violated_given). Holds: stored and given action are the same (C125_same_partial), tuples (C125_tuple_partial). Theorems: `C125_violated_stored`, `C125_violated_refused`, `C125_violated_given`, `C125_violated`.
* **C126 - A gym dataset of the right kind is made, or the environment is refused with ValueError** (machin/auto/envs/openai_gym.py:22-33, machin/auto/envs/openai_gym.py:249-270, machin/auto/dataset.py:15-28). Violated: MultiDiscrete and MultiBinary action spaces end in an AssertionError instead of the ValueError (C126_violated_assert). Holds: kinds otherwise (C126_kind_partial), precision (C126_precision_partial). Theorems: `C126_violated_assert`, `C126_violated`.
* **C127 - A training step stores an episode and makes one update per transition** (machin/auto/launcher.py:61-66, machin/frame/algorithms/a2c.py:328-421, machin/frame/algorithms/ppo.py:104-215). Violated for A2C, A3C, PPO, TRPO, GAIL: the first update clears the buffer, the second raises IndexError, for every history, all settings and every episode of at least two transitions (C127_violated_onpolicy, C127_violated); ARS and MADDPG have no store_episode (C127_violated_store). Holds: order of events of every finished step (C127_order_partial), algorithms whose store and update do not fail (C127_finishes_partial), episodes of one transition (C127_single_partial). Theorems: `C127_violated_onpolicy`, `C127_violated`, `C127_violated_store`.
* **C129 - Every log entry is handled** (machin/auto/launcher.py:96-103, machin/auto/launcher.py:222-239). Violated: tuples with fewer than two parts raise IndexError and lose the entries behind them (C129_violated_short). Holds otherwise (C129_handled_partial). Theorems: `C129_violated_short`, `C129_violated`.
* **C130 - Logged images do not overwrite each other** (machin/auto/pl_logger.py:76-110). Violated: step 0 counts as not given, steps -1, 0, 1 write one file twice (C130_violated_zero); a call with step 1 and a later one without step meet (C130_violated_mixed). C130_file gives the name for every call; C130_distinct_partial the cases in which files differ. Theorems: `C130_violated_zero`, `C130_violated`, `C130_violated_mixed`.
* **C132 - Logging a video ends** (machin/auto/dataset.py:44-72). Violated: without frames the temporary file stays empty and the loop never ends (C132_violated_empty). Holds with at least one frame (C132_ends_partial); the loop by itself: C132_wait_partial. The gym datasets never log an empty video. Theorems: `C132_violated_empty`, `C132_violated`.
* **C134 - Creating a video leaves the frames of the caller unchanged** (machin/utils/media.py:54-97). Violated: the converted frames replace the caller's (C134_violated_float). Holds: a second call writes the same frames (C134_again_partial), bytes in colour are not changed (C134_bytes_partial). Theorems: `C134_violated_float`, `C134_violated`.
* **C135 - Exactly the old trials are removed** (machin/utils/save_env.py:155-188). Violated: an old entry that is not a directory ends the call, later old trials stay (C135_violated_file). Holds if old entries are directories (C135_removed_partial); the age is taken from the name, at most one second off (C135_age_partial); C135_threshold. Theorems: `C135_violated_file`, `C135_violated`.
* **C136 - Every trial has a directory of its own** (machin/utils/save_env.py:43-69). Violated: within one second the directory is shared (C136_violated_second). Holds: a second or more apart (C136_distinct_partial), restarted trials (C136_restart_partial). Theorems: `C136_violated_second`, `C136_violated`.
* **C137 - A sampled batch has the entries of transition i in row i** (machin/frame/buffers/buffer.py:375-425, machin/frame/buffers/buffer.py:298-372). Holds for lists of tensors of equal trailing shape, lists of numbers and plain lists. A list that mixes numbers with tensors does not give one row per item: C137_violated_mixed. Theorems: `C137_violated_mixed`, `C137_violated`.
* **C138 - Every transition is trained towards its own target** (machin/frame/algorithms/dqn.py:436-470, machin/frame/algorithms/dqn.py:497-502, machin/frame/algorithms/ddpg.py:405-430). Holds for rewards and flags stored as numbers or as tensors with two dimensions (C138_own_partial). Rewards or flags stored as tensors of shape [1], which Transition accepts, give a square of targets (C138_violated_flat, C138_violated_terminal), and the least squares solution becomes the target of the average reward of the batch (C138_violated_loss). Theorems: `C138_violated_flat`, `C138_violated_terminal`, `C138_violated`, `C138_violated_loss`.
* **C139 - create_rpc_group returns when all members have entered** (machin/parallel/distributed/_world.py:347-397, machin/parallel/distributed/_world.py:212-217, machin/parallel/distributed/_world.py:166-176). C139_safety holds in all interleavings: a process returns only after all members entered with one list. C139_violated: a member or the look-up table process may be polled before its WORLD is assigned, then the leader fails with an AttributeError and the other members wait forever (C139_violated_waits). C139_all_return_partial: if every process has started, all members return. Theorems: `C139_violated_start`, `C139_violated`, `C139_violated_waits`.
* **C140 - act_with_noise works for every documented mode** (machin/frame/algorithms/ddpg.py:209-256, machin/frame/algorithms/maddpg.py:344-389, machin/frame/noise/action_space_noise.py:12-174). C140_violated: with the default noise parameter mode clipped_normal raises an IndexError and mode ou (no generator yet) a TypeError. Partial: formulas and shapes of uniform and normal noise for one tuple and one tuple per column, wrong number of tuples, unknown modes. Theorems: `C140_violated_defaults`, `C140_violated`.
* **C141 - A noisy action has the shape of the action** (machin/frame/noise/action_space_noise.py:143-174, machin/frame/algorithms/ddpg.py:209-256, machin/frame/algorithms/maddpg.py:344-389). C141_violated: the shared generator keeps the shape of the first action, so a later action for one state becomes a batch, and MADDPG agents with different action widths raise an exception. Partial: actions of one shape; other modes always keep the shape. Theorems: `C141_violated_rows`, `C141_violated_agents`, `C141_violated`.
* **C142 - Distributed agents act like local agents with the newest model** (machin/frame/algorithms/apex.py:115-150, machin/frame/algorithms/apex.py:366-430, machin/frame/algorithms/a3c.py:129-166). C142_violated: DDPGApex.act_discrete_with_noise does not hand on choose_max_prob, so the wanted probability is ignored. Partial: all other methods, and this one with the default; A3C and IMPALA. Theorems: `C142_violated_probability`, `C142_violated`.
* **C145 - The best rollouts are used** (machin/frame/algorithms/ars.py:542-557). Violated by ties: with equal best rewards all of them are used, whatever used_rollout_num is. Proved: a rollout is used exactly if fewer than used_rollout_num are better; at least as many as asked for, exactly as many without ties; unused ones are strictly worse. Percentile with exact arithmetic; used_rollout_num = 0 uses the best rollout. Theorems: `C145_violated_ties`, `C145_violated`.
* **C147 - The ARS step does not depend on the units of the reward** (machin/frame/algorithms/ars.py:559-569). Violated when the deviation falls below the absolute tolerance 1e-8 of np.isclose: then rewards are not divided at all (witness: a step of 2 becomes one of 1e-9). Proved when the deviation is above the tolerance in both units, for np.std. Theorems: `C147_violated_tiny`, `C147_violated`.
* **C148 - Acting in ARS leaves the caller's state alone** (machin/frame/algorithms/ars.py:447-482, machin/frame/algorithms/ars.py:215-237). Violated: act replaces the entries of the caller's dictionary, so using it again normalises twice, and filters are updated before an invalid type is refused. Proved: without normalisation nothing changes; with it, keys, order, values and the filters after the call are exactly the documented ones. Theorems: `C148_violated_twice`, `C148_violated`.
* **C149 - The backward function that was set does every backward pass** (machin/frame/algorithms/base.py:78-84, machin/frame/algorithms/td3.py:216-241, machin/frame/algorithms/sac.py:338-391). Violated by TD3, SAC, DQN vanilla (loss.backward()) and by the inner PPO or TRPO of GAIL, which keeps its own backward function (C149_violated, C149_violated_td3, _sac, _dqn, _gail); proved for DDPG, HDDPG, DDPG-PER, DQN fixed_target and double, DQN-PER, RAINBOW, A2C, PPO, IMPALA and the discriminator of GAIL (C149_hooked_partial). Theorems: `C149_violated_td3`, `C149_violated_sac`, `C149_violated_dqn`, `C149_violated_gail`, `C149_violated`.
* **C150 - Every optimizer step uses the gradient of its own loss** (machin/frame/algorithms/ddpg.py:398-463, machin/frame/algorithms/td3.py:177-257, machin/frame/algorithms/sac.py:301-397). One theorem for each family of algorithms; proved for all but GAIL. GAIL is characterised exactly by C150_gail_partial; its discriminator is not trained, since its optimizer was built with the parameters of the actor (gail.py:160-162, see C106). DQN with mode fixed_target and update_steps raises a TypeError, which is part of C150_modes. Theorems: `C150_violated_discriminator`, `C150_violated`.
* **C151 - The parallel update of MADDPG does not depend on the schedule** (machin/frame/algorithms/maddpg.py:596-634, machin/frame/algorithms/maddpg.py:752-916). Violated for two or more sub-policies, whose workers share the critic: a gradient is lost and another applied twice (C151_violated_lost against C151_violated_sequential), or a RuntimeError because the critic was changed in place between forward and backward pass (C151_violated_error). Proved for one sub-policy per agent, for all schedules (C151_single_partial, C151_schedules_partial). Theorems: `C151_violated_sequential`, `C151_violated_lost`, `C151_violated_error`, `C151_violated`.
* **C152 - A target network of MADDPG moves once per update** (machin/frame/algorithms/maddpg.py:893-911). Violated for two or more sub-policies: every sub-policy moves the target of the common critic (C152_violated, C152_violated_twice). Proved for one sub-policy per agent (C152_single_partial). Theorems: `C152_violated_twice`, `C152_violated`.
* **C153 - A transition counts by its own importance weight** (machin/frame/algorithms/rainbow.py:298-308, machin/frame/algorithms/dqn_per.py:125-129, machin/frame/algorithms/ddpg_per.py:129-134). Violated by RAINBOW: the losses have one dimension, the weights are a column, so the product is a square and its mean is the mean loss times the mean weight (C153_violated_product, C153_violated). Proved for columns (C153_column_partial) and for RAINBOW with equal weights (C153_equal_partial). Theorems: `C153_violated_product`, `C153_violated`.
* **C155 - A ResNet of a documented depth takes images of size 224** (machin/model/nets/resnet.py:38-70, machin/model/nets/resnet.py:255-344). Violated: networks of depth 50, 101 and 152 refuse every image, since fc is made for 512 planes and the bottleneck blocks give 2048 (resnet.py:320); pooling sizes 4, 5 and 6 refuse every image, since the kernel is rounded down to 1. C155_exact_partial says exactly which networks work. Theorems: `C155_violated_deep`, `C155_violated`.
* **C156 - --conf a=b sets a to the value of b** (machin/utils/conf.py:40-85). Violated: a text with '=' in it (dict(a=1), a string with '=') raises ValueError, since the argument is split at every sign. Proved for texts without it. Theorems: `C156_violated_sign`, `C156_violated`.
* **C157 - A saved configuration is loaded as it was** (machin/utils/conf.py:88-110). Violated: tuples come back as lists, keys that are no strings as strings; an error while saving leaves a broken file where a good one was. Proved: what is loaded for every value that can be saved (C157_normal_partial), the exact condition for it to be what was saved and stability of what was loaded once (C157_unchanged_partial, C157_roundtrip_partial), when saving raises (C157_error_partial), order in the file (C157_sorted_partial). Theorems: `C157_violated_tuple`, `C157_violated_key`, `C157_violated_lost`, `C157_violated`.
* **C158 - Parameter noise is adapted to the distance of outputs for the same input** (machin/frame/noise/param_space_noise.py:132-293). Violated: the last noisy output is compared with the next output without noise, whatever their inputs. Proved: exactly which passes are compared and which deviation every pass meets; the full property if neighbouring passes of different kinds have the same input. Theorems: `C158_violated`.
* **C159 - Both Hessian-vector modes of TRPO compute the damped Fisher product** (machin/frame/algorithms/trpo.py:372-398, machin/frame/algorithms/trpo.py:400-438, machin/model/algorithms/trpo.py:41-46). The direct mode is proved to multiply with the damped Fisher matrix for both actors, and positivity holds in both modes. Agreement of the modes is violated: fim weighs discrete actions with p instead of 1/p, and leaves out the block of action_log_std (only damping remains there); the exact difference is proved. Theorems: `C159_violated_discrete`, `C159_violated_continuous`, `C159_violated`.
* **C160 - Clearing a directory empties it and nothing else** (machin/utils/prepare.py:12-24). Exact law: what remains below the directory are the sockets, pipes and devices directly in it, which neither isfile, islink nor isdir holds of; otherwise empty. Full statement violated by these. Theorems: `C160_violated`.
* **C161 - Trial directories are created where they belong** (machin/utils/prepare.py:27-37, machin/utils/save_env.py:53-153, machin/utils/save_env.py:190-199). Creation law, success condition, sub directories and independence of the four directories are proved. Violated: a regular file in the place of a directory passes without error (os.path.exists), and an absolute name in create_dirs leads out of the trial root. Theorems: `C161_violated_file`, `C161_violated_absolute`, `C161_violated`.
* **C162 - Seeds reach their environments** (machin/env/wrappers/openai_gym.py:97-119, machin/env/wrappers/openai_gym.py:275-294). Proved for lists of the right size and environments with seed. Violated: the wrapper without processes cuts lists silently and skips environments without seed, so answers shift; in the wrapper with processes a short list raises IndexError after the first commands are sent, and the next call takes the stale answers. Theorems: `C162_violated_dummy`, `C162_violated_stale`, `C162_violated`.
* **C163 - Both wrappers render alike** (machin/env/wrappers/openai_gym.py:121-143, machin/env/wrappers/openai_gym.py:296-315). Equal for selections without terminal environments. Violated: the wrapper without processes raises GymTerminationError (for all environments at once if any is terminal), the other one renders. Theorems: `C163_violated`.
* **C164 - Closing ends all workers** (machin/env/wrappers/openai_gym.py:145-150, machin/env/wrappers/openai_gym.py:317-330). Proved when no environment raises on close. Violated: if one raises, _closed is already set, no worker is told to end, and the next close returns at once. Also proved: a call after close waits for ever. Theorems: `C164_violated_raise`, `C164_violated`.
* **C165 - Every setting of a generated configuration takes effect** (machin/frame/algorithms/dqn.py:538-566, machin/frame/algorithms/apex.py:188-253, machin/frame/algorithms/apex.py:432-532). Violated: DDPGApex ignores learning_rate, DQNPer mode, RAINBOW criterion, criterion_args, criterion_kwargs and mode, TRPO actor_update_times. Partial: all other settings take effect, these have none; every setting is handed on under its own name. Theorems: `C165_violated_at`, `C165_violated`, `C165_violated_rainbow`, `C165_violated_dqnPer`, `C165_violated_trpo`, `C165_violated_defaults`.
* **C167 - Configured models are on the model device** (machin/frame/algorithms/gail.py:363-396, machin/frame/algorithms/dqn.py:538-566, machin/frame/algorithms/a3c.py:207-250). Violated: the discriminator of GAIL is never moved. Partial: all other frameworks. Theorems: `C167_violated`.
* **C168 - A generated configuration of a distributed framework can be launched** (machin/auto/launcher.py:183-201, machin/frame/algorithms/apex.py:152-187, machin/frame/algorithms/a3c.py:174-205). Violated: A3C and ARS generate no batch_num, init_frame raises KeyError. Partial: the frameworks with roles. Theorems: `C168_violated`, `C168_violated_ars`, `C168_violated_all`.
* **C170 - A service is ready when other processes can call it** (machin/frame/buffers/buffer_d.py:59-77, machin/frame/buffers/prioritized_buffer_d.py:77-109, machin/parallel/server/ordered_server.py:99-110). Violated. Both distributed buffers set the lock that all their services take after the services are registered, so every request before the end of the constructor raises AttributeError (C170_violated, C170_violated_buffers for every moment). The gradient server is visible before its queues exist (C170_violated_grad); the accessor of an ordered server is paired before its services are registered (C170_violated_ordered). Proved: when a constructor has ended everything works; the services of ordered and model servers work from their registration on; and for every constructor the services work at all times exactly if what they read is set before they are registered (C170_order_partial). Theorems: `C170_violated`, `C170_violated_buffers`, `C170_violated_grad`, `C170_violated_ordered`.
* **C175 - map with the default chunk size can be called whenever the pool runs** (machin/parallel/pool.py:522-545, machin/parallel/pool.py:653-665). Violated: _map_async divides by 4*len(self._pool), and the worker handler empties that list for a moment when all workers have used up maxtasksperchild (ZeroDivisionError). Proved: with any worker in the list the chunk size is the least one; outside that moment, and always without maxtasksperchild, it is computed for all processes workers. Theorems: `C175_violated_window`, `C175_violated`.
* **C176 - next() of an imap iterator does not wait for ever** (machin/parallel/pool.py:211-263, machin/parallel/pool.py:278-287). Violated in three ways: with two waiting consumers one notify announces several items (ordered), the end is never announced to the other waiters, and a consumer that comes in between makes the notified one raise TimeoutError without a timeout. Proved for a single consumer; for several consumers of the unordered iterator every item that is there has been announced while somebody waits. Theorems: `C176_violated_ordered`, `C176_violated_end`, `C176_violated_timeout`, `C176_violated`.
* **C177 - Optimizers that are assigned are stepped** (machin/frame/algorithms/gail.py:183-189, machin/frame/algorithms/maddpg.py:307-320, machin/frame/algorithms/td3.py:132-138). Violated by GAIL: the setter (gail.py:187-189) replaces its own attributes, the PPO or TRPO inside goes on stepping the old optimizers of actor and critic (C177_violated_gail). Violated by MADDPG: the getter lists the critics first, the setter takes the actors first (C177_violated_maddpg, cf. C61). C177_partial: all other frameworks. C177_gail_partial: with GAIL exactly the optimizer of the discriminator is replaced. C177_order_partial: MADDPG takes a list in the order of the setter. C177_listed_partial: nothing that is stepped is missing from the list, for all frameworks. Theorems: `C177_violated_gail`, `C177_violated`, `C177_violated_maddpg`.
* **C178 - The top models of a framework are all its networks** (machin/frame/algorithms/base.py:37-42, machin/frame/algorithms/base.py:86-92, machin/frame/algorithms/maddpg.py:57). Violated by MADDPG (maddpg.py:57): only the target networks are top models (C178_maddpg_partial says exactly which), so enable_multiprocessing does not share the networks that are trained. C178_partial: for all others the top models are exactly the networks; C178_trained_partial: what update trains is a network of the framework. Theorems: `C178_violated`.
* **C179 - A picture of a network is drawn once** (machin/frame/algorithms/base.py:160-172, machin/frame/algorithms/maddpg.py:171, machin/frame/algorithms/maddpg.py:622). Violated by MADDPG: has_visualized (maddpg.py:171, 622) is never set, so every update draws all pictures again (C179_violated), and with sub-policies the critic is drawn several times in one update (C179_violated_first). C179_partial: all others draw what is asked exactly once; C179_asked_partial lists what is asked: never critic2 of TD3 and SAC. Theorems: `C179_violated`, `C179_violated_first`.
* **C180 - update leaves the networks it trains in evaluation mode** (machin/frame/algorithms/trpo.py:196-197, machin/frame/algorithms/trpo.py:243-248, machin/frame/algorithms/trpo.py:298-302). Violated by TRPO: with a zero policy gradient it returns with actor and critic in training mode (trpo.py:243-248; the buffer is not cleared either, C180_violated_buffer). C180_partial: all other cases, for MADDPG in all interleavings; C180_other_partial: other networks keep their mode, always; C180_gail_partial: GAIL repairs it for the TRPO inside. Theorems: `C180_violated`, `C180_violated_buffer`.
* **C181 - A network is trained in training mode** (machin/frame/algorithms/maddpg.py:803-804, machin/frame/algorithms/maddpg.py:854-858, machin/frame/algorithms/maddpg.py:913-915). Violated by MADDPG with sub-policies and a thread pool: the tasks of one agent share its critic, and the first that ends calls eval() on it before the backward pass of another (C181_violated). C181_partial: all other frameworks; C181_maddpg_partial: MADDPG without sub-policies, and its actors always, in all interleavings. Theorems: `C181_violated`.
* **C182 - Prioritized sampling draws transitions in proportion to their priorities** (machin/frame/buffers/prioritized_buffer.py:397-428, machin/frame/buffers/prioritized_buffer.py:96-125). Violated because of the clip at the total minus 1e-6 (prioritized_buffer.py:411-413): if all priorities together do not exceed 1e-6, every draw returns leaf 0 (C182_violated_small, C182_violated: two transitions of priority 1e-7). C182_partial: proportional whenever every stored priority exceeds 1e-6. Theorems: `C182_violated_small`, `C182_violated`.
* **C183 - Transitions stored without priorities get the largest priority of the buffer** (machin/frame/buffers/prioritized_buffer.py:279-309, machin/frame/buffers/prioritized_buffer.py:430-434). Violated for alpha < 1: the cached maximum is already normalized and is normalized again (prioritized_buffer.py:303-304); after a transition of TD error 15/4 (priority 2 with epsilon 1/4, alpha 1/2) the next one gets 3/2 (C183_violated; the witness is a monotone function with these two values). C183_partial: the new leaves are exactly the normalized cached maximum, other leaves stay, and the new ones are the largest if normalizing does not decrease the cached maximum. Theorems: `C183_violated`.
* **C184 - Accepted input and output modules have a device** (machin/model/nets/base.py:20-86, machin/model/nets/base.py:88-101). Violated: of a container only the first (last) leaf is checked, so a container over two devices is accepted and has no device; also modules without parameters and unfinished nested networks. Proved: the exact condition under which a device is found, and the claim for plain modules with parameters and for networks. Theorems: `C184_violated`, `C184_violated_more`.
* **C186 - Calls of a model get their tensors on the device of the parameters they meet** (machin/frame/algorithms/utils.py:45-124, machin/model/nets/base.py:107-170). Violated: the first call of an unwrapped model writes the device into the model (static_module_wrapper), later moves are ignored; unwrapped models without parameters raise IndexError. Proved for every NeuralNetworkModule (also dynamic wrappers) after any history, and for unwrapped models that are only moved before the first call. Theorems: `C186_violated`, `C186_violated_empty`.
* **C188 - Generated settings are the defaults of the constructors** (machin/frame/algorithms/dqn.py:503-536, machin/frame/algorithms/rainbow.py:332-339, machin/frame/algorithms/sac.py:425-459). Violated: sixteen generated settings differ from the default of the constructor, e.g. update_rate of RAINBOW, HDDPG, DDPGPer and SAC, actor_learning_rate of TRPO, learning_rate of ARS (C188_violated_each). The partial theorems prove that the table is exact and that exactly the keys of the framework are generated. Theorems: `C188_violated_each`, `C188_violated`.
* **C190 - The completeness checks accept exactly the complete configurations** (machin/auto/config.py:119-142, machin/utils/conf.py:9-37). Violated: a Config claims to have every key, so the checks accept an empty one (C190_violated_config), and launching or generating from it raises TypeError. Exact for dictionaries (C190_partial, C190_launch_partial). Theorems: `C190_violated_config`, `C190_violated`, `C190_violated_more`.
* **C191 - Configurations generated part by part can be launched** (machin/auto/__main__.py:68-97, machin/auto/config.py:57-92, machin/auto/config.py:108-142). For every framework and every given dictionary; C191_command_fails records that the command itself fails for the reason of C74. Theorems: `C191_command_fails`.
* **C197 - Pools with is_copy_tensor copy tensors** (machin/parallel/pool.py:Pool.apply, machin/parallel/pool.py:Pool.__init__, machin/parallel/pool.py:BasePool.setup_queues). False in every process pool: the task and result queues are made without copy_tensor, so arguments and results go by reference and a worker writes into the caller's tensors; only tensors captured by the function are copied. Proved: exactly the storages of arguments that are written to can change; without copying a call equals a direct call; thread pools. Theorems: `C197_violated_each`, `C197_violated`.
* **C198 - Workers of a pool are started as asked** (machin/parallel/pool.py:Pool.__init__, machin/parallel/pool.py:BasePool.repopulate_pool, machin/parallel/pool.py:CtxPool.repopulate_pool). False: Pool and P2PPool always start daemons, CtxPool does not pass its context to the workers and forks. Proved: the exact start of the workers of each class. Theorems: `C198_violated_daemon`, `C198_violated_fork`, `C198_violated`.
* **C199 - Pools refuse settings that cannot work** (machin/parallel/pool.py:Pool.__init__, machin/parallel/pool.py:CtxPool.__init__, machin/parallel/pool.py:BasePool.worker). False: maxtasksperchild is not checked (workers die with a ValueError from the malformed assertion message), and context pools do not check the initializer. Proved: the exact conditions for construction and for the start of workers. Theorems: `C199_violated_maxtasks`, `C199_violated_initializer`, `C199_violated`.
* **C203 - The world object knows its process** (machin/parallel/distributed/_world.py:World.__init__, machin/parallel/distributed/_world.py:World.stop, machin/parallel/distributed/_world.py:get_cur_rank). violated: World keeps rank -1 if the rank is found out by torch (get_cur_rank is -1, every process becomes a learner), a construction that fails after the process group was made cannot be repeated, and without the RPC agent there is no world; proved: all of it with given ranks, uniqueness, stop, the lists, the learners Theorems: `C203_violated_rank`, `C203_violated_learner`, `C203_violated`, `C203_violated_retry`, `C203_violated_norpc`.
* **C204 - A group object sent to another process acts as the group, and calls tell where an exception came from** (machin/parallel/distributed/_world.py:RpcGroup.__reduce__, machin/parallel/distributed/_world.py:RpcGroup.pair, machin/parallel/distributed/_world.py:RpcGroup.unpair). violated: what is paired through a copy is found by nobody and what the process has paired cannot be released through a copy, because requests are served from the object in WORLD.groups; proved: look-ups agree, undo, outsiders, calls and service exceptions Theorems: `C204_violated`, `C204_violated_pair`, `C204_violated_unpair`.
* **C207 - A checked model runs as before unless there is a nan** (machin/utils/checker.py:check_shape, machin/utils/checker.py:check_nan, machin/utils/checker.py:i_chk_range). Violated: i_chk_range calls t.mean, which raises RuntimeError for integer inputs (an embedding), and t.min, which raises for inputs without elements; an output that is a single number raises TypeError (C207_violated_*). Proved for nonempty float tensors: passes raise nothing, entries are true, nan raises CheckError, cancel. Theorems: `C207_violated_integer`, `C207_violated_empty`, `C207_violated_scalar`, `C207_violated`.
* **C208 - Processes that train together end together** (machin/auto/launcher.py:DistributedLauncher.training_step, machin/auto/launcher.py:DistributedLauncher.train_dataloader, machin/auto/launcher.py:DistributedLauncher._log). Violated: processes with different numbers of batches wait for ever (C208_violated_counts); with the generated batch_num (10 and 1) this is so for all datasets of the same finite length of two or more items (C208_violated_generated). Proved: all processes finish along some schedule only if their collective calls agree, and if they agree every schedule goes on until all have finished; k-th calls meet k-th calls. Timeouts are left out. Theorems: `C208_violated_counts`, `C208_violated_generated`, `C208_violated`.
* **C209 - The launchers join the world of pytorch lightning** (machin/auto/pl_plugin.py:DDPPlugin.init_ddp_connection, machin/auto/pl_plugin.py:DDPSpawnPlugin.init_ddp_connection, machin/auto/launcher.py:Launcher._init_frame_with_pl). Violated: the argument world_size is overwritten before it is looked at (C209_violated_size). Proved: exact result with the size of the cluster, consistency between processes, refusals and single initialisation of the launchers. Theorems: `C209_violated_size`, `C209_violated`.
* **C216 - Sampling from a group of prioritized RNN buffers returns the windows of all members** (machin/frame/buffers/rnn_buffers.py:RNNDistributedPrioritizedBuffer._sample_service, machin/frame/buffers/prioritized_buffer_d.py:DistributedPrioritizedBuffer.sample_batch, machin/frame/buffers/prioritized_buffer_d.py:DistributedPrioritizedBuffer.update_priority). Violated: _sample_service of the RNN class returns four values for a member without a contribution, sample_batch unpacks five, so one empty or unasked member makes the call raise ValueError (C216_silent_member, C216_violated_group). Proved for groups in which every member contributes. Theorems: `C216_violated_group`, `C216_violated`.
* **C217 - Late priorities do not hit overwritten windows of a distributed RNN buffer** (machin/frame/buffers/rnn_buffers.py:RNNDistributedPrioritizedBuffer.store_episode, machin/frame/buffers/prioritized_buffer_d.py:DistributedPrioritizedBuffer._update_priority_service). Violated: store_episode skips DistributedPrioritizedBuffer.store_episode, so versions are never incremented and updates hit overwritten positions (C217_versions_never_change). The partial theorem shows that updates are otherwise exact. Theorems: `C217_violated`.
* **C218 - Sampling from a group of uniform RNN buffers returns whole windows of the members** (machin/frame/buffers/buffer_d.py:DistributedBuffer.sample_batch, machin/frame/buffers/buffer_d.py:DistributedBuffer._sample_service, machin/frame/buffers/rnn_buffers.py:RNNDistributedBuffer). Violated only if nothing is sampled and sample_attrs is not given (IndexError), as in C19. Proved otherwise. Theorems: `C218_violated`.
* **C222 - An entropy weight adds the weighted entropy to the policy loss** (machin/frame/algorithms/a2c.py:A2C.update, machin/frame/algorithms/ppo.py:PPO.update, machin/frame/algorithms/trpo.py:TRPO.update). TRPO ignores the weight (trpo.py:212-218); A2C, PPO and IMPALA add it as documented. Theorems: `C222_violated_trpo`, `C222_violated`.
* **C225 - RAINBOW is trained towards the projected target** (machin/frame/algorithms/rainbow.py:RAINBOW.update). Violated for rows whose shifted atoms fall on the support (C225_lost, C225_violated); proved for all other rows, and for any target with mass (C225_optimal). Theorems: `C225_violated`.
* **C227 - State dictionaries are loaded completely or not at all** (machin/utils/prepare.py:prep_load_state_dict, machin/utils/prepare.py:prep_load_model, machin/parallel/server/param_server.py:PushPullModelServer.pull). Violated: with further names or other shapes the parameters that fit are overwritten before the RuntimeError (C227_violated, exact outcome in C227_mixed_partial); of several models those before the failing one stay loaded (C227_several_partial). Success is characterised exactly by C227_complete, missing names by C227_missing_partial. load_state_dict of torch is modelled from its documented strict behaviour. Theorems: `C227_violated`.
* **C230 - A barrier that is used again and again keeps the members together and lets them go on** (machin/parallel/distributed/_world.py:873-895, machin/parallel/distributed/_world.py:967-973). Violated twice: a member that calls barrier() again while its exit service is between set and clear returns at once, before the others have called (C230_violated_early, C230_violated_safety); a member whose exit service runs before it waits is never woken and the group hangs for ever (C230_violated, C230_violated_hangs). Proved: safety in all histories in which nobody calls again inside that window (C230_together_partial); the group can go on for ever if and only if no member has lost its wake-up (C230_alive_partial), which never happens if no exit service ends while its member stands before wait (C230_prompt_partial). Theorems: `C230_violated_early`, `C230_violated_hangs`, `C230_violated`, `C230_violated_safety`.
* **C231 - Destroying a group object destroys that group and no other** (machin/parallel/distributed/_world.py:598-606, machin/parallel/distributed/_world.py:897-907, machin/parallel/distributed/_world.py:977-979). Violated by copies that arrive by pickling: destroying one takes away the group of the process, whose own destroy() then raises KeyError (C231_violated_copy), also a group that was made later (C231_violated_later); and a destroyed object still accepts keys, which nobody can read (C231_violated_use). Proved: the claim for histories without copies (C231_own_partial), the exact outcome in all states (C231_exact_partial), collective groups (C231_collective_partial). Theorems: `C231_violated_copy`, `C231_violated_later`, `C231_violated`, `C231_violated_use`.
* **C233 - Policy gradient methods climb the expected return of an episode** (machin/frame/algorithms/a2c.py:A2C.store_episode, machin/frame/algorithms/a2c.py:A2C.update, machin/frame/algorithms/ppo.py:PPO.update). Violated for discounts below one: the rows of an episode are not weighted with discount^t, and a witness has the average step pointing downhill. Proved: exact without discounting, and the exact gradient for every discount has the weights discount^t. Theorems: `C233_violated_downhill`, `C233_violated`.
* **C234 - Sampling from a distributed uniform buffer is uniform over the transitions of the group** (machin/frame/buffers/buffer_d.py:DistributedBuffer.sample_batch, machin/frame/buffers/buffer_d.py:DistributedBuffer._sample_service, machin/frame/buffers/buffer.py:Buffer.sample_method_random). Violated: every member is asked for ceil(B/P) transitions whatever it holds (buffer_d.py:143-144), so a transition of a member that holds little is drawn more often: with one and two transitions and a batch of two, the single one is in every batch and each of the two in every second (C234_violated_sizes, C234_violated). C234_random_partial, C234_unique_partial: the exact expectation, member m contributing min(size_m, ceil(B/P)) rows times the share of its own transitions; C234_equal_partial: uniform over the group when all members hold equally many; C234_small_partial: when no member holds more than ceil(B/P). Theorems: `C234_violated_sizes`, `C234_violated`.
* **C235 - A batch can be sampled from a distributed prioritized buffer whenever the group holds transitions** (machin/frame/buffers/prioritized_buffer_d.py:DistributedPrioritizedBuffer.sample_batch, machin/frame/buffers/prioritized_buffer_d.py:DistributedPrioritizedBuffer._sample_service, machin/frame/buffers/prioritized_buffer.py:PrioritizedBuffer.sample_index_and_weight). Violated: a member that holds transitions but no more than the B-th part of all priorities is asked for exactly one, and its service raises TypeError because the index is then a single int that is iterated over (C235_violated_light, for all histories and draws); so batches not larger than the number of members that hold transitions can never be sampled (C235_violated_small, C235_violated). C235_heavy_partial: otherwise a batch of sum ceil(w_m B / (S + 1e-6)) transitions; C235_empty_partial: empty group. Theorems: `C235_violated_light`, `C235_violated_small`, `C235_violated`.
* **C236 - Distributed prioritized sampling draws the transitions of the group in proportion to their priorities** (machin/frame/buffers/prioritized_buffer_d.py:DistributedPrioritizedBuffer.sample_batch, machin/frame/buffers/prioritized_buffer_d.py:DistributedPrioritizedBuffer._sample_service, machin/frame/buffers/prioritized_buffer.py:PrioritizedBuffer.sample_index_and_weight). Violated: the number asked of a member is rounded up, which favours members with few priorities (C236_violated: sums 2.02 and 0.82, batch of four, three and two rows). C236_share_partial: exact expectation ceil(w_m B / (S + 1e-6)) p / w_m, at least the share B p / (S + 1e-6) and less than p / w_m more; C236_equal_partial: common factor when the members have equal sums. For priorities above 1e-6 (C182). Theorems: `C236_violated`.
* **C237 - The v-trace targets of IMPALA have the value function of the clipped policy as fixed point** (machin/frame/algorithms/impala.py:IMPALA.update). Violated: the target of the last step of every episode is 0 (impala.py:351-363), so with a one-step episode of reward 1 and the right critic the target is 0 and not 1 (C237_violated). Proved: on average the targets are the values of the states minus what reaches a step of the target that the last step should have had, V + rho (r + g V' - V), times the discount and clipped ratio of every step in between (C237_missing_partial); nothing is missing where that is 0 (C237_zero_partial); the factor of the policy loss is rho (Q - V) minus rho g times what the next target lacks (C237_policy_partial); without clipping the critic in question is the value function of the learner's policy (C237_unclipped). Theorems: `C237_violated`.
* **C238 - Storing an episode leaves the data of the caller alone** (machin/frame/transition.py:TransitionBase._detach, machin/frame/transition.py:TransitionBase.__init__, machin/frame/buffers/buffer.py:Buffer.store_episode). Violated: the items of the list are replaced by transition objects, and _detach writes into the dictionaries of the caller, so that an action kept there is no longer connected with the actor (C238_violated, C238_violated_graph), even if the item is refused for a missing attribute (C238_violated_refused). Proved: a constructor that raises changes nothing (C238_raise_partial); exactly the dictionaries of the major attributes are changed, every entry becomes a new tensor on the same storage outside of the graph (C238_new_partial, C238_episode_partial for whole episodes with the exact part of the list that is replaced); all contents stay (C238_values_partial); storing the same list again changes nothing (C238_again_partial). Simplified: a dictionary is written after the loop over its items; dictionaries inside dictionaries are not modelled. Which episodes are converted, and with which exception the first refused item ends the call, is given exactly, in terms of the objects as they were before the call. Theorems: `C238_violated`, `C238_violated_graph`, `C238_violated_refused`, `C238_fails_partial`.
* **C239 - An episode whose transitions can be built is stored, without computation graphs** (machin/frame/buffers/storage.py:TransitionStorageBasic.store_episode, machin/frame/buffers/buffer.py:Buffer.store_episode, machin/frame/transition.py:TransitionBase._detach). Violated: custom attributes are not detached and deepcopy of a tensor that is the result of an operation in a graph raises RuntimeError (C239_violated, with action_log_prob as IMPALA requires it); the transitions before it have been written by then, so that a full buffer mixes them into the old episode (C239_violated_mixed). Proved: without such custom attributes the episode is stored and state, action, next state, reward and terminal are outside of any graph (C239_stored_partial); storing objects is then storing values (C239_values_partial); exactly what is written before a failing copy (C239_half_partial, C239_custom_partial). A stored copy is represented by its value (C187). Theorems: `C239_violated`, `C239_violated_mixed`.
* **C240 - Episodes of dictionaries and of transition objects are accepted alike** (machin/frame/algorithms/a2c.py:A2C.store_episode, machin/frame/algorithms/rainbow.py:RAINBOW.store_episode, machin/frame/algorithms/impala.py:IMPALA.store_episode). Violated: transition objects refuse new attributes (transition.py:70-76), so A2C and its descendants, RAINBOW, IMPALA and GAIL raise RuntimeError for objects that lack the computed attributes, possibly after some items have been changed. Proved instead: exactly when it succeeds and what the items are then; dictionaries always, storing again always. Theorems: `C240_violated`, `C240_violated_half`, `C240_violated_others`, `C240_violated_missing`.
* **C241 - Prioritized sampling in double precision never draws an empty slot** (machin/frame/buffers/prioritized_buffer.py:WeightTree.find_leaf_index, machin/frame/buffers/prioritized_buffer.py:WeightTree.update_leaf_batch, machin/frame/buffers/prioritized_buffer.py:PrioritizedBuffer.sample_index_and_weight). Violated: with priorities 2^33, 2^33 and 1 + 3/2^19 in a buffer for four items the last draw of two ends at the empty fourth slot (kernel computation in double precision), because the margin 1e-6 of prioritized_buffer.py:413-415 is absolute. Proved for every monotone rounding with relative error u (double precision is shown to be one with u = 2^-53): draws end at filled slots if (2 log n + 1) u sum <= 1e-6 (for a million slots: sums up to 2e8), the root is the exact sum up to (1 +- u)^log n, and every draw ends at a leaf whose exact cumulative interval contains the query up to an explicit slack. Overflow and underflow are not modelled. Theorems: `C241_violated`.
* **C243 - No member of a prioritized distributed buffer is asked for more than the batch** (machin/frame/buffers/prioritized_buffer_d.py:DistributedPrioritizedBuffer.sample_batch). Violated: a single process with a weight sum of about 3.4e10 is asked for 4 samples for a batch of 3 (C243_violated, C243_violated_four). Proved: at most one too many for all batch sizes below 2^51, every share within one of the exact one, none for weight 0, at least one for every other weight (C243_double_partial, C243_shares_partial); at most the batch size if no weight exceeds 2e9 (C243_double_moderate_partial, C243_moderate_partial) and in exact arithmetic (C243_exact); bounds for the total (C243_total_partial). Theorems: `C243_violated_four`, `C243_violated`.
* **C244 - The margin 1e-6 of the distributional target survives rounding** (machin/frame/algorithms/rainbow.py:RAINBOW.update, machin/frame/algorithms/rainbow.py:RAINBOW.generate_config). Violated in single precision: with the support of the project's own test (10 atoms, 0 to 40) and with the usual 51 atoms from -10 to 10, v_max - 1e-6 rounds back so that a value at the upper end falls on the last atom and its whole probability is dropped (C244_violated_lost, _lost_usual); with 51 atoms from 0 to 53 the position exceeds 50, index_add_ raises for the last row and leaks mass into the next row otherwise (C244_violated_index, _leak). Proved for all roundings: positions are never negative and at most one index too large (C244_range_partial); if (7u+5v)M < 1e-6, which covers supports within [-2, 2] in the code's precisions, all positions are strictly inside, values at the ends lie strictly between two atoms (C244_ends_partial, C244_single_partial), every entry and every row sum is the exact one at the rounded positions up to a rounding factor (C244_entries_partial, C244_mass_partial, C244_mass_single_partial). Theorems: `C244_violated_lost`, `C244_violated_lost_usual`, `C244_violated_index`, `C244_violated_leak`, `C244_violated`.
* **C245 - Soft updates converge in floating point** (machin/frame/algorithms/utils.py:soft_update). Violated: with rate 0.005 a parameter 3 equal to its source becomes 12582913/4194304 (C245_violated_moves), and towards a source of 1 the target stops 25/2^22 below or 75/2^22 above (C245_violated_stuck, _limit). Proved for all roundings: one update maps the distance e to at most (1-rate+5u)e + 5u|source| (C245_step_partial), k updates to at most (1-rate+5u)^k e + 5u|source|/(rate-5u) (C245_repeat_partial), within 0.03% of the source in single precision for rates from 0.001 (C245_single_partial); rate 0 and 1 and zero parameters are exact (C245_exact_partial); buffers and lengths are untouched (C245_frame_partial). Missing: exact equality and convergence below the rounding limit, which do not hold. Exponents are unbounded in the model: no overflow, no subnormal numbers. Theorems: `C245_violated_moves`, `C245_violated_stuck`, `C245_violated`, `C245_violated_limit`.
* **C246 - Bias correction in floating point** (machin/frame/buffers/prioritized_buffer.py:PrioritizedBuffer.sample_index_and_weight). Violated for increments below the unit of rounding: 2^-60 never changes an exponent of 1/2 (C246_violated_still). Proved for all monotone roundings: the exponent is monotone, at most 1, and within k units of rounding of min(1, beta + k inc) (C246_beta_partial); with an increment above the unit it is exactly 1 after (1-beta)/(inc-v) samplings (C246_reaches_partial), 601 for the defaults (C246_default_partial). The importance weights are in (0, 1], one is exactly 1, and they fall with the priority (C246_weights_partial), assuming that the computed power is positive and monotone. Theorems: `C246_violated_still`, `C246_violated`.
* **C247 - Uniform noise stays in its range in floating point** (machin/frame/noise/action_space_noise.py:add_uniform_noise_to_action). Violated for bounds that single precision does not represent: with bounds 1-2^-26 and 1+23/2^27 the largest draw gives 1+2^-22, above the rounded and the given upper bound (C247_violated_above). Proved for bounds that it represents: noise in [lo, hi] for all draws (C247_range_partial), hence the action between the actions with extreme noise (C247_action_partial); the noise is monotone in the draw (C247_monotone_partial); the upper bound itself can be drawn, which is not so in exact arithmetic, and a draw of 0 gives the lower bound (C247_ends_partial). Theorems: `C247_violated_above`, `C247_violated`.
* **C249 - Running statistics of ARS in double precision** (machin/frame/algorithms/ars.py:RunningStat.push, machin/frame/algorithms/ars.py:RunningStat.update, machin/frame/algorithms/ars.py:RunningStat.var). Violated: with samples all equal to the double nearest to 0.1 in two estimators of 1 and 2 samples the merged mean is another number (C249_violated); with a constant of 1.7e9 in three estimators the variance comes out above 1e-14 and the constant is normalised to more than sqrt 2 deviations from 0 (C249_violated_scale). Proved: exact for constants without merging (C249_same_partial) and with merging if the multiples are kept, such as whole numbers (C249_multiples_partial, C249_whole_partial); signs (C249_variance), growth (C249_growing), mean between the bounds of the samples without merging (C249_between_partial), error of the mean over all merge trees (C249_error, C249_million), normalisation (C249_normalise). No error bound for the sum of squares; the square root is a parameter; no overflow and no subnormal numbers. Theorems: `C249_violated`, `C249_violated_scale`.
* **C250 - Normalised advantages in single precision** (machin/frame/algorithms/a2c.py:A2C.update, machin/frame/algorithms/ppo.py:PPO.update, machin/frame/algorithms/trpo.py:TRPO.update). Violated: three advantages of 1999.3 (single precision) have a computed mean that differs by one unit in the last place, which is divided by 1e-6, so all three become about -122 (C250_violated, C250_violated_size); there is no bound on this (C250_violated_unbounded). Proved: zeros if the multiples are kept (C250_multiples_partial, C250_whole_partial) or a power of two is summed pairwise (C250_pairwise_partial); order, sign and error bounds hold for all batches and all orders of summation. The standard deviation is a parameter (0 for equal elements). Theorems: `C250_violated`, `C250_violated_size`, `C250_violated_unbounded`.
* **C251 - Callbacks that raise do not lose results** (machin/parallel/pool.py:AsyncResult.set, machin/parallel/pool.py:MapResult.set, machin/parallel/pool.py:BasePool._handle_results). Violated: callbacks are called before the event is set and before the job leaves the cache. An exception other than KeyError ends the thread of _handle_results, so no job is answered any more and close cannot finish (C251_violated, C251_violated_other, C251_dead); a KeyError is swallowed and only this job waits for ever (C251_violated_key). Proved: the exact condition for apply_async (C251_answered); jobs whose callbacks return behave as in C28-C32 while the thread lives (C251_isolated_partial), which it does if callbacks raise nothing but KeyError (C251_alive); nothing is lost if no callback raises (C251_quiet_partial). Theorems: `C251_violated`, `C251_violated_other`, `C251_violated_key`.
* **C252 - Every task has its result, however its call ends** (machin/parallel/pool.py:BasePool.worker, machin/parallel/pool.py:BasePool.maintain_pool, machin/parallel/pool.py:BasePool._handle_results). Violated: put is outside the try block of the worker, so a result or exception that cannot be serialized ends the worker without a message (C252_violated), as does SystemExit (C252_violated_exit); an initializer that raises ends every worker again and again without notice (C252_violated_initializer); a message that cannot be rebuilt ends the thread that reads results (C252_violated_read). The job waits for ever and the pool cannot be closed (C252_waits). Proved: exact messages in every history (C252_history), all results for sound tasks (C252_sound_partial), other tasks are not harmed (C252_others), limit of tasks per worker (C252_limit), reading (C252_read, C252_read_partial). Theorems: `C252_violated`, `C252_violated_exit`, `C252_violated_initializer`, `C252_violated_read`.
* **C253 - The exploration rate falls with every decaying call** (machin/frame/algorithms/dqn.py:DQN.act_discrete_with_noise, machin/frame/algorithms/rainbow.py:RAINBOW.act_discrete_with_noise). Violated in the range of gradual underflow: for every decay above one half and every starting rate the rate is positive for ever and from some call on constant (C253_violated_always, C253_violated); C253_end and C253_stops say where it stops, C253_end_default that 4999/2^1074 stays with the default decay 0.9999. C253_normal_partial: while the product is at least 2^-1022 every call makes the rate smaller by at least one part in 2^53; missing: the calls below. C253_monotone: never rises, never negative. C253_reaches: it becomes 0 exactly for decays of at most one half. C253_draws: after enough calls exactly the draw 0 still explores. C253_error_partial: relative error at most 51/25 n / 2^53 while the power is at least 2^-1021 and n <= 2^50; C253_default for 0.9999 and a million calls. Rounding to 53 digits with gradual underflow, without overflow. Theorems: `C253_violated_always`, `C253_violated`.
* **C254 - The world is constructed and stopped properly** (machin/parallel/distributed/_world.py:_world_singleton, machin/parallel/distributed/_world.py:World.__init__, machin/parallel/distributed/_world.py:World.stop). Violated in three ways. C254_violated_construct: with init_rpc=False the constructor fails after the process group was initialized, and C254_retry: then no construction with init_dist succeeds any more. C254_violated_stop, C254_started: started is never reset, the check of stop never raises its error. C254_violated_rank, C254_relative: with the rank left to torch the world has rank -1 and is in no collective group. Holding: C254_once (at most one world), C254_construct (exact condition and result), C254_no_rpc, C254_keep_partial (exactly when a failed construction leaves nothing), C254_stop_partial (when stop succeeds; everything afterwards raises), C254_rank_partial (explicit rank), C254_names, C254_manager (agreement). Missing: the full statement, which is false. torch.distributed is modelled by its documentation. Theorems: `C254_violated_construct`, `C254_violated_stop`, `C254_violated_rank`, `C254_violated`.
* **C255 - The adaptive noise deviation follows the distances in double precision** (machin/frame/noise/param_space_noise.py:AdaptiveParamNoise.adapt). Violated for tiny numbers. C255_violated_shrink: with a coefficient below 2 the deviation stops falling after enough distances above the desired one; C255_dead, C255_violated_dead: where one coefficient more changes it by less than half of the smallest number it stays for ever, with the coefficient 1.015 this is reached from above; C255_default: with 1.01 it is not. C255_shrink_partial, C255_grow_partial: strict changes while the numbers are at least 2^-1022, weak ones always; missing: the strict changes below. C255_float: in every history a nonnegative float. C255_error_partial: after any history of n <= 2^50 distances the relative error against the exact deviation is at most 51/25 n / 2^53 while that is at least 2^-1021. C255_order: shrinking and growing do not cancel exactly. Rounding to 53 digits with gradual underflow, without overflow. Theorems: `C255_violated_shrink`, `C255_violated_dead`, `C255_violated`.
* **C256 - A class in any frame of the call stack can be named** (machin/frame/algorithms/utils.py:get_globals_from_stack, machin/frame/algorithms/utils.py:assert_and_get_valid_models, machin/frame/algorithms/utils.py:assert_and_get_valid_optimizer). Violated: the outermost frame that has the name decides, so another global further out hides the class, and names with two leading underscores are never found. Proved: the exact condition under which a name gives a model, and success if all frames that have the name agree on the kind. Theorems: `C256_violated_hidden`, `C256_violated_underscores`, `C256_violated`.
* **C257 - An importable class can be named by its path** (machin/frame/algorithms/utils.py:safe_import, machin/frame/algorithms/utils.py:assert_and_get_valid_models). Violated: only the first component is imported, so a class in a submodule that nobody has loaded raises AttributeError. Proved: the exact condition on the loaded modules, success for top level modules, the errors, and what is loaded. Theorems: `C257_violated_submodule`, `C257_violated`, `C257_violated_history`.
* **C258 - The Ornstein-Uhlenbeck noise returns to its mean in single precision** (machin/frame/noise/generator.py:OrnsteinUhlenbeckNoiseGen.__call__). Violated inside a narrow band around a mean other than 0, where the pull is rounded away and two starts never meet. Proved for every rounding: closer from outside the band, values in a band for bounded draws, and a bound of the distance from the exact process over all histories; instances for the usual parameters in single precision. Theorems: `C258_violated_near`, `C258_violated_forgets`, `C258_violated`.
* **C259 - The end of parameter noise** (machin/frame/noise/param_space_noise.py:288-293). Violated: the function only removes the hooks, so a model whose last pass was noisy keeps the noise and switching noise off afterwards has no effect. Proved: after the end passes do nothing and parameters move only with optimizer steps; exactly which noise is left, with and without a pass with noise off before the end; and the full claim when noise is drawn once and a pass with noise off precedes the end. Theorems: `C259_violated`.
* **C260 - Reported schedulers belong to the reported optimizers** (machin/frame/algorithms/maddpg.py:308-326, machin/frame/algorithms/gail.py:184-198, machin/frame/algorithms/sac.py:186-217). Violated by MADDPG (optimizers begin with the critics, schedulers with the actors) for all numbers of agents, and by GAIL with a scheduler of its own only. Proved: every algorithm reports each of its schedulers once, in order of creation, after any number of steps; position by position fit for all algorithms but these two, for GAIL with the schedulers of its policy optimisation, and the exact order for MADDPG without arguments. Theorems: `C260_violated`, `C260_violated_maddpg`.
* **C261 - Pictures are shown with their brightness** (machin/utils/media.py:10-51). Violated for grey pictures: the panel of the original is scaled to the range of the picture (vmin and vmax are its own minimum and maximum), so dark and bright pictures look alike. Proved: pictures in colour are shown with their brightness; for grey pictures exactly what is shown, and that it is the brightness only if the picture is black or reaches from 0 to 1; the second panel lies in [0, 1), contains black, nearly reaches full brightness and keeps the order strictly. The behaviour of imshow of matplotlib is an assumption of the model. Theorems: `C261_violated`.
* **C262 - Videos written by another process** (machin/utils/media.py:100-147, machin/utils/media.py:176-221). Violated: the returned function joins the child without looking at its exit code, so it returns normally after a failure; with the default daemon=True the child is terminated when the caller ends; in a daemonic process both functions raise also with daemon=False, against the documentation. Proved for all histories: when the returned function returns the child has written its file or failed, and if it has not failed and is alone on its path the file has the frames of the list at the time of the call; with daemon=False the file is written in the end; lists of the caller are unchanged. Theorems: `C262_violated`, `C262_violated_daemon`, `C262_violated_daemonic`.

## 5. Further observations made while reading (not stated as properties)

* `sample_dimension` of the RNN buffers is never used.
* `P2PPool.close()` is `terminate()`: pending jobs are discarded.
* A user callback that raises ends the result handler thread of the pool, so no later result is delivered.
* The size check of ARS can never raise (`C54_check_never_raises`): the branch for "too small" is behind the weaker test.
* `IMPALA.store_episode` refuses `Transition` objects without `episode_length`; `IMPALA.update` on empty buffers raises `TypeError`.
* Sub-process environment wrapper: duplicate indexes hang, `render` does not check termination, `seed` raises for environments without
  `seed` (the for-loop wrapper skips them), a failing `close` leaves workers running with `_closed = True`, calls after `close` hang.
* `np.bool` (openai_gym.py) was removed from newer numpy versions.
* TRPO: the discrete actor measures the divergence on `probs + 1e-6`; the Fisher mode ignores the block of `log_std`.
* `perturb_model` documents a reset function and a deregister function but returns only `cancel`; calling it while noise is on leaves
  noisy parameters; the adjustment compares outputs of possibly different inputs.
* `safe_call` on a model without parameters and without `input_device` raises `IndexError`.
* MADDPG: learning rate schedulers are called with `*lr_sch_kwargs` (maddpg.py:258-275); `jit_actor_target` compiles the online actor
  (maddpg.py:298); `act_discrete_with_noise` samples `[batch, 1]` draws per row and fails for more than one row.
* Distributed prioritized importance weights use the length of the local storage with the global weight sum (C89).
* The learning rate scheduler handed to `PushPullGradServerImpl.manage_model` is stored and never stepped.
* `GAIL.init_from_config` does not move the discriminator to `model_device`.
* `Process.run` swallows every exception, so the exit code is 0 also after a failure (process.py).
* `init_ddp_connection` ignores its argument `world_size` (pl_plugin.py:40).
* `param_check_interval` is documented as a number of backward passes; the counter of forward passes is used (checker.py).
* The comment at `MultiP2PQueue.quick_put` speaks of a random choice; the code takes the sub-queues in turn (C120).
* A2C, A3C, PPO, TRPO and GAIL used with two episodes per update fail at a later update with one episode no longer than the first (C05_violated_rounds).
* `remove_trials_older_than` does not spare the trial the environment itself works in, if it was restarted from an old one.
* `prep_load_state_dict` discards the results of `.to(param.device)`; harmless, since `load_state_dict` copies (prepare.py:47-48).
* `log_image` raises its counter before it refuses an unsupported image (pl_logger.py:100-110).
* Rewards stored as tensors of shape `[1]` also make squares of the advantages of A2C and of the TD errors PER derives its priorities from, since both compute with the same columns of values (C138 models the targets only).
* `MADDPG._criticize` is not used anywhere and returns a tuple where the documentation speaks of a tensor (maddpg.py:428-447).
* `A3C.act` pulls the newest parameters before every action, which also clears gradients accumulated by an earlier backward pass of the same process (a3c.py:138-142, grad_server.py:146-170).
* The Ornstein-Uhlenbeck generator is a module-level global: all algorithms of one process share it, and parameters given after the first call are ignored (action_space_noise.py:9, 160-165).
* ARS with `used_rollout_num=0` still uses the best rollout (the 100th percentile is the maximum), and `gradient_max` is accepted but unused because the clipping is commented out (ars.py:544-572).
* `model_server_helper` is to be called by all processes, but `create_rpc_group` raises a `RuntimeError` for those that are no members (servers.py:112-155, _world.py:347-365).
* `A3C.update` drops the values that `A2C.update` returns (a3c.py:156-165).
* A2C and PPO with `actor_update_times=0` or `critic_update_times=0` divide by zero when they return the mean losses (a2c.py:420-423, ppo.py:211-214).
* DDPG and TD3 leave the gradient of the policy loss in the critic; it is only cleared by the next `critic.zero_grad()` (ddpg.py:446-450), so a caller that steps the critic's optimizer itself would use it.
* C150 holds of every update method but that of GAIL: its block for the discriminator makes optimizer steps on the actor, along the gradient that the last policy update left there (gail.py:160-162, 304-313).
* The example in the documentation of `load_config_cmd` (conf.py:50-72) drops the result of `load_config_cmd(c)`; since the configuration is copied before the merge, `c` does not change there. It then calls `SaveEnv(c)`, whose first parameter is a path (save_env.py:13-19).
* `perturb_model` documents two results, a reset function and a deregister function; it returns the second only (param_space_noise.py:236-293).
* The frameworks that take groups and servers as positional arguments (`DQNApex`, `DDPGApex`, `IMPALA`, `ARS`, `A3C`) bind a surplus model to `optimizer` or `criterion`, because the last positional arguments go to `*_`; the error appears only when the model is called as an optimizer.
* Defaults of constructors and of generated configurations differ: `update_rate` of SAC is 0.005 in the constructor and 0.001 in the configuration, `learning_rate` of ARS is 0.01 and 0.001.
* `model_server_helper` and `grad_server_helper` (`servers.py:26-155`) document that all processes in the world must enter,
  but a process that is not in `members` gets `RuntimeError` from `create_rpc_group` (theorem `C171_outside`).
* `RNNDistributedPrioritizedBuffer._sample_service` (`rnn_buffers.py:537-538`) answers with four values when it has nothing to
  sample, while `DistributedPrioritizedBuffer.sample_batch` (`prioritized_buffer_d.py:250`) unpacks five.
* `World.stop` (`_world.py:315-319`) does not reset `started`, so the check against stopping twice never fires.
* `IMapIterator.next` (`pool.py:211-242`) waits once and then looks again; Python's own pool has the same code and the same
  restriction to one consumer, which the documentation of neither mentions (witnesses `C176_violated_…`).
* `BasePool._map_async` (`pool.py:530-535`) reads `len(self._pool)` without a lock while `maintain_pool` rebuilds that list in
  another thread (witness `C175_violated_window`).
* `TD3.update` and `SAC.update` never draw the second critic although `visualize` is set (`td3.py:178-260`, `sac.py:301-397`;
  `C179_asked_partial`).
* `MADDPG.update` on empty buffers returns `None` instead of two numbers (`maddpg.py:545-547`).
* New transitions of a `PrioritizedBuffer` get `_normalize_priority(get_leaf_max())`, but the leaves are already normalized
  (`prioritized_buffer.py:303`), so with the default `alpha = 0.6` new transitions start below the maximum once that exceeds about one,
  and above it while the maximum is below one (`C183_violated`, `C183_partial`).
* `np.clip(..., max(sum - 1e-6, 0))` with an absolute margin makes sampling degenerate to the first leaf when all priorities are tiny
  (`prioritized_buffer.py:411-413`; `C182_violated_small`).
* `safe_call` wraps a model without device attributes by `static_module_wrapper` at its first call and thereby writes the device into the
  model; moving the model later sends its arguments to the old device (`utils.py:77-108`; `C186_violated`).
* `set_input_module` and `set_output_module` check only the first or last leaf of a container while the devices are asked of all its
  parameters (`nets/base.py:20-49` against `52-86`; `C184_violated`).
* `TransitionBase.to` changes the dictionaries of the major attributes in place, so calling it on a transition of one's own moves the tensors
  in dictionaries shared with other transitions; the storages avoid that by copying first (`C187_caller`).
* `prep_load_state_dict` discards the result of `.to` (`utils/prepare.py:46-47`), which for tensors is not in place.
* `generate_env_config` uses `isinstance(x, callable)`, which raises `TypeError` as `callable` is not a class (`auto/config.py:78-86`).
* `init_ddp_connection` overwrites its `world_size` argument (`auto/pl_plugin.py:41, 106`).
* The comment "queues are only used to send dumped strings" (`parallel/pool.py:1099`) is not true: arguments are sent as objects (see C197).
* The message of the assertion on `maxtasks` uses `{maxtasks:!r}`, which raises `ValueError` (`parallel/pool.py:743`).
* `check_shape` and `check_nan` are documented to raise RuntimeError but raise `CheckError`, which is not a subclass of it (C207_shape_partial). The default hook `i_chk_range` makes any module with an integer input unusable once it is checked (C207_violated_integer).
* `DistributedLauncher` needs all processes to make the same number of training steps; `batch_num` (10 for samplers, 1 for learners) makes finite datasets of equal length a deadlock (C208_violated_generated). Gym datasets never end, so the trainer has to stop them (`max_steps`, `limit_train_batches`).
* `init_ddp_connection` ignores its argument `world_size` (pl_plugin.py:43, C209_violated_size).
* `RNNDistributedPrioritizedBuffer._sample_service` returns four values instead of five when it has nothing to contribute (rnn_buffers.py:538); a group with one empty member cannot be sampled (C216_violated). Its `store_episode` never increments versions (C217_violated). Both are hidden by the constructor, which always raises (C65).
* TRPO accepts `entropy_weight`, documents it like the others and hands it to A2C, but `actor_loss_func` (trpo.py:212-218) does not read it: the setting has no effect (C222).
* A row of RAINBOW all of whose shifted atoms fall on atoms of the support (for instance a terminal step whose value is an atom) has the target 0: its loss is 0 whatever the network answers and its new priority is `1e-6`, so it neither trains the network nor is likely to be drawn again (C225, a consequence of C49).
* `prep_load_state_dict` drops the result of `.to` (prepare.py:48); the loop only checks that every name exists. A dictionary with further names or other shapes overwrites what fits and then raises, leaving a mixture (C227).
* The exit service of the barrier of an RPC group sets and clears its event (`_world.py:970-973`): a member that is not yet in `wait` misses it and hangs (C38, C230), and a member that is fast enough to call `barrier()` again in between passes the next barrier alone (C230_violated_early).
* `RpcGroup.destroy` of a copy pops the entry of `WORLD.groups`, which is another object (_world.py:905); the group itself then cannot be destroyed (C231).
* The policy losses of A2C, PPO and TRPO do not weight the rows of an episode with `discount ** t` although the advantages are discounted: the average step is not the gradient of the expected discounted return and may point downhill (C233_violated_downhill). Most implementations do the same; without discounting the step is exact.
* `DistributedBuffer.sample_batch` asks every member for the same number of transitions whatever it holds (buffer_d.py:143-144); transitions of members that hold few are drawn more often (C234).
* `DistributedPrioritizedBuffer.sample_batch` raises `TypeError` when a member is asked for exactly one transition (prioritized_buffer_d.py:225-243, 301; the same defect as C12), i.e. when it has at most the B-th part of all priorities (C235).
* With the exact value function as critic the v-trace targets of IMPALA are too small on average by the discounted target of the last step, which is set to 0 (impala.py:351-356; C237).
* `Transition(**d)` writes detached tensors into the dictionaries of the caller (transition.py:158-161), and `Buffer.store_episode` replaces the items of the caller's list (buffer.py:91; C238).
* Custom attributes are not detached (transition.py:166-168): a tensor of a graph among them makes `deepcopy` (storage.py:99) raise `RuntimeError` in the middle of an episode; what was written before stays and is sampled as a part of the episodes it has overwritten (C239).
* `store_episode` of A2C (A3C, PPO, TRPO), RAINBOW, IMPALA and GAIL assigns new attributes to the items; transition objects, which the type hints allow, refuse them with `RuntimeError`, dictionaries visited before stay changed; empty episodes raise `IndexError` instead of the `ValueError` of the buffer in A2C, RAINBOW and GAIL (C240).
* The margin `1e-6` below the sum of all priorities is absolute (prioritized_buffer.py:413-415): for sums above `2^53 * 1e-6 / (2 log n + 1)`, about 2e8 for a million slots, rounding may use it up and a draw may end at a slot without an item, so that reading the storage raises `IndexError` (C241).
* C243: the prioritized distributed buffer may be asked for one sample more than the batch size in double precision: for a single process with weight sum 4438101006183881 / 2^17 and batch size 3, `ssize` is 4.
* C244: the margin `1e-6` of rainbow.py:257 does not survive single precision. With 10 atoms from 0 to 40, the values of test_rainbow.py, or 51 atoms from -10 to 10, a shifted value at or above `v_max` falls on the last atom and its probability is dropped; with 51 atoms from 0 to 53 the upper index is 51 and `index_add_` raises (or adds to the next row). Supports within `[-2, 2]`, such as the default `[-1, 1]`, are proved safe.
* C245: with an update rate of 0.005 the two factors 1 - rate and rate do not add up to 1 in single precision: a target parameter 3 equal to its source drifts to 3 + 2^-22, and a target stops short of its source by up to `5u|source| / (rate - 5u)`.
* C246: with an increment below half a unit in the last place `curr_beta` never reaches 1.
* C247: uniform noise may exceed its upper bound when the bounds are not single precision numbers, and may equal it when they are.
* C249: merging running statistics of workers that all saw the same constant gives a mean that differs from the constant by rounding; for large constants (a time in seconds) the deviation then passes the threshold 1e-7 and the constant component is normalised to a number of size 1 instead of 0.
* Normalised advantages (C250). `advantage.mean()` is computed in `float32`; for equal advantages it may differ from them by a unit in the last place, and the difference is divided by `advantage.std() + 1e-6 = 1e-6`. Three advantages of 1999.3 become -122 each. The model leaves the order of summation open (torch does not fix it) and takes the standard deviation as a parameter; torch computes it in `float64`, so it is 0 for equal elements.
* Callbacks that raise (C251). `AsyncResult.set` and `MapResult.set` call the callback before `_event.set()` and before the job is deleted from the cache, and `_handle_results` catches `KeyError` only. One raising callback therefore ends the thread that hands out results: every other job waits for ever and `close(); join()` does not return.
* Calls that end in other ways (C252). In `BasePool.worker` the call is guarded by `except Exception`, but `put` of its result is not: a result that cannot be serialized ends the worker, its task is lost and its job waits for ever. The standard library guards `put` with `MaybeEncodingError`. `SystemExit`, a raising initializer and results that cannot be rebuilt have similar effects. One round of a worker is one step here; the finer steps are those of C174.
* C253: `epsilon *= epsilon_decay` in binary64 never reaches 0 for a decay above one half; it ends at a positive subnormal number and the draw `0.0` of `t.rand` (one of 2^24 values) explores for ever. Harmless in practice, but a rate of "zero" after long training is not what the attribute holds.
* The life of the world (C254). `World(init_rpc=False)` can never succeed (`_get_current_rpc_agent` raises) and leaves the process group initialized, so that a second attempt fails in `init_process_group`. `stop` tests `started` but nothing sets it to `False`. `rank` and `world_size` are stored as given: with the documented `-1` the world has rank `-1`, `create_collective_group` finds it in no group.
* C255: `adapt` divides or multiplies the deviation by the coefficient. Below about `1 / (coeff - 1)` units of the smallest number both are rounded back to the old value: with the coefficient 1.015 a deviation that has fallen to `33 / 2^1074` never changes again. With the default 1.01 (in binary slightly above) it can still rise.
* C256: `get_globals_from_stack` overwrites what inner frames define by what outer frames define, so the outermost frame decides. A script variable `Actor = Actor()` (an instance under the name of the class) makes the string `"Actor"` raise `TypeError` from `issubclass` even when the class is a global of the calling module; a class that is no `nn.Module` gives the message that lists "any frame of your call stack". Writing the globals only if absent, or skipping what is no class of the right kind, repairs it.
* C257: `safe_import("foo.baz.model")` imports `foo` only. If `foo/__init__.py` does not import `baz`, `getattr(foo, "baz")` raises `AttributeError`, although the message of the caller gives exactly this form as an example. Whether it works depends on what was imported before. `importlib.import_module` on all but the last part repairs it. What a dotted name gives is not checked to be a class of the right kind.
* C258: with a mean other than 0 the pull `theta * (mu - x) * dt` of values next to the mean is below half a unit in the last place and is rounded away, so that the process without noise stops short of its mean. The band is narrow (`6 u |mu| / (theta dt)`, about 2.4e-4 times the mean with the defaults); the theorems give the bounds that hold.
* C259: the function returned by `perturb_model` is documented as a deregister function; the first returned value that the documentation promises (a reset function that swaps in the original parameters) does not exist.
* C260: `MADDPG.optimizers` is `sum(actor_optims, critic_optims)`, which begins with the critics; `MADDPG.lr_schedulers` begins with the actors. Whoever pairs the two lists by position pairs critics with schedulers of actors.
* C261: `show_image` passes `vmin=np.min(image), vmax=np.max(image)` for the panel of the original; for grey pictures this normalises it. `vmin=0, vmax=1` repairs it.
* C262: `wait` is `p.join()`; the exit code of the child is not looked at. The note that `daemon=False` allows use in daemonic processes is not true of `multiprocessing`, which refuses children of daemonic processes in any case.
* Line citations: a script compared each citation of the form "name (file.py:lines)" with the span of the function or class of that name in `/repo`. Wrong numbers were found and corrected in `Ars/Model`, `Ars/Round`, `EnvWrap/Model`, `Trpo/Model`, `Algo/Prob`, `Algo/Sched`, `Auto/Plugin`, `Act/Model` and `Noise/Model`; the modelled code of `Ars/Model` was read again against the source and agrees. Citations that name no function, and ranges inside long functions, were not checked this way and may be off by a few lines.
