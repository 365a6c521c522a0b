import Verif.Base.Err

/-!
# Model of objects that register services while they are constructed

The constructors of `machin/frame/buffers/buffer_d.py`, `machin/frame/buffers/prioritized_buffer_d.py`,
`machin/parallel/server/ordered_server.py` and `machin/parallel/server/param_server.py`, as sequences of the steps other
processes can tell apart: an attribute is set, a bound method is registered as a service, an accessor is paired. Requests of
other processes are served in threads of their own, so a request may arrive between any two steps. Of a service only the
attributes of the object it reads are kept; its effect is modelled in the areas `Dist`, `Server` and `Replay`.
-/

namespace Machin.Group

/-- A step of a constructor: `self.attr = …`; `group.register(service, method)` with the attributes the method reads;
`group.pair(key, accessor)` with the services the methods of the accessor call. -/
inductive CStep
  | set (attr : String)
  | register (service : String) (reads : List String)
  | pair (key : String) (calls : List String)
  deriving DecidableEq, Repr

/-- The attributes set so far, the services registered so far and the accessors paired so far. -/
structure Obj where
  attrs : List String
  services : List (String × List String)
  paired : List (String × List String)
  deriving DecidableEq, Repr

/-- Before the constructor. -/
def Obj.empty : Obj := ⟨[], [], []⟩

/-- One step. -/
def Obj.step (o : Obj) : CStep → Obj
  | .set a => { o with attrs := o.attrs ++ [a] }
  | .register s r => { o with services := o.services ++ [(s, r)] }
  | .pair k c => { o with paired := o.paired ++ [(k, c)] }

/-- The object after some steps. -/
def Obj.run (steps : List CStep) : Obj := steps.foldl Obj.step Obj.empty

/-- A request for a service of the object: `_rpc_service_call` and `_rpc_call_service` (_world.py:950-965, 100-131).
`KeyError` if it is not registered, `AttributeError` (inside an `RpcException`) if the method reads an attribute that is not
set yet. -/
def Obj.call (o : Obj) (service : String) : Except Err Unit :=
  match o.services.find? (fun s => s.1 == service) with
  | none => .error .key
  | some (_, reads) => if reads.all (fun a => o.attrs.contains a) then .ok () else .error .attribute

/-- A method of the paired accessor `key` that calls `service`: `get_paired` raises `KeyError` if nothing is paired
(_world.py:711-734). -/
def Obj.use (o : Obj) (key service : String) : Except Err Unit :=
  match o.paired.find? (fun p => p.1 == key) with
  | none => .error .key
  | some _ => o.call service

/-- `Buffer.__init__` (buffer.py:36-44). -/
def bufferSteps : List CStep :=
  [.set "storage", .set "transition_episode_number", .set "episode_transition_handles", .set "episode_counter"]

/-- `DistributedBuffer.__init__` (buffer_d.py:60-77). The services use the lock: `_size_service` calls `size` (106-112,
174-175), `_clear_service` calls `clear` (88-93, 177-178), `_sample_service` (180-198). The lock is set last. -/
def distributedSteps : List CStep :=
  bufferSteps ++
  [.set "buffer_name", .set "group",
   .register "_size_service" ["wr_lock", "storage"],
   .register "_clear_service" ["wr_lock", "storage"],
   .register "_sample_service" ["wr_lock", "storage", "episode_transition_handles"],
   .set "wr_lock"]

/-- `DistributedPrioritizedBuffer.__init__` (prioritized_buffer_d.py:78-109) after `PrioritizedBuffer.__init__`
(prioritized_buffer.py:269-277). The services (prioritized_buffer_d.py:268-325) use the lock, which is set last. -/
def prioritizedSteps : List CStep :=
  bufferSteps ++
  [.set "epsilon", .set "alpha", .set "beta", .set "beta_increment_per_sampling", .set "curr_beta", .set "wt_tree",
   .set "buffer_name", .set "buffer_version_table", .set "group",
   .register "_size_service" ["wr_lock", "storage"],
   .register "_clear_service" ["wr_lock", "storage", "wt_tree", "buffer_version_table"],
   .register "_weight_sum_service" ["wr_lock", "wt_tree"],
   .register "_update_priority_service" ["wr_lock", "wt_tree", "buffer_version_table", "epsilon", "alpha"],
   .register "_sample_service" ["wr_lock", "storage", "wt_tree", "buffer_version_table", "curr_beta",
     "beta_increment_per_sampling"],
   .set "wr_lock"]

/-- `OrderedServerSimpleImpl.__init__` (ordered_server.py:99-110): the accessor is paired before the services it calls
(62-76) are registered. `pre` is the name of the server. -/
def orderedSteps (pre : String) : List CStep :=
  [.set (pre ++ "storage"), .set (pre ++ "lock"), .set (pre ++ "version_depth"),
   .pair pre [pre ++ "/_push_service", pre ++ "/_pull_service"],
   .register (pre ++ "/_push_service") [pre ++ "lock", pre ++ "storage", pre ++ "version_depth"],
   .register (pre ++ "/_pull_service") [pre ++ "lock", pre ++ "storage"]]

/-- `PushPullModelServerImpl.__init__` (param_server.py:125-140) without a given ordered server: the inner server is
complete before the accessor is paired. -/
def modelServerSteps : List CStep :=
  [.set "server_name", .set "group", .set "model_name"] ++ orderedSteps "o_server" ++
  [.set "o_server", .pair "server" ["o_server/_push_service", "o_server/_pull_service"]]

/-- `PushPullGradServerImpl.__init__` (param_server.py:283-351) on the primary reducer, without a given ordered server:
`_push_service` (398-409) uses the queues and the event, which are set after it is registered and after the accessor is
paired. The accessor calls `_push_service` and pulls from the ordered server (164-211). -/
def gradServerSteps : List CStep :=
  [.set "server_name", .set "group", .set "model_name"] ++ orderedSteps "o_server" ++
  [.set "o_server", .set "primary_reducer", .set "primary_service", .set "secondary_reducers", .set "secondary_services",
   .register "_push_service" ["secondary_queue", "master_queue", "work_event"],
   .pair "server" ["_push_service", "o_server/_pull_service"],
   .set "started", .set "reduce_method", .set "reduce_batch_size", .set "reduce_device", .set "max_queue_size",
   .set "model", .set "optimizer", .set "lr_scheduler",
   .set "master_queue", .set "secondary_queue", .set "work_event", .set "stop_event", .set "reduce_task"]

/-- The modelled constructors. The recurrent distributed buffers cannot be constructed at all (property C65). -/
def constructors : List (List CStep) :=
  [distributedSteps, prioritizedSteps, orderedSteps "o_server", modelServerSteps, gradServerSteps]

end Machin.Group
