import Verif.Base.Err

/-!
# Model of the connection of the launchers to pytorch lightning

`init_ddp_connection` and `configure_ddp` of the two plugins (`machin/auto/pl_plugin.py` lines 16-81, 107-152; the two classes have the
same text), `_init_frame_with_pl` of the two launchers (`machin/auto/launcher.py` lines 75-93, 204-219) and `init_frame` (183-202).
Addresses are numbers.
-/

namespace Machin.Auto

/-- What the cluster environment of pytorch lightning tells. -/
structure Cluster where
  addr : Option Nat
  port : Option Nat
  size : Option Nat
  rank : Nat
  deriving DecidableEq, Repr

/-- The arguments with which `World` is constructed. -/
structure WorldArgs where
  name : String
  rank : Nat
  size : Nat
  distAt : Nat × Nat
  rpcAt : Nat × Nat
  deriving DecidableEq, Repr

/-- `init_ddp_connection` (pl_plugin.py:35-70, 100-135): the world after the call (`none` if there is none). The argument `world_size` is
overwritten before it is looked at (40, 105). `construct` is the constructor of `World`. -/
def initConnection (c : Cluster) (globalRank _worldSize : Option Nat) (construct : WorldArgs → Except Err Unit) (world : Option WorldArgs) :
    Option WorldArgs × Except Err Unit :=
  let worldSize := c.size
  let rank := globalRank.getD c.rank
  match c.addr, c.port, worldSize with
  | some addr, some port, some size =>
    match world with
    | some w => (some w, .ok ())
    | none =>
      let args : WorldArgs := ⟨toString rank, rank, size, (addr, port), (addr, port + 1)⟩
      match construct args with
      | .error e => (none, .error e)
      | .ok () => (some args, .ok ())
  | _, _, _ => (world, .error .assertion)

/-- The plugin of the trainer: the patched ones, or another one. -/
inductive TrainingPlugin
  | ddp
  | ddpSpawn
  | other
  deriving DecidableEq, Repr

/-- What `_init_frame_with_pl` changes. `Opt` are optimizers. -/
structure PlState (Opt : Type) where
  inited : Bool
  manualBackward : Bool
  optimizers : List Opt
  deriving DecidableEq, Repr

/-- `self.optimizers()` of pytorch lightning: a list, or a single optimizer. -/
inductive Opts (Opt : Type)
  | list (l : List Opt)
  | single (o : Opt)
  deriving DecidableEq, Repr

/-- `Launcher._init_frame_with_pl` (launcher.py:75-93). -/
def initLocal {Opt : Type} (useDdp : Bool) (opts : Opts Opt) (s : PlState Opt) : PlState Opt × Except Err Unit :=
  if !s.inited then
    if useDdp then (s, .error .runtime)
    else (⟨true, true, match opts with | .list l => l | .single o => [o]⟩, .ok ())
  else (s, .ok ())

/-- `DistributedLauncher._init_frame_with_pl` (launcher.py:204-219). -/
def initDistributed {Opt : Type} (useDdp : Bool) (plugin : TrainingPlugin) (s : PlState Opt) : PlState Opt × Except Err Unit :=
  if !s.inited then
    if !useDdp || !(plugin == .ddp || plugin == .ddpSpawn) then (s, .error .runtime)
    else ({ s with inited := true }, .ok ())
  else (s, .ok ())

/-- The hooks `on_train_start` and `on_test_start` (launcher.py:39-43, 134-138), any number of times, until one raises. -/
def hooks {S : Type} (init : S → S × Except Err Unit) : Nat → S → S × Except Err Unit
  | 0, s => (s, .ok ())
  | n + 1, s =>
    match init s with
    | (s, .error e) => (s, .error e)
    | (s, .ok ()) => hooks init n s

end Machin.Auto
